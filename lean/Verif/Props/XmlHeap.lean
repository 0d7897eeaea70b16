import Verif.Proof.XmlHeap
import Verif.Proof.MiniXml
set_option linter.unusedSimpArgs false

/-!
# C105: the nodes of a parsed document in memory
-/
namespace Verif.Props.XmlHeap
open Verif.XmlHeap
open Verif.Spec.XmlHeap
open Verif.Config (Str)
open Verif.MiniXml (Node parse getFirst getFirstList getWord isName skipSpace printXml header)

/-- C105: while memory lasts, parsing with pointers is parsing: if the text is a document, the root pointer leads to exactly the tree of
that document, made of new nodes used once each, the root without a parent and every other node with the right one; if the text is no
document there is an exception.  Nodes of other objects are not touched. -/
theorem C105_tree (alloc : Nat → Bool) (root : Option Nat) (s : Str) (fuel : Nat) (h : Heap)
    (hfresh : ∀ i, h.next ≤ i → h.cell i = none) (hmem : ∀ k, alloc k = true) :
    (∀ hdr n, parse fuel s = .ok (hdr, n) → ∃ h' id as, parseH alloc fuel root s h = (h', some id, .ok ()) ∧
      Forest h'.cell true none [some id] [n] as ∧ as.Nodup ∧ (∀ i ∈ as, h.cell i = none) ∧ ∀ i, i ∉ as → h'.cell i = h.cell i) ∧
    (parse fuel s = .throw → (parseH alloc fuel root s h).2.2 = .throw) := by
  have hno : ¬ ∃ k, alloc k = false := fun ⟨k, hk⟩ => by rw [hmem k] at hk; cases hk
  obtain ⟨h', root', r, e, d⟩ := parseH_done alloc fuel root s h hfresh
  rw [e]
  rcases d with ⟨h1, h2, h3, h4, h5⟩ | ⟨h1, _, w, m, as, hr, h3, h4, h5, h6⟩
  · have hp : parse fuel s = .throw := h5.resolve_right hno
    exact ⟨(fun hdr n hn => by rw [hp] at hn; cases hn), fun _ => h4⟩
  · have hw : w = true := by
      cases w
      · exact absurd (h3 rfl).1 hno
      · rfl
    subst hw
    refine ⟨fun hdr n hn => ?_, fun hp => ?_⟩
    · cases r with
      | ub => rw [h6 rfl] at hn; cases hn
      | throw => rw [(h5 rfl).resolve_right hno] at hn; cases hn
      | ok u =>
        obtain ⟨hdr', e2⟩ := h4 rfl
        rw [e2] at hn
        cases hn
        refine ⟨h', h.next, as, by rw [h1], hr.forest, hr.nodup, fun i hi => hfresh i ((hr.range i).1 hi).1, fun i hi => ?_⟩
        by_cases hl : i < h.next
        · exact hr.keep i hl
        · rw [hfresh i (by omega)]
          refine hr.fresh i ?_
          have := mt (hr.range i).2 hi
          omega
    · cases r with
      | ub => rw [h6 rfl] at hp; cases hp
      | throw => rfl
      | ok u =>
        obtain ⟨hdr', e2⟩ := h4 rfl
        rw [hp] at e2
        cases e2

/-- C105: whatever the text is, and at whichever point memory runs out, `parse` of a new object followed by its destructor touches no
dead node, deletes no node twice, and leaves the memory as it was before. -/
theorem C105_no_leak (alloc : Nat → Bool) (s : Str) (fuel : Nat) (hf : s.length < fuel) (h : Heap)
    (hfresh : ∀ i, h.next ≤ i → h.cell i = none) :
    ∃ h' root r, parseH alloc fuel none s h = (h', root, r) ∧ r ≠ .ub ∧
      ∃ n, ∀ m, n ≤ m → ∃ h'', destroy m root h' = .ok h'' ∧ h''.cell = h.cell := by
  obtain ⟨h', root', r, e, d⟩ := parseH_done alloc fuel none s h hfresh
  refine ⟨h', root', r, e, ?_⟩
  rcases d with ⟨h1, h2, h3, h4, h5⟩ | ⟨h1, _, w, m, as, hr, h3, h4, h5, h6⟩
  · refine ⟨by rw [h4]; simp, 2, fun m hm => ?_⟩
    obtain ⟨k, rfl⟩ : ∃ k, m = k + 2 := ⟨m - 2, by omega⟩
    exact ⟨h', by rw [h3]; rfl, h1⟩
  · refine ⟨fun hu => Verif.MiniXml.parse_total fuel s hf (h6 hu), ?_⟩
    obtain ⟨n, hn⟩ := deleteAll_ok hr.forest hr.nodup
    refine ⟨n, fun m hm => ⟨_, by rw [h1]; exact hn m hm h' fun _ _ => rfl, ?_⟩⟩
    funext i
    dsimp only
    by_cases hi : i ∈ as
    · rw [if_pos hi, hfresh i ((hr.range i).1 hi).1]
    · rw [if_neg hi]
      by_cases hl : i < h.next
      · exact hr.keep i hl
      · rw [hfresh i (by omega)]
        refine hr.fresh i ?_
        have := mt (hr.range i).2 hi
        omega

/-- C105: asking a parsed document for a tag follows no null or dead pointer and answers the first node in document order that has the
name, the same that the search of the tree gives; null if there is none. -/
theorem C105_find (alloc : Nat → Bool) (root : Option Nat) (s : Str) (fuel : Nat) (h h' : Heap) (root' : Option Nat)
    (hfresh : ∀ i, h.next ≤ i → h.cell i = none) (hp : parseH alloc fuel root s h = (h', root', .ok ())) (v : Str) :
    ∃ hdr n k r, parse fuel s = .ok (hdr, n) ∧ (∀ m, k ≤ m → getFirstTag m root' v h' = .ok r) ∧ First h'.cell v [root'] r ∧
      (r = none ↔ getFirst v n = none) ∧
      ∀ id, r = some id → ∃ t par as, getFirst v n = some t ∧ Forest h'.cell true par [some id] [t] as := by
  obtain ⟨h1, root1, r, e, d⟩ := parseH_done alloc fuel root s h hfresh
  rw [hp] at e
  cases e
  rcases d with ⟨_, _, _, h4, _⟩ | ⟨h1, _, w, n, as, hr, h3, h4, h5, h6⟩
  · cases h4
  · have hw : w = true := by
      cases w
      · cases (h3 rfl).2
      · rfl
    subst hw
    obtain ⟨hdr, e2⟩ := h4 rfl
    obtain ⟨k, q, f1, f2, f3, f4⟩ := findAll_ok hr.forest v
    have hg : getFirstList v [n] = getFirst v n := by
      simp only [getFirstList]
      cases getFirst v n <;> rfl
    rw [hg] at f2 f3
    refine ⟨hdr, n, k, q, e2, fun m hm => by rw [h1]; exact f4 m hm h' rfl, by rw [h1]; exact f1, f2, fun id hid => ?_⟩
    obtain ⟨t, p', bs, g1, _, g3⟩ := f3 id hid
    exact ⟨t, p', bs, g1, g3⟩

/-- C105: there is only one such node. -/
theorem C105_first_unique {c : Nat → Option Cell} {v : Str} {ps : List (Option Nat)} {r r' : Option Nat} (h : First c v ps r) (h' : First c v ps r') :
    r = r' := by
  induction h generalizing r' with
  | none => cases h'; rfl
  | here hc hn =>
    cases h' with
    | here => rfl
    | inside hc' hn' => rw [hc] at hc'; cases hc'; exact absurd hn hn'
    | later hc' hn' => rw [hc] at hc'; cases hc'; exact absurd hn hn'
  | inside hc hn _ ih =>
    cases h' with
    | here hc' hn' => rw [hc] at hc'; cases hc'; exact absurd hn' hn
    | inside hc' hn' h2 => rw [hc] at hc'; cases hc'; exact ih h2
    | later hc' hn' h2 => rw [hc] at hc'; cases hc'; cases ih h2
  | later hc hn _ _ ih1 ih2 =>
    cases h' with
    | here hc' hn' => rw [hc] at hc'; cases hc'; exact absurd hn' hn
    | inside hc' hn' h2 => rw [hc] at hc'; cases hc'; cases ih1 h2
    | later hc' hn' h2 h3 => rw [hc] at hc'; cases hc'; exact ih2 h3

/-- C105, finding: a second successful `parse` of the same object loses the first document: its nodes are alive and unchanged after the
destructor. -/
theorem C105_finding_second_parse (alloc : Nat → Bool) (id : Nat) (s : Str) (fuel : Nat) (h h' : Heap) (root' : Option Nat) (n : Node) (as : List Nat)
    (hfresh : ∀ i, h.next ≤ i → h.cell i = none) (hold : Forest h.cell true none [some id] [n] as)
    (hp : parseH alloc fuel (some id) s h = (h', root', .ok ())) :
    ∃ k, ∀ m, k ≤ m → ∃ h'', destroy m root' h' = .ok h'' ∧ Forest h''.cell true none [some id] [n] as := by
  obtain ⟨h1, root1, r, e, d⟩ := parseH_done alloc fuel (some id) s h hfresh
  rw [hp] at e
  cases e
  rcases d with ⟨_, _, _, h4, _⟩ | ⟨h1, _, w, n, bs, hr, h3, h4, h5, h6⟩
  · cases h4
  · obtain ⟨k, hk⟩ := deleteAll_ok hr.forest hr.nodup
    refine ⟨k, fun m hm => ⟨_, by rw [h1]; exact hk m hm h' fun _ _ => rfl, hold.frame fun i hi => ?_⟩⟩
    have hl : i < h.next := by
      refine Classical.byContradiction fun hc => ?_
      have h2 := hold.live i hi
      rw [hfresh i (by omega)] at h2
      cases h2
    have hn : i ∉ bs := fun hb => by have := ((hr.range i).1 hb).1; omega
    dsimp only
    rw [if_neg hn, hr.keep i hl]

/-- C105, finding: if the constructor that takes a text throws although the text begins with `<?xml` and there was memory for the root,
no destructor runs and the nodes made so far stay alive for ever. -/
theorem C105_finding_constructor (alloc : Nat → Bool) (s : Str) (fuel : Nat) (h h' : Heap) (hfresh : ∀ i, h.next ≤ i → h.cell i = none)
    (hs : (getWord isName (skipSpace s)).1 = [60, 63, 120, 109, 108]) (hm : alloc h.tick = true) (hp : construct alloc fuel s h = (h', .throw)) :
    ∃ i, h.cell i = none ∧ (h'.cell i).isSome = true := by
  have hroot : (parseH alloc fuel none s h).2.1 = some h.next := by
    rw [parseH_eq, if_neg (by simp [hs]), if_pos hm]
  obtain ⟨h1, root1, r, e, d⟩ := parseH_done alloc fuel none s h hfresh
  rw [e] at hroot
  unfold construct at hp
  rw [e] at hp
  rcases d with ⟨_, _, h3, _, _⟩ | ⟨_, _, w, n, bs, hr, h3, h4, h5, h6⟩
  · rw [h3] at hroot; cases hroot
  · have hh : h' = h1 := by
      cases r <;> simp at hp
      exact hp.symm
    subst hh
    have hin : h.next ∈ bs := (hr.range _).2 ⟨Nat.le_refl _, hr.more⟩
    exact ⟨h.next, hfresh _ (Nat.le_refl _), hr.forest.live _ hin⟩

/-- C105, finding: `get()` of an object that has not parsed follows the null pointer. -/
theorem C105_finding_get_unparsed (fuel : Nat) (v : Str) (h : Heap) : getFirstTag fuel none v h = .ub := by
  cases fuel <;> rfl

/-- Nothing allocated yet. -/
def empty : Heap := ⟨fun _ => none, 0, 0⟩

/-- `<a><b></b></a>` -/
def doc : Node := .mk [97] [] [] [.mk [98] [] [] []]

/-- C105, finding: if memory runs out between the list and the node (the third request here), a null pointer stays in the list of
children, and asking for a tag follows it. -/
theorem C105_finding_null_child :
    (match parseH (fun k => k ≠ 2) 200 none (printXml doc) empty with
      | (h, root, .throw) => (match getFirstTag 200 root [99] h with | .ub => true | _ => false)
      | _ => false) = true := by decide +kernel

example : (match parseH (fun _ => true) 200 none (printXml doc) empty with
    | (h, some 0, .ok ()) => decide (h.next = 2) && decide ((h.cell 1).map (·.parent) = some (some 0)) && decide ((h.cell 0).map (·.child) = some [some 1])
    | _ => false) = true := by decide +kernel
example : (getWord isName (skipSpace (header ++ [60, 97, 47, 62]))).1 = [60, 63, 120, 109, 108] := by decide +kernel
example : (match construct (fun _ => true) 200 (header ++ [60, 97, 47, 62]) empty with | (h, .throw) => decide (h.next = 1) | _ => false) = true := by decide +kernel

#print axioms C105_tree
#print axioms C105_no_leak
#print axioms C105_find
#print axioms C105_first_unique
#print axioms C105_finding_second_parse
#print axioms C105_finding_constructor
#print axioms C105_finding_get_unparsed
#print axioms C105_finding_null_child

end Verif.Props.XmlHeap
