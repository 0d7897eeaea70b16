import Verif.Spec.Tls
import Mathlib.Data.List.Perm.Subperm

set_option linter.unusedSimpArgs false

/-!
# C103: each thread sees in a `Tls` what it has put there
-/
namespace Verif.Props.Tls

open Verif.Tls Verif.Spec.Tls

/-- The objects with a key have different ones, all in use, with the right values; all other objects are invalid. -/
structure Inv (max : Nat) (h : List Ev) (ks : Keys) (obj : Nat → Option Nat) : Prop where
  valid : ∀ o idx, obj o = some idx → idx ≠ invalid max → ∃ f, ks idx = some f ∧ ∀ t, f t = value h o t
  inj : ∀ o o' idx, obj o = some idx → obj o' = some idx → idx ≠ invalid max → o = o'
  range : ∀ k f, ks k = some f → k < max
  used : ∀ k f, ks k = some f → ∃ o, obj o = some k

theorem value_snoc (h : List Ev) (e : Ev) (o t : Nat) : value (h ++ [e]) o t = after o t e (value h o t) := by simp [value]

theorem put_same {α : Type} (f : Nat → α) (i : Nat) (a : α) : put f i a i = a := by simp [put]
theorem put_ne {α : Type} (f : Nat → α) {i j : Nat} (a : α) (h : j ≠ i) : put f i a j = f j := by simp [put, h]

theorem inv_same {max : Nat} {h : List Ev} {s : St} {t : Nat} {c : Call} {r : Ret} (I : Inv max h s.keys s.obj)
    (hc : ∀ o u v, after o u ⟨t, c, r⟩ v = v) : Inv max (h ++ [⟨t, c, r⟩]) s.keys s.obj :=
  ⟨fun o idx ho hv => by
    obtain ⟨f, h1, h2⟩ := I.valid o idx ho hv
    exact ⟨f, h1, fun u => by rw [value_snoc, hc, h2]⟩, I.inj, I.range, I.used⟩

theorem inv_step {max : Nat} {h : List Ev} {s s' : St} {t : Nat} {c : Call} {r : Ret} (I : Inv max h s.keys s.obj) (hs : Step max s t c r s') :
    r ≠ .ub ∧ Inv max (h ++ [⟨t, c, r⟩]) s'.keys s'.obj := by
  cases hs with
  | @ctor o idx ks ho hi =>
    refine ⟨by simp, ?_⟩
    cases hi with
    | key hk hn =>
      have hfresh : ∀ o', s.obj o' ≠ some idx := by
        intro o' ho'
        obtain ⟨f, hf, -⟩ := I.valid o' idx ho' (by rw [invalid]; omega)
        rw [hn] at hf; cases hf
      dsimp only
      refine ⟨?_, ?_, ?_, ?_⟩
      · intro o' idx' ho' hv
        by_cases e : o' = o
        · subst e
          simp only [put_same, Option.some.injEq] at ho'
          subst ho'
          exact ⟨_, put_same _ _ _, fun u => by simp [value_snoc, after]⟩
        · simp only [put_ne _ _ e] at ho'
          have hne : idx' ≠ idx := by rintro rfl; exact hfresh o' ho'
          obtain ⟨f, h1, h2⟩ := I.valid o' idx' ho' hv
          refine ⟨f, by rw [put_ne _ _ hne, h1], fun u => ?_⟩
          rw [value_snoc, after]
          simp only
          rw [if_neg (fun h => e h.symm), h2]
      · intro o1 o2 i h1 h2 hv
        by_cases e1 : o1 = o <;> by_cases e2 : o2 = o
        · rw [e1, e2]
        · subst e1
          simp only [put_same, put_ne _ _ e2, Option.some.injEq] at h1 h2
          subst h1
          exact absurd h2 (hfresh o2)
        · subst e2
          simp only [put_same, put_ne _ _ e1, Option.some.injEq] at h1 h2
          subst h2
          exact absurd h1 (hfresh o1)
        · simp only [put_ne _ _ e1, put_ne _ _ e2] at h1 h2
          exact I.inj o1 o2 i h1 h2 hv
      · intro k f hf
        by_cases e : k = idx
        · rw [e]; exact hk
        · rw [put_ne _ _ e] at hf; exact I.range k f hf
      · intro k f hf
        by_cases e : k = idx
        · exact ⟨o, by rw [e]; exact put_same _ _ _⟩
        · rw [put_ne _ _ e] at hf
          obtain ⟨o', ho'⟩ := I.used k f hf
          exact ⟨o', by rw [put_ne _ _ (by rintro rfl; rw [ho] at ho'; cases ho')]; exact ho'⟩
    | fail =>
      dsimp only
      refine ⟨?_, ?_, I.range, ?_⟩
      · intro o' idx' ho' hv
        by_cases e : o' = o
        · subst e
          simp only [put_same, Option.some.injEq] at ho'
          exact absurd ho'.symm hv
        · simp only [put_ne _ _ e] at ho'
          obtain ⟨f, h1, h2⟩ := I.valid o' idx' ho' hv
          refine ⟨f, h1, fun u => ?_⟩
          rw [value_snoc, after]
          simp only
          rw [if_neg (fun h => e h.symm), h2]
      · intro o1 o2 i h1 h2 hv
        by_cases e1 : o1 = o
        · subst e1
          simp only [put_same, Option.some.injEq] at h1
          exact absurd h1.symm hv
        · by_cases e2 : o2 = o
          · subst e2
            simp only [put_same, Option.some.injEq] at h2
            exact absurd h2.symm hv
          · simp only [put_ne _ _ e1, put_ne _ _ e2] at h1 h2
            exact I.inj o1 o2 i h1 h2 hv
      · intro k f hf
        obtain ⟨o', ho'⟩ := I.used k f hf
        exact ⟨o', by rw [put_ne _ _ (by rintro rfl; rw [ho] at ho'; cases ho')]; exact ho'⟩
  | @set o p idx b ks ho hc =>
    refine ⟨by simp, ?_⟩
    cases hc with
    | invalid e => exact inv_same I (fun _ _ _ => rfl)
    | valid hv hsv =>
      cases hsv with
      | @fail f hf => exact inv_same I (fun _ _ _ => rfl)
      | @ok f hf =>
        have hold : ∀ u, f u = value h o u := by
          obtain ⟨g, h1, h2⟩ := I.valid o idx ho hv
          rw [hf] at h1
          simp only [Option.some.injEq] at h1
          subst h1
          exact h2
        dsimp only
        refine ⟨?_, I.inj, ?_, ?_⟩
        · intro o' idx' ho' hv'
          by_cases e : idx' = idx
          · subst e
            have eo := I.inj o' o idx' ho' ho hv'
            subst eo
            refine ⟨_, put_same _ _ _, fun u => ?_⟩
            rw [value_snoc, after]
            simp only
            by_cases eu : u = t
            · subst eu; simp [put_same]
            · rw [put_ne _ _ eu, if_neg (fun h => eu h.2.symm), hold]
          · obtain ⟨g, h1, h2⟩ := I.valid o' idx' ho' hv'
            refine ⟨g, by rw [put_ne _ _ e, h1], fun u => ?_⟩
            rw [value_snoc, after]
            simp only
            rw [if_neg, h2]
            rintro ⟨rfl, -⟩
            rw [ho] at ho'
            simp only [Option.some.injEq] at ho'
            exact e ho'.symm
        · intro k g hg
          by_cases e : k = idx
          · rw [e]; exact I.range idx f hf
          · rw [put_ne _ _ e] at hg; exact I.range k g hg
        · intro k g hg
          by_cases e : k = idx
          · rw [e]; exact ⟨o, ho⟩
          · rw [put_ne _ _ e] at hg; exact I.used k g hg
  | @setUb o p idx ho hc =>
    cases hc with
    | valid hv hsv =>
      cases hsv with
      | ub hn =>
        obtain ⟨f, h1, -⟩ := I.valid o idx ho hv
        rw [hn] at h1; cases h1
  | getInvalid ho e => exact ⟨by simp, inv_same I (fun _ _ _ => rfl)⟩
  | get ho e hg => exact ⟨by simp, inv_same I (fun _ _ _ => rfl)⟩
  | @getUb o idx ho e hg =>
    obtain ⟨f, h1, -⟩ := I.valid o idx ho e
    rw [getValue, h1] at hg; cases hg
  | @dtorInvalid o idx ho e =>
    dsimp only
    refine ⟨by simp, ?_, ?_, I.range, ?_⟩
    · intro o' idx' ho' hv
      by_cases eo : o' = o
      · subst eo; simp [put_same] at ho'
      · simp only [put_ne _ _ eo] at ho'
        obtain ⟨f, h1, h2⟩ := I.valid o' idx' ho' hv
        exact ⟨f, h1, fun u => by rw [value_snoc, h2]; rfl⟩
    · intro o1 o2 i h1 h2 hv
      by_cases e1 : o1 = o
      · subst e1; simp [put_same] at h1
      · by_cases e2 : o2 = o
        · subst e2; simp [put_same] at h2
        · simp only [put_ne _ _ e1, put_ne _ _ e2] at h1 h2
          exact I.inj o1 o2 i h1 h2 hv
    · intro k f hf
      obtain ⟨o', ho'⟩ := I.used k f hf
      refine ⟨o', ?_⟩
      rw [put_ne _ _ (by
        rintro rfl
        rw [ho] at ho'
        simp only [Option.some.injEq] at ho'
        have := I.range k f hf
        rw [← ho', e, invalid] at this
        omega)]
      exact ho'
  | @dtor o idx b ks ks' ho hv hc ht =>
    have hks : ∀ k, k ≠ idx → ks k = s.keys k := by
      intro k hk
      cases hc with
      | valid _ hsv =>
        cases hsv with
        | ok _ => exact put_ne _ _ hk
        | fail _ => rfl
      | invalid e => exact absurd e hv
    have hks' : ks' = put ks idx none := by
      rw [term] at ht
      cases hq : ks idx with
      | none => rw [hq] at ht; cases ht
      | some f => rw [hq] at ht; simpa using ht.symm
    subst hks'
    dsimp only
    refine ⟨by simp, ?_, ?_, ?_, ?_⟩
    · intro o' idx' ho' hv'
      by_cases eo : o' = o
      · subst eo; simp [put_same] at ho'
      · simp only [put_ne _ _ eo] at ho'
        have hne : idx' ≠ idx := by rintro rfl; exact eo (I.inj o' o _ ho' ho hv')
        obtain ⟨f, h1, h2⟩ := I.valid o' idx' ho' hv'
        exact ⟨f, by rw [put_ne _ _ hne, hks _ hne, h1], fun u => by rw [value_snoc, h2]; rfl⟩
    · intro o1 o2 i h1 h2 hv
      by_cases e1 : o1 = o
      · subst e1; simp [put_same] at h1
      · by_cases e2 : o2 = o
        · subst e2; simp [put_same] at h2
        · simp only [put_ne _ _ e1, put_ne _ _ e2] at h1 h2
          exact I.inj o1 o2 i h1 h2 hv
    · intro k f hf
      by_cases e : k = idx
      · subst e; rw [put_same] at hf; cases hf
      · rw [put_ne _ _ e, hks _ e] at hf; exact I.range k f hf
    · intro k f hf
      by_cases e : k = idx
      · subst e; rw [put_same] at hf; cases hf
      · rw [put_ne _ _ e, hks _ e] at hf
        obtain ⟨o', ho'⟩ := I.used k f hf
        refine ⟨o', ?_⟩
        rw [put_ne _ _ (by
          rintro rfl
          rw [ho] at ho'
          simp only [Option.some.injEq] at ho'
          exact e ho'.symm)]
        exact ho'
  | @dtorUbSet o idx ho hv hc =>
    cases hc with
    | valid _ hsv =>
      cases hsv with
      | ub hn =>
        obtain ⟨f, h1, -⟩ := I.valid o idx ho hv
        rw [hn] at h1; cases h1
  | @dtorUbTerm o idx b ks ho hv hc ht =>
    have : ∃ g, ks idx = some g := by
      cases hc with
      | valid _ hsv =>
        cases hsv with
        | ok _ => exact ⟨_, put_same _ _ _⟩
        | @fail f hf => exact ⟨f, hf⟩
      | invalid e => exact absurd e hv
    obtain ⟨g, hg⟩ := this
    rw [term, hg] at ht
    cases ht

theorem inv_steps {max : Nat} {h : List Ev} {s : St} (hs : Steps max h s) : Inv max h s.keys s.obj := by
  induction hs with
  | nil => exact ⟨by simp [St.init], by simp [St.init], by simp [St.init], by simp [St.init]⟩
  | snoc _ h2 ih => exact (inv_step ih h2).2

/-- The call is on an object that exists, or constructs one that does not. -/
def Legal (s : St) : Call → Prop
  | .ctor o => s.obj o = none
  | .set o _ => s.obj o ≠ none
  | .get o => s.obj o ≠ none
  | .dtor o => s.obj o ≠ none

/-- C103: whatever other threads and other objects do, `get` returns what the same thread has set last in the same object, or null; or, when the
object got no key, always null. -/
theorem C103_get (max : Nat) (h : List Ev) (s s' : St) (hs : Steps max h s) (t o p : Nat) (hg : Step max s t (.get o) (.ptr p) s') :
    s' = s ∧ p = if s.obj o = some (invalid max) then 0 else value h o t := by
  have I := inv_steps hs
  cases hg with
  | getInvalid ho e => subst e; exact ⟨rfl, by rw [if_pos ho]⟩
  | get ho e hv =>
    refine ⟨rfl, ?_⟩
    obtain ⟨f, h1, h2⟩ := I.valid o _ ho e
    rw [getValue, h1] at hv
    simp only [Option.map_some, Option.some.injEq] at hv
    rw [if_neg (by rw [ho]; simpa using e), ← hv, h2]

/-- C103: calls on existing objects never use a key that is not in use, and every such call has a result. -/
theorem C103_safe (max : Nat) (h : List Ev) (s : St) (hs : Steps max h s) (t : Nat) (c : Call) :
    (∀ s', ¬ Step max s t c .ub s') ∧ (Legal s c → ∃ r s', Step max s t c r s') := by
  have I := inv_steps hs
  refine ⟨fun s' hc => (inv_step I hc).1 rfl, fun hl => ?_⟩
  cases c with
  | ctor o => exact ⟨_, _, .ctor hl .fail⟩
  | set o p =>
    cases ho : s.obj o with
    | none => exact absurd ho hl
    | some idx =>
      by_cases e : idx = invalid max
      · exact ⟨_, _, .set ho (.invalid e)⟩
      · obtain ⟨f, h1, -⟩ := I.valid o idx ho e
        exact ⟨_, _, .set ho (.valid e (.ok h1))⟩
  | get o =>
    cases ho : s.obj o with
    | none => exact absurd ho hl
    | some idx =>
      by_cases e : idx = invalid max
      · exact ⟨_, _, .getInvalid ho e⟩
      · obtain ⟨f, h1, -⟩ := I.valid o idx ho e
        exact ⟨_, _, .get ho e (by rw [getValue, h1]; rfl)⟩
  | dtor o =>
    cases ho : s.obj o with
    | none => exact absurd ho hl
    | some idx =>
      by_cases e : idx = invalid max
      · exact ⟨_, _, .dtorInvalid ho e⟩
      · obtain ⟨f, h1, -⟩ := I.valid o idx ho e
        exact ⟨_, _, .dtor ho e (.valid e (.fail h1)) (by rw [term, h1]; rfl)⟩

/-- C103: a set that answers `true` is seen by the next `get` of the thread; one that answers `false` leaves everything as it was. -/
theorem C103_set (max : Nat) (s s' : St) (t o p : Nat) (b : Bool) (hst : Step max s t (.set o p) (.bool b) s') :
    (b = true → ∀ s'' q, Step max s' t (.get o) (.ptr q) s'' → q = p) ∧ (b = false → s' = s) := by
  cases hst with
  | set ho hc =>
    cases hc with
    | invalid e => exact ⟨by simp, fun _ => rfl⟩
    | valid hv hsv =>
      cases hsv with
      | fail hf => exact ⟨by simp, fun _ => rfl⟩
      | ok hf =>
        refine ⟨fun _ s'' q hg => ?_, by simp⟩
        cases hg with
        | getInvalid ho' e =>
          simp only at ho'
          rw [ho] at ho'
          simp only [Option.some.injEq] at ho'
          exact absurd (ho'.trans e) hv
        | get ho' e hg =>
          simp only at ho' hg
          rw [ho] at ho'
          simp only [Option.some.injEq] at ho'
          subst ho'
          simp only [getValue, put_same, Option.map_some, Option.some.injEq] at hg
          exact hg.symm

/-- C103: no key is left over: as soon as no object exists all keys are free again; and there are never more valid objects than keys. -/
theorem C103_no_leak (max : Nat) (h : List Ev) (s : St) (hs : Steps max h s) :
    ((∀ o, s.obj o = none) → ∀ k, s.keys k = none) ∧
    ∀ os : List Nat, os.Nodup → (∀ o ∈ os, ∃ idx, s.obj o = some idx ∧ idx ≠ invalid max) → os.length ≤ max := by
  have I := inv_steps hs
  refine ⟨fun hn k => ?_, fun os hd ho => ?_⟩
  · cases hk : s.keys k with
    | none => rfl
    | some f =>
      obtain ⟨o, ho⟩ := I.used k f hk
      rw [hn o] at ho; cases ho
  · have hlen : (os.map fun o => (s.obj o).getD 0).length ≤ (List.range max).length := by
      refine List.Subperm.length_le (List.Nodup.subperm ?_ ?_)
      · rw [List.Nodup, List.pairwise_map]
        refine hd.imp_of_mem ?_
        intro a b ha hb hab e
        obtain ⟨i, h1, h2⟩ := ho a ha
        obtain ⟨j, h3, h4⟩ := ho b hb
        rw [h1, h3] at e
        simp only [Option.getD_some] at e
        subst e
        exact hab (I.inj a b i h1 h3 h2)
      · intro k hk
        obtain ⟨o, hm, rfl⟩ := List.mem_map.1 hk
        obtain ⟨i, h1, h2⟩ := ho o hm
        obtain ⟨f, hf, -⟩ := I.valid o i h1 h2
        rw [h1, List.mem_range]
        exact I.range i f hf
    simpa using hlen

/-- Two threads use one object. -/
example : ∃ s, Steps 1024 [⟨0, .ctor 7, .unit⟩, ⟨1, .set 7 5, .bool true⟩, ⟨2, .get 7, .ptr 0⟩, ⟨1, .get 7, .ptr 5⟩] s := by
  have h1 := (Steps.nil (max := 1024)).snoc (.ctor (t := 0) (o := 7) rfl (.key (k := 3) (by decide) rfl))
  have h2 := h1.snoc (.set (t := 1) (o := 7) (p := 5) rfl (.valid (by decide) (.ok rfl)))
  have h3 := h2.snoc (.get (t := 2) (o := 7) (p := 0) rfl (by decide) rfl)
  have h4 := h3.snoc (.get (t := 1) (o := 7) (p := 5) rfl (by decide) rfl)
  exact ⟨_, h4⟩

#print axioms C103_get
#print axioms C103_safe
#print axioms C103_set
#print axioms C103_no_leak

end Verif.Props.Tls
