import Verif.Proof.Frequency
import Mathlib.Data.List.FinRange
import Mathlib.Data.List.Nodup

/-! # C32: frequency tables -/
namespace Verif.Props.Frequency
open Verif.Frequency Verif.Spec.Frequency

/-- C32, one-byte elements (`Frequency<uint8_t, Int>`, `Frequency<char, Int>`).  For every sequence shorter
than the range of `Int`, whatever the index tables held before and whatever order the sort gave to equal
frequencies: the table has one rank per occurring element, ordered by falling frequency, `getIndex` and
`getElement` are inverse to each other (also beyond the occurring elements), and frequencies are counts. -/
theorem C32_bytes (iw : Nat) (l : List Nat) (hl : ∀ e ∈ l, e < 256) (hcnt : l.length < 2 ^ iw)
    (a b : List Nat) (ha : a.length = 256) (order : List Nat)
    (ho : SortOutcome (fun e => l.count e) (List.range 256) order) :
    ∃ st, FV.init iw (FV.clear a b) l order = .ok st ∧
      Ranks l (fun e => e < 256) st.size st.getFrequency st.getIndex st.getElement ∧
      (∀ e, e < 256 → ∃ i, i < 256 ∧ st.getIndex e = .ok i ∧ st.getElement i = .ok e) ∧
      (∀ i, i < 256 → ∃ e, e < 256 ∧ st.getElement i = .ok e ∧ st.getIndex e = .ok i) ∧ st.size ≤ 256 ∧
      (∀ i, i < 256 → (i < st.size ↔ ∃ e ∈ l, st.getElement i = .ok e)) :=
  FV.init_ranks hl hcnt ha ho

/-- C32, other elements.  As before; asking for the index of an element that does not occur, or for a rank
behind the last, throws.  The order is the only one the comparison allows. -/
theorem C32_general (iw : Nat) (l : List Nat) (hcnt : l.length < 2 ^ iw) (order : List Nat)
    (ho : SortOutcomeG (FG.clear.appendAll iw l).m order) :
    let st := FG.init iw FG.clear l order
    Ranks l (fun _ => True) st.size (fun e => .ok (st.getFrequency e)) st.getIndex st.getElement ∧
      (∀ e, e ∉ l → st.getIndex e = .throw) ∧ (∀ i, st.size ≤ i → st.getElement i = .throw) :=
  FG.init_ranks hcnt ho

/-- C32.  Ranks are unique: whatever table satisfies the specification has as many ranks as the sequence
has different elements. -/
theorem C32_size (l : List Nat) (dom : Nat → Prop) (size : Nat) (freq index elem : Nat → Res Nat)
    (h : Ranks l dom size freq index elem) (d : List Nat) (hd : d.Nodup) (hmem : ∀ e, e ∈ d ↔ e ∈ l) :
    size = d.length := by
  have hex : ∀ i : Fin size, ∃ e, e ∈ l ∧ elem i = .ok e ∧ index e = .ok i.val := fun i => by
    obtain ⟨e, h1, h2, h3⟩ := h.elem_index i i.isLt; exact ⟨e, h1, h2, h3⟩
  have hm : ∃ es : List Nat, es.length = size ∧ es.Nodup ∧ ∀ e, e ∈ es ↔ e ∈ l := by
    refine ⟨(List.finRange size).map fun i => (hex i).choose, by simp, ?_, fun e => ?_⟩
    · rw [List.nodup_map_iff_inj_on (List.nodup_finRange _)]
      intro i _ j _ hij
      have h1 := (hex i).choose_spec.2.2
      have h2 := (hex j).choose_spec.2.2
      rw [hij] at h1
      rw [h1] at h2
      exact Fin.ext (Res.ok.inj h2)
    · rw [List.mem_map]
      constructor
      · rintro ⟨i, _, rfl⟩; exact (hex i).choose_spec.1
      · intro he
        obtain ⟨i, hi, h1, h2⟩ := h.index_elem e he
        refine ⟨⟨i, hi⟩, List.mem_finRange _, ?_⟩
        have := (hex ⟨i, hi⟩).choose_spec.2.1
        exact (Res.ok.inj (h2.symm.trans this)).symm
  obtain ⟨es, e1, e2, e3⟩ := hm
  have hp : es.Perm d := (List.perm_ext_iff_of_nodup e2 hd).mpr (fun e => by rw [e3, hmem])
  rw [← e1, hp.length_eq]

/-- C32 (finding).  `init` does not start from zero: initialising a used table counts the old sequence
too. -/
theorem C32_init_accumulates :
    (do let a ← FV.init 32 (FV.clear (List.replicate 256 0) []) [7, 7] ([7] ++ (List.range 256).filter (· ≠ 7))
        let b ← FV.init 32 a [9] ([7, 9] ++ (List.range 256).filter (fun x => x ≠ 7 ∧ x ≠ 9))
        return (← b.getFrequency 7, b.size)) = .ok (2, 2) := by decide +kernel

/-! Non-trivial cases: the hypotheses are met. -/

example : SortOutcome (fun e => [3, 1, 3].count e) (List.range 256)
    ([3, 1] ++ (List.range 256).filter (fun x => x ≠ 3 ∧ x ≠ 1)) := by
  refine ⟨?_, ?_⟩
  · rw [List.perm_ext_iff_of_nodup (by decide +kernel) List.nodup_range]
    intro x; simp; omega
  · decide +kernel

example : SortOutcomeG (FG.clear.appendAll 32 [300, 5, 300, 4]).m [300, 5, 4] ∧
    (FG.init 32 FG.clear [300, 5, 300, 4] [300, 5, 4]).getIndex 4 = .ok 2 := by
  refine ⟨⟨by decide +kernel, ?_⟩, by decide +kernel⟩
  have : ∀ m a b, Decidable (greater m a b) := fun m a b => by rw [greater]; infer_instance
  simp [FG.clear, FG.appendAll, FG.append, bump, greater, freqOf, find]

/-! ### The sorts have results -/

/-- C32.  For every table and every set of elements there is an order the sort may produce, so the theorems
above speak about every sequence. -/
theorem C32_sort_exists (freq : Nat → Nat) (keys : List Nat) : ∃ order, SortOutcome freq keys order := by
  refine ⟨keys.mergeSort fun a b => decide (freq b ≤ freq a), List.mergeSort_perm _ _, ?_⟩
  refine List.Pairwise.imp ?_ (List.pairwise_mergeSort (fun a b c => ?_) (fun a b => ?_) keys)
  · intro a b h; simp at h; omega
  · simp; omega
  · simp; omega

/-- C32.  The same for the general table. -/
theorem C32_general_sort_exists (m : List Ent) : ∃ order, SortOutcomeG m order := by
  have hp := List.mergeSort_perm (m.map Ent.key) (fun a b => decide (freqOf m b < freqOf m a ∨ freqOf m a = freqOf m b ∧ b ≤ a))
  refine ⟨_, hp, ?_⟩
  refine List.Pairwise.imp ?_ (List.pairwise_mergeSort (fun a b c => ?_) (fun a b => ?_) _)
  · intro a b h; simp only [decide_eq_true_eq] at h; rw [greater]; omega
  · simp only [decide_eq_true_eq]; omega
  · simp only [Bool.or_eq_true, decide_eq_true_eq]; omega

/-- C32.  In the general table the order is determined: by falling number of occurrences, and among equals the
greater element first. -/
theorem C32_general_order (iw : Nat) (l : List Nat) (hcnt : l.length < 2 ^ iw) (order : List Nat)
    (ho : SortOutcomeG (FG.clear.appendAll iw l).m order) (i j a b : Nat) (hij : i < j)
    (ha : (FG.init iw FG.clear l order).getElement i = .ok a) (hb : (FG.init iw FG.clear l order).getElement j = .ok b) :
    l.count b < l.count a ∨ l.count a = l.count b ∧ b < a := by
  obtain ⟨h1, -, h3⟩ : CountsG iw l (FG.clear.appendAll iw l) := by
    simpa using appendAllG_counts l [] FG.clear
      ⟨fun e => by simp [FG.clear, freqOf, find], fun e => by simp [FG.clear], by simp [FG.clear]⟩
  have hc : ∀ e, freqOf (FG.clear.appendAll iw l).m e = l.count e := fun e => by
    rw [h1, Nat.mod_eq_of_lt (Nat.lt_of_le_of_lt List.count_le_length hcnt)]
  have key : ∀ k e, (FG.init iw FG.clear l order).getElement k = .ok e → ∃ h : k < order.length, order[k] = e := by
    intro k e he
    simp only [FG.getElement, FG.init, FG.ready] at he
    cases hk : order[k]? with
    | none => rw [hk] at he; cases he
    | some x =>
      rw [hk] at he; cases he
      obtain ⟨h, e⟩ := List.getElem?_eq_some_iff.1 hk
      exact ⟨h, e⟩
  obtain ⟨hi, rfl⟩ := key i a ha
  obtain ⟨hj, rfl⟩ := key j b hb
  have hs := List.pairwise_iff_getElem.1 ho.sorted i j hi hj hij
  have hn : order.Nodup := ho.perm.nodup_iff.2 h3
  have hne : order[i] ≠ order[j] := fun e => by
    have := (List.Nodup.getElem_inj_iff hn).1 e; omega
  simp only [greater, hc] at hs
  omega

/-- C32.  A cleared table is empty: no ranks, and every frequency is zero. -/
theorem C32_clear (a b : List Nat) :
    (FV.clear a b).size = 0 ∧ (∀ e, e < 256 → (FV.clear a b).getFrequency e = .ok 0) ∧ FG.clear.size = 0 ∧
      (∀ e, FG.clear.getFrequency e = 0) ∧ (∀ e, FG.clear.getIndex e = .throw) ∧ ∀ i, FG.clear.getElement i = .throw := by
  refine ⟨rfl, fun e he => ?_, rfl, fun e => rfl, fun e => rfl, fun i => ?_⟩
  · refine at?_of_some ?_
    rw [FV.clear, List.getElem?_replicate, if_pos he]
  · simp [FG.getElement, FG.clear]

example : (FG.init 32 FG.clear [300, 5, 300, 4] [300, 5, 4]).getElement 1 = .ok 5 ∧
    (FG.init 32 FG.clear [300, 5, 300, 4] [300, 5, 4]).getElement 2 = .ok 4 := by decide +kernel

#print axioms C32_bytes
#print axioms C32_general
#print axioms C32_size
#print axioms C32_sort_exists
#print axioms C32_general_sort_exists
#print axioms C32_general_order
#print axioms C32_clear
#print axioms C32_init_accumulates

end Verif.Props.Frequency
