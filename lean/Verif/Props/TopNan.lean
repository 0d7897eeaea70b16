import Verif.Proof.TopNan
import Mathlib.Data.Int.Order.Basic

set_option linter.unusedSimpArgs false

/-!
# C150: `TopScore` with scores that are not numbers
-/
namespace Verif.Props.TopNan

open Verif.TopScore (Top make getTable castInt_eq endOf_eq put castInt shift endOf finish put_eq)
open Verif.TopNan Verif.Spec.TopScore Verif.Spec.TopNan

variable {α T : Type} [LinearOrder α]

/-- After any `add` calls on a new object with `2 ≤ maxSize < 2^31`, whichever of the scores are NaN, nothing outside the table was
touched, `getTable` returns `min(maxSize, number of adds)` entries, and the entries among them whose score is a number are the best of all
the numbers added, the highest first, earlier additions first among equal ones.  NaN takes the place of numbers only if it was among
the first `maxSize` scores. -/
theorem C150_numbers (d : Option α × T) (m : Nat) (h2 : 2 ≤ m) (hm : m < 2 ^ 31) (es : List (Option α × T)) :
    ∃ t, addAll (make d m) es = .ok t ∧ (getTable d t).2.length = min m es.length ∧
      IsTop (reals (getTable d t).2).length (reals es) (reals (getTable d t).2) ∧
      nans (getTable d t).2 ≤ nans (es.take m) := by
  obtain ⟨t, L, is, e, H, I⟩ := addAll_ok h2 (fun n hn => castInt_eq (Nat.lt_of_le_of_lt hn hm))
    (fun n hn => endOf_eq hm h2 hn) es [] (make d m) [] []
    ⟨rfl, by simp [make], rfl, Nat.zero_le _, by simp [make]⟩
    ⟨by simp, ⟨rfl, by simp, List.Pairwise.nil, by simp⟩, by simp [reals], by simp [nans]⟩
  rw [List.nil_append] at I
  have hle : t.size ≤ t.tbl.length := by rw [H.sz, H.len]; exact H.le
  have hget : (getTable d t).2 = L := by
    simp only [getTable]
    rw [Nat.sub_eq_zero_of_le hle, List.replicate_zero, List.append_nil, H.val]
  refine ⟨t, e, ?_⟩
  rw [hget]
  refine ⟨I.len, ⟨?_, is, I.best.val, I.best.pw, I.best.rest⟩, I.nan⟩
  have hnd : is.Nodup := by
    refine I.best.pw.imp ?_
    intro i j hb hij
    obtain ⟨a, b, ha, hb, h⟩ := hb
    subst hij
    rw [ha] at hb
    cases hb
    rcases h with h | ⟨-, h⟩
    · exact lt_irrefl _ h
    · omega
  have hsub : is.length ≤ (reals es).length := by
    have : is ⊆ List.range (reals es).length := fun i hi => List.mem_range.2 (I.best.lt i hi)
    simpa using List.Nodup.length_le_of_subset hnd this
  rw [I.best.length] at hsub
  omega

/-- Without NaN among the first `maxSize` scores, the table is the best `maxSize` of the numbers, whatever comes later. -/
theorem C150_late_nan (d : Option α × T) (m : Nat) (h2 : 2 ≤ m) (hm : m < 2 ^ 31) (es : List (Option α × T))
    (hfirst : nans (es.take m) = 0) :
    ∃ t, addAll (make d m) es = .ok t ∧ nans (getTable d t).2 = 0 ∧ IsTop m (reals es) (reals (getTable d t).2) := by
  obtain ⟨t, e, h3, h4, h5⟩ := C150_numbers d m h2 hm es
  refine ⟨t, e, by omega, ?_, h4.2⟩
  have key : ∀ l : List (Option α × T), (reals l).length + nans l = l.length := by
    intro l
    induction l with
    | nil => rfl
    | cons x l ih =>
      obtain ⟨s, i⟩ := x
      cases s with
      | none =>
        rw [show reals ((none, i) :: l) = reals l from rfl, show nans ((none, i) :: l) = nans l + 1 from List.countP_cons_of_pos rfl,
          List.length_cons]
        omega
      | some a =>
        rw [show reals ((some a, i) :: l) = (a, i) :: reals l from rfl,
          show nans ((some a, i) :: l) = nans l from List.countP_cons_of_neg (by simp), List.length_cons, List.length_cons]
        omega
  have k1 := key (getTable d t).2
  have k2 := key es
  have h6 := h4.1
  by_cases hf : es.length ≤ m
  · rw [List.take_of_length_le hf] at hfirst h5
    omega
  · have k3 : m ≤ (reals es).length := by
      have := key (es.take m)
      have hp : (reals (es.take m)).length ≤ (reals es).length := by
        have := congrArg List.length (reals_take es m)
        rw [List.length_take] at this
        omega
      rw [List.length_take] at this
      omega
    omega

example : (addAll (make ((none : Option Int), 0) 3) [(some 5, 1), (some 7, 2), (some 5, 3), (none, 4), (some 9, 5)]).bind
    (fun t => .ok (getTable (none, 0) t).2) = .ok [(some 9, 5), (some 7, 2), (some 5, 1)] := by decide +kernel

example : (addAll (make ((none : Option Int), 0) 3) [(some 5, 1), (none, 2), (some 6, 3), (some 4, 4), (some 9, 5)]).bind
    (fun t => .ok (getTable (none, 0) t).2) = .ok [(some 9, 5), (some 6, 3), (some 5, 1)] := by decide +kernel

/-- A full table of NaN takes no further entry. -/
theorem full_nan {t : Top (Option α) T} {m : Nat} {L : List (Option α × T)} (h2 : 2 ≤ m) (hm : m < 2 ^ 31)
    (H : Verif.TopScore.Ok t m L) (hf : L.length = m) (hn : ∀ e ∈ L, e.1 = none) (s : Option α) (idx : T) :
    ∃ t', add t s idx = .ok t' ∧ Verif.TopScore.Ok t' m L := by
  have hd : Desc L := by
    have : reals L = [] := by
      apply List.filterMap_eq_nil_iff.2
      intro e he
      simp [real, hn e he]
    unfold Desc
    rw [this]
    exact List.Pairwise.nil
  obtain ⟨t', p, e, hp, -, h4, H'⟩ := add_ok h2 (fun n hn => castInt_eq (Nat.lt_of_le_of_lt hn hm))
    (fun n hn => endOf_eq hm h2 hn) H hd s idx
  refine ⟨t', e, ?_⟩
  have hpl : p = L.length := by
    refine Classical.byContradiction fun hne => ?_
    have hlt : p < L.length := by omega
    have h5 := h4 _ (List.getElem?_eq_getElem hlt)
    rw [hn _ (List.getElem_mem hlt)] at h5
    cases s <;> simp [gt] at h5
  rw [Verif.TopScore.inserted, hpl, List.take_length, List.drop_length, ← hf, List.take_left, hf] at H'
  exact H'

/-- If the first `maxSize` scores are NaN, the table is those entries for ever: no number added later gets into it
(top_score.hpp:44, 50: every comparison with NaN is false). -/
theorem C150_finding_nan (d : Option α × T) (m : Nat) (h2 : 2 ≤ m) (hm : m < 2 ^ 31) (first es : List (Option α × T))
    (hl : first.length = m) (hn : ∀ e ∈ first, e.1 = none) :
    ∃ t, addAll (make d m) (first ++ es) = .ok t ∧ (getTable d t).2 = first := by
  have app : ∀ (a b : List (Option α × T)) t, addAll t (a ++ b) = (addAll t a).bind fun t => addAll t b := by
    intro a
    induction a with
    | nil => intro b t; rfl
    | cons x a ih =>
      intro b t
      rw [List.cons_append, addAll, addAll]
      cases add t x.1 x.2 with
      | ok v => exact ih b v
      | throw => rfl
      | ub => rfl
  have fill : ∀ (es L : List (Option α × T)) (t : Top (Option α) T), Verif.TopScore.Ok t m L → (∀ e ∈ L ++ es, e.1 = none) →
      (L ++ es).length ≤ m → ∃ t', addAll t es = .ok t' ∧ Verif.TopScore.Ok t' m (L ++ es) := by
    intro es
    induction es with
    | nil => intro L t H _ _; exact ⟨t, rfl, by rw [List.append_nil]; exact H⟩
    | cons x es ih =>
      intro L t H hn hle
      have hx : x.1 = none := hn x (by simp)
      have hd : Desc L := by
        have : reals L = [] := by
          apply List.filterMap_eq_nil_iff.2
          intro e he
          simp [real, hn e (by simp [he])]
        unfold Desc
        rw [this]
        exact List.Pairwise.nil
      obtain ⟨t', p, e, hp, -, h4, H'⟩ := add_ok h2 (fun n hn => castInt_eq (Nat.lt_of_le_of_lt hn hm))
        (fun n hn => endOf_eq hm h2 hn) H hd x.1 x.2
      have hpl : p = L.length := by
        refine Classical.byContradiction fun hne => ?_
        have hlt : p < L.length := by omega
        have h5 := h4 _ (List.getElem?_eq_getElem hlt)
        rw [hx] at h5
        simp [gt] at h5
      have hins : Verif.TopScore.inserted L p m (x.1, x.2) = L ++ [x] := by
        rw [Verif.TopScore.inserted, hpl, List.take_length, List.drop_length, List.take_of_length_le (by simp at hle ⊢; omega)]
      rw [hins] at H'
      obtain ⟨t2, e2, H2⟩ := ih (L ++ [x]) t' H' (by simpa using hn) (by simp at hle ⊢; omega)
      refine ⟨t2, ?_, by simpa using H2⟩
      rw [addAll, e, Res.ok_bind, e2]
  have stay : ∀ (es : List (Option α × T)) (t : Top (Option α) T), Verif.TopScore.Ok t m first →
      ∃ t', addAll t es = .ok t' ∧ Verif.TopScore.Ok t' m first := by
    intro es
    induction es with
    | nil => intro t H; exact ⟨t, rfl, H⟩
    | cons x es ih =>
      intro t H
      obtain ⟨t1, e1, H1⟩ := full_nan h2 hm H hl hn x.1 x.2
      obtain ⟨t2, e2, H2⟩ := ih t1 H1
      exact ⟨t2, by rw [addAll, e1, Res.ok_bind, e2], H2⟩
  obtain ⟨t1, e1, H1⟩ := fill first [] (make d m) ⟨rfl, by simp [make], rfl, Nat.zero_le _, by simp [make]⟩ (by simpa using hn)
    (by simp; omega)
  rw [List.nil_append] at H1
  obtain ⟨t2, e2, H2⟩ := stay es t1 H1
  refine ⟨t2, ?_, ?_⟩
  · rw [app, e1]; exact e2
  · have hle : t2.size ≤ t2.tbl.length := by rw [H2.sz, H2.len]; exact H2.le
    simp only [getTable]
    rw [Nat.sub_eq_zero_of_le hle, List.replicate_zero, List.append_nil, H2.val]

example : (addAll (make ((none : Option Int), 0) 2) [(none, 1), (none, 2), (some 6, 3), (some 4, 4)]).bind
    (fun t => .ok (getTable (none, 0) t).2) = .ok [(none, 1), (none, 2)] := by decide +kernel

/-- One NaN is enough to lose a number that belongs to the table: with room for two, 3 is not taken in after 5 and NaN. -/
theorem C150_finding_one_nan :
    (addAll (make ((none : Option Int), 0) 2) [(some 5, 1), (none, 2), (some 3, 3)]).bind
      (fun t => .ok (getTable (none, 0) t).2) = .ok [(some 5, 1), (none, 2)] := by decide +kernel

end Verif.Props.TopNan

#print axioms Verif.Props.TopNan.C150_numbers
#print axioms Verif.Props.TopNan.C150_late_nan
#print axioms Verif.Props.TopNan.C150_finding_nan
#print axioms Verif.Props.TopNan.C150_finding_one_nan
