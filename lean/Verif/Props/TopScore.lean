import Verif.Proof.TopScore
import Mathlib.Data.Int.Order.Basic

/-!
# C50: `TopScore` keeps the best entries
-/
namespace Verif.Props.TopScore

open Verif.TopScore Verif.Spec.TopScore

variable {α T : Type} [LinearOrder α]

/-- After any sequence of `add` calls on a new object with `2 ≤ maxSize < 2^31`, nothing outside the
table was touched and `getTable` returns the `min(maxSize, number of adds)` best entries, the highest
score first, earlier additions first among equal scores.  When the table is full, `getTable` leaves the
object unchanged, so adding can go on.

The statement of C50 allows `maxSize = 1` too; there it is false, see `C50_finding_size_one`. -/
theorem C50_best_partial (d : α × T) (m : Nat) (h2 : 2 ≤ m) (hm : m < 2 ^ 31) (es : List (α × T)) :
    ∃ t, addAll (make d m) es = .ok t ∧ IsTop m es (getTable d t).2 ∧
      (m ≤ es.length → (getTable d t).1 = t) := by
  obtain ⟨t, r, is, e, H, B⟩ := addAll_ok h2 (fun n hn => castInt_eq (Nat.lt_of_le_of_lt hn hm))
    (fun n hn => endOf_eq hm h2 hn) es [] (make d m) [] []
    ⟨rfl, by simp [make], rfl, Nat.zero_le _, by simp [make]⟩
    ⟨by simp, rfl, by simp, List.Pairwise.nil, by simp, by simp⟩
  rw [List.nil_append] at B
  have hle : t.size ≤ t.tbl.length := by rw [H.sz, H.len]; exact H.le
  have hget : t.tbl.take t.size ++ List.replicate (t.size - t.tbl.length) d = r := by
    rw [Nat.sub_eq_zero_of_le hle, List.replicate_zero, List.append_nil, H.val]
  refine ⟨t, e, ?_, ?_⟩
  · simp only [getTable, hget]
    exact ⟨B.len, is, B.val, B.pw, B.rest⟩
  · intro hfull
    have hlen := B.len
    have hsz := H.sz
    have htl := H.len
    have hv := H.val
    simp only [getTable, hget]
    rw [← hv, List.take_of_length_le (by rw [hsz, hlen, htl, Nat.min_eq_left hfull]; exact Nat.le_refl _)]

example : (addAll (make ((0 : Int), 0) 3) [(5, 1), (7, 2), (5, 3), (9, 4), (7, 5)]).bind
    (fun t => .ok (getTable (0, 0) t).2) = .ok [(9, 4), (7, 2), (7, 5)] := by decide +kernel

/-- With `maxSize = 1` a better second entry is first copied to `tbl_[1]`, outside the table
(top_score.hpp:51-53: `maxSize_ - 2` wraps around). -/
theorem C50_finding_size_one (d : Int × Nat) :
    addAll (make d 1) [(1, 0), (2, 0)] = .ub := by
  have h1 : castInt 0 = 0 := castInt_eq (by decide)
  have h2 : endOf 1 1 = 0 := by decide +kernel
  simp [addAll, add, make, shortcut, place, find, finish, put, h1, h2, at?, shift]

/-- `setSize` clears the table and does not give it its new size, so the next `add` writes outside
(top_score.hpp:35-40). -/
theorem C50_finding_set_size (t : Top Int Nat) (m : Nat) (hm : 1 ≤ m) (s : Int) (idx : Nat) :
    add (setSize t m) s idx = .ub := by
  have h1 : castInt 0 = 0 := castInt_eq (by decide)
  have h3 : 0 ≠ m := by omega
  simp [add, setSize, shortcut, place, find, finish, put, h1, h3, show 0 < m from hm]

/-- `getTable` on a table that is not full makes the table shorter; a following `add` that appends
writes outside (top_score.hpp:68-72). -/
theorem C50_finding_get_table :
    (do let t ← addAll (make ((0 : Int), 0) 3) [(5, 1)]
        add (getTable (0, 0) t).1 4 2) = .ub := by
  decide +kernel

end Verif.Props.TopScore

#print axioms Verif.Props.TopScore.C50_best_partial
