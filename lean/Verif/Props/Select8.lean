import Verif.Model.Select8

/-! # C13: the table of `select8` -/
namespace Verif.Props.Select8
open Verif.SucVector

/-- The number of ones among the lowest `n` bits of `v`. -/
def ones (v n : Nat) : Nat := ((List.range n).filter fun i => v.testBit i).length

theorem ones_high (v n : Nat) (hv : v < 256) : ones v (8 + n) = ones v 8 := by
  rw [ones, List.range_add, List.filter_append]
  have : (List.map (fun x => 8 + x) (List.range n)).filter (fun i => v.testBit i) = [] := by
    rw [List.filter_eq_nil_iff]
    intro i hi
    obtain ⟨j, _, rfl⟩ := List.mem_map.mp hi
    rw [Nat.testBit_lt_two_pow (Nat.lt_of_lt_of_le hv (Nat.pow_le_pow_right (by decide) (Nat.le_add_right 8 j) : 2 ^ 8 ≤ 2 ^ (8 + j)))]
    simp
  rw [this, List.append_nil, ones]

theorem table : ∀ v : Fin 256, ∀ x : Fin 8,
    (∃ p : Fin 8, select8 v x = .ok p.val ∧ ones v (p + 1) = x ∧ ∀ j : Fin 8, j < p → ones v (j + 1) ≠ x) ∨
    (select8 v x = .ok 64 ∧ ∀ j : Fin 8, ones v (j + 1) ≠ x) := by decide +kernel

/-- C13: for every byte and every `x < 8`, `select8` gives the first position at which the number of ones, counted from bit 0 up to and
including that position, is `x`; and 64 if there is no such position. -/
theorem C13_select8_table (v x : Nat) (hv : v < 256) (hx : x < 8) :
    ∃ p, select8 v x = .ok p ∧
      ((p < 8 ∧ ones v (p + 1) = x ∧ ∀ j, j < p → ones v (j + 1) ≠ x) ∨ (p = 64 ∧ ∀ j, ones v (j + 1) ≠ x)) := by
  rcases table ⟨v, hv⟩ ⟨x, hx⟩ with ⟨p, h1, h2, h3⟩ | ⟨h1, h2⟩
  · exact ⟨p.val, h1, .inl ⟨p.isLt, h2, fun j hj => h3 ⟨j, by omega⟩ hj⟩⟩
  · refine ⟨64, h1, .inr ⟨rfl, fun j => ?_⟩⟩
    by_cases hj : j < 8
    · exact h2 ⟨j, hj⟩
    · have := h2 7
      rw [show j + 1 = 8 + (j - 7) by omega, ones_high v _ hv]
      exact this

/-- C13: so for `x` from 1 up to the number of ones the answer is the position of the one number `x`. -/
theorem C13_select8_one (v x : Nat) (hv : v < 256) (hx : x < 8) (h1 : 1 ≤ x) (h2 : x ≤ ones v 8) :
    ∃ p, select8 v x = .ok p ∧ v.testBit p = true ∧ ones v p = x - 1 := by
  obtain ⟨p, e, h⟩ := C13_select8_table v x hv hx
  have hs : ∀ n, ones v (n + 1) = ones v n + if v.testBit n then 1 else 0 := by
    intro n
    rw [ones, List.range_succ, List.filter_append, List.length_append, ones]
    by_cases hb : v.testBit n = true <;> simp [hb]
  rcases h with ⟨hp, h3, h4⟩ | ⟨rfl, h4⟩
  · refine ⟨p, e, ?_⟩
    have := hs p
    have hm : ones v p ≠ x := by
      cases p with
      | zero => intro h; rw [ones] at h; simp at h; omega
      | succ q => exact h4 q (by omega)
    by_cases hb : v.testBit p = true
    · rw [if_pos hb] at this
      exact ⟨hb, by omega⟩
    · rw [if_neg hb] at this; omega
  · exfalso
    have : ∀ n, ones v n < x := by
      intro n
      induction n with
      | zero => rw [ones]; simp; omega
      | succ n ih =>
        have a := hs n
        have b := h4 n
        split at a <;> omega
    have := this 8
    omega

/-- The second one of 0b10110 is at position 2. -/
example : select8 22 2 = .ok 2 ∧ ones 22 8 = 3 ∧ select8 22 4 = .ok 64 := by decide +kernel

#print axioms C13_select8_table
#print axioms C13_select8_one

end Verif.Props.Select8
