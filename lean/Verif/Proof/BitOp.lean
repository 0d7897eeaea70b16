import Verif.Model.BitOp
import Verif.Spec.BitOp
set_option linter.unusedSimpArgs false
namespace Verif.BitOp
open Verif.Spec.BitOp

theorem find_range_some {w : Nat} {p : Nat → Bool} {i : Nat}
    (h : (List.range w).find? p = some i) : i < w ∧ p i = true ∧ ∀ j < i, p j = false := by
  rw [List.find?_range_eq_some] at h
  obtain ⟨h1, h2, h3⟩ := h
  exact ⟨by simpa using h2, h1, by simpa using h3⟩

theorem find_range_none {w : Nat} {p : Nat → Bool}
    (h : (List.range w).find? p = none) : ∀ j < w, p j = false := by
  simpa using h

theorem eq_zero_of_bits {w : Nat} {x : BitVec w} (h : ∀ j < w, x.getLsbD j = false) : x = 0 := by
  ext j hj
  simpa [BitVec.getLsbD_eq_getElem hj] using h j hj

theorem ctz_spec {w : Nat} (x : BitVec w) (hx : x ≠ 0) : ∃ i, ctz x = .ok i ∧ IsLowest x i ∧ i < w := by
  unfold ctz
  split
  · rename_i i h
    obtain ⟨h1, h2, h3⟩ := find_range_some h
    exact ⟨i, rfl, ⟨h2, h3⟩, h1⟩
  · rename_i h
    exact absurd (eq_zero_of_bits (find_range_none h)) hx

theorem clz_spec {w : Nat} (x : BitVec w) (hx : x ≠ 0) :
    ∃ i, clz x = .ok i ∧ i < w ∧ IsHighest x (w - 1 - i) := by
  unfold clz
  split
  · rename_i i h
    obtain ⟨h1, h2, h3⟩ := find_range_some h
    refine ⟨i, rfl, h1, h2, fun j hj => ?_⟩
    by_cases hjw : j < w
    · have := h3 (w - 1 - j) (by omega)
      rwa [show w - 1 - (w - 1 - j) = j by omega] at this
    · exact BitVec.getLsbD_of_ge _ _ (by omega)
  · rename_i h
    refine absurd (eq_zero_of_bits fun j hj => ?_) hx
    have := find_range_none h (w - 1 - j) (by omega)
    rwa [show w - 1 - (w - 1 - j) = j by omega] at this

theorem isLowest_unique {w : Nat} {x : BitVec w} {i j : Nat} (hi : IsLowest x i) (hj : IsLowest x j) :
    i = j := by
  rcases Nat.lt_trichotomy i j with h | h | h
  · have := hj.2 i h; rw [hi.1] at this; simp at this
  · exact h
  · have := hi.2 j h; rw [hj.1] at this; simp at this

theorem isHighest_unique {w : Nat} {x : BitVec w} {i j : Nat} (hi : IsHighest x i)
    (hj : IsHighest x j) : i = j := by
  rcases Nat.lt_trichotomy i j with h | h | h
  · have := hi.2 j h; rw [hj.1] at this; simp at this
  · exact h
  · have := hj.2 i h; rw [hi.1] at this; simp at this

theorem xor_mask (k : Nat) : ∀ c < 2 ^ k, c ^^^ (2 ^ k - 1) = 2 ^ k - 1 - c := by
  intro c hc
  apply Nat.eq_of_testBit_eq
  intro i
  rw [Nat.testBit_xor, Nat.testBit_two_pow_sub_one,
    show 2 ^ k - 1 - c = 2 ^ k - (c + 1) by omega, Nat.testBit_two_pow_sub_succ hc]
  by_cases h : i < k
  · simp [h]
  · simp [h, Nat.testBit_lt_two_pow (Nat.lt_of_lt_of_le hc (Nat.pow_le_pow_right (by omega) (by omega : k ≤ i)))]

theorem bsf_spec {w : Nat} (x : BitVec w) (hx : x ≠ 0) : ∃ i, ctz x = .ok i ∧ IsLowest x i :=
  let ⟨i, h1, h2, _⟩ := ctz_spec x hx; ⟨i, h1, h2⟩

theorem bsr32_spec (x : BitVec 32) (hx : x ≠ 0) : ∃ i, bsr32 x = .ok i ∧ IsHighest x i := by
  obtain ⟨i, h1, h2, h3⟩ := clz_spec x hx
  refine ⟨31 - i, ?_, h3⟩
  simp only [bsr32, h1, Res.ok_bind, Res.pure_eq]
  rw [show (0x1f : Nat) = 2 ^ 5 - 1 by decide, xor_mask 5 i (by omega)]

theorem bsr64_spec (x : BitVec 64) (hx : x ≠ 0) : ∃ i, bsr64 x = .ok i ∧ IsHighest x i := by
  obtain ⟨i, h1, h2, h3⟩ := clz_spec x hx
  refine ⟨63 - i, ?_, h3⟩
  simp only [bsr64, h1, Res.ok_bind, Res.pure_eq]
  rw [show (0x3f : Nat) = 2 ^ 6 - 1 by decide, xor_mask 6 i (by omega)]

theorem getLo (x : BitVec 64) (j : Nat) : (x.truncate 32).getLsbD j = (decide (j < 32) && x.getLsbD j) := by
  simp

theorem getHi (x : BitVec 64) (j : Nat) :
    ((x >>> 32).truncate 32).getLsbD j = (decide (j < 32) && x.getLsbD (32 + j)) := by
  simp

theorem bsf64Split_spec (x : BitVec 64) (hx : x ≠ 0) :
    ∃ i, bsf64Split x = .ok i ∧ IsLowest x i := by
  simp only [bsf64Split]
  split
  · rename_i h
    obtain ⟨i, h1, ⟨h2, h3⟩, h4⟩ := ctz_spec _ h
    refine ⟨i, h1, ?_, fun j hj => ?_⟩
    · rw [getLo] at h2; simp_all
    · have := h3 j hj; rw [getLo] at this; simp at this; exact this (by omega)
  · rename_i h
    simp only [ne_eq, Decidable.not_not] at h
    have hlo : ∀ j < 32, x.getLsbD j = false := by
      intro j hj
      have := getLo x j; rw [h] at this; simp [hj] at this; exact this
    have hH : (x >>> 32).truncate 32 ≠ 0 := by
      intro h'
      apply hx
      apply eq_zero_of_bits
      intro j hj
      by_cases hj' : j < 32
      · exact hlo j hj'
      · have := getHi x (j - 32); rw [h'] at this
        simp [show j - 32 < 32 by omega, show 32 + (j - 32) = j by omega] at this; exact this
    obtain ⟨i, h1, ⟨h2, h3⟩, h4⟩ := ctz_spec _ hH
    refine ⟨i + 32, by simp only [bsf32, h1, Res.ok_bind, Res.pure_eq], ?_, fun j hj => ?_⟩
    · rw [getHi] at h2; simp at h2; rw [Nat.add_comm]; exact h2.2
    · by_cases hj' : j < 32
      · exact hlo j hj'
      · have := h3 (j - 32) (by omega); rw [getHi] at this
        simp [show 32 + (j - 32) = j by omega] at this; exact this (by omega)

theorem bsr64Split_spec (x : BitVec 64) (hx : x ≠ 0) :
    ∃ i, bsr64Split x = .ok i ∧ IsHighest x i := by
  simp only [bsr64Split]
  split
  · rename_i h
    obtain ⟨i, h1, h2, h3⟩ := bsr32_spec _ h
    refine ⟨i + 32, by simp only [h1, Res.ok_bind, Res.pure_eq], ?_, fun j hj => ?_⟩
    · rw [getHi] at h2; simp at h2; rw [Nat.add_comm]; exact h2.2
    · by_cases hj' : j < 64
      · have := h3 (j - 32) (by omega); rw [getHi] at this
        simp [show 32 + (j - 32) = j by omega] at this; exact this (by omega)
      · exact BitVec.getLsbD_of_ge _ _ (by omega)
  · rename_i h
    simp only [ne_eq, Decidable.not_not] at h
    have hhi : ∀ j, 32 ≤ j → x.getLsbD j = false := by
      intro j hj
      by_cases hj' : j < 64
      · have := getHi x (j - 32); rw [h] at this
        simp [show j - 32 < 32 by omega, show 32 + (j - 32) = j by omega] at this; exact this
      · exact BitVec.getLsbD_of_ge _ _ (by omega)
    have hL : x.truncate 32 ≠ 0 := by
      intro h'
      apply hx
      apply eq_zero_of_bits
      intro j hj
      by_cases hj' : j < 32
      · have := getLo x j; rw [h'] at this; simp [hj'] at this; exact this
      · exact hhi j (by omega)
    obtain ⟨i, h1, h2, h3⟩ := bsr32_spec _ hL
    refine ⟨i, h1, ?_, fun j hj => ?_⟩
    · rw [getLo] at h2; simp_all
    · by_cases hj' : j < 32
      · have := h3 j hj; rw [getLo] at this; simp at this; exact this (by omega)
      · exact hhi j (by omega)

theorem digitSum_step (n : Nat) : digitSum n = n % 2 + digitSum (n / 2) := by
  cases n with
  | zero => simp [digitSum]
  | succ n => rw [digitSum]

theorem countP_testBit (w : Nat) : ∀ n < 2 ^ w, (List.range w).countP (fun i => n.testBit i) = digitSum n := by
  induction w with
  | zero => intro n hn; have : n = 0 := by omega
            subst this; simp [digitSum]
  | succ w ih =>
    intro n hn
    rw [List.range_succ_eq_map, List.countP_cons, List.countP_map, digitSum_step,
      ← ih (n / 2) (by omega)]
    have : ((fun i => n.testBit i) ∘ Nat.succ) = fun i => (n / 2).testBit i := by
      funext i; simp [Nat.testBit_succ]
    rw [this, Nat.add_comm]
    congr 1
    simp only [Nat.testBit_zero, decide_eq_true_eq]
    split <;> omega

theorem popcount_eq {w : Nat} (x : BitVec w) : popcount x = digitSum x.toNat := by
  rw [← countP_testBit w x.toNat x.isLt]
  rfl

theorem popcnt64Split_eq (x : BitVec 64) : popcnt64Split x = popcount x := by
  simp only [popcnt64Split, popcnt32, popcount]
  rw [show List.range 64 = List.range 32 ++ (List.range 32).map (32 + ·) from by decide,
    List.countP_append, List.countP_map]
  congr 1
  · apply List.countP_congr; intro i hi; rw [getLo]; simp at hi; simp [hi]
  · apply List.countP_congr; intro i hi; rw [getHi]; simp at hi; simp [hi]

theorem mask_toNat (n : Nat) (h : n < 64) :
    (((1 : BitVec 64) <<< n) - 1).toNat = 2 ^ n - 1 := by
  have hp : 2 ^ n < 2 ^ 64 := Nat.pow_lt_pow_right (by omega) h
  have hp0 : 0 < 2 ^ n := Nat.two_pow_pos n
  rw [BitVec.toNat_sub, BitVec.toNat_shiftLeft]
  have h1 : BitVec.toNat (1 : BitVec 64) = 1 := rfl
  rw [h1, Nat.one_shiftLeft, Nat.mod_eq_of_lt hp]
  omega

theorem mask_bits (n : Nat) (h : n < 64) (i : Nat) :
    (((1 : BitVec 64) <<< n) - 1).getLsbD i = decide (i < n) := by
  rw [← BitVec.testBit_toNat, mask_toNat n h, Nat.testBit_two_pow_sub_one]

end Verif.BitOp
