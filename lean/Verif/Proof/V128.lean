import Verif.Model.V128
set_option linter.unusedSimpArgs false
namespace Verif.V128

theorem shr_eq (n : Nat) (x : BitVec 128) (h : n < 64) : shrBit n x = .ok (x >>> n) := by
  rw [shrBit, if_pos h]
  congr 1
  apply BitVec.eq_of_getLsbD_eq
  intro i hi'
  simp only [por, psrlq, psllq, psrldq, hi, lo, BitVec.getLsbD_or, BitVec.getLsbD_append,
    BitVec.getLsbD_ushiftRight, BitVec.getLsbD_shiftLeft, BitVec.getLsbD_extractLsb']
  by_cases h1 : i < 64
  · by_cases h2 : n + i < 64
    · have : i < 64 - n := by omega
      simp [h1, h2, this]
    · have : ¬ i < 64 - n := by omega
      have e : 64 + (i - (64 - n)) = n + i := by omega
      have e2 : i - (64 - n) < 64 := by omega
      simp [h1, h2, this, e, e2]
  · have e : 64 + (n + (i - 64)) = n + i := by omega
    by_cases h2 : n + (i - 64) < 64
    · have : i - 64 < 64 - n := by omega
      simp [h1, h2, this, e]
    · have e3 : 128 ≤ n + i := by omega
      have e4 : 128 ≤ 64 + (64 + (i - 64 - (64 - n))) := by omega
      simp [h1, h2, BitVec.getLsbD_of_ge _ _ e3, BitVec.getLsbD_of_ge _ _ e4]

theorem shl_eq (n : Nat) (x : BitVec 128) (h : n < 64) : shlBit n x = .ok (x <<< n) := by
  rw [shlBit, if_pos h]
  congr 1
  apply BitVec.eq_of_getLsbD_eq
  intro i hi'
  simp only [por, psrlq, psllq, pslldq, hi, lo, BitVec.getLsbD_or, BitVec.getLsbD_append,
    BitVec.getLsbD_ushiftRight, BitVec.getLsbD_shiftLeft, BitVec.getLsbD_extractLsb']
  by_cases h1 : i < 64
  · by_cases h2 : i < n
    · simp [h1, h2, hi']
      intros; omega
    · have : 64 - n + i ≥ 64 := by omega
      have e2 : i - n < 64 := by omega
      simp [h1, h2, this, hi', e2]
      intros; omega
  · have hn : ¬ i < n := by omega
    by_cases h2 : i - 64 < n
    · have e : 64 - n + (i - 64) < 64 := by omega
      have e2 : 64 + (64 - n + (i - 64)) < 128 := by omega
      have e3 : 64 + (64 - n + (i - 64)) - 64 = i - n := by omega
      simp [h1, h2, e, e2, e3, hn, hi']
    · have e : ¬ 64 - n + (i - 64) < 64 := by omega
      have e3 : 64 + (i - 64 - n) = i - n := by omega
      have e4 : i - 64 < 64 := by omega
      have e5 : i - 64 - n < 64 := by omega
      simp [h1, h2, e, e3, hn, hi', e4, e5]

theorem bit_congr (x : BitVec 128) {i j : Nat} (h : i = j) : x.getLsbD i = x.getLsbD j := by rw [h]

theorem palignr_bit (n : Nat) (a b : BitVec 128) (i : Nat) (h : i < 128) :
    (palignr n a b).getLsbD i =
      if 8 * n + i < 128 then b.getLsbD (8 * n + i) else a.getLsbD (8 * n + i - 128) := by
  simp only [palignr, BitVec.getLsbD_extractLsb', BitVec.getLsbD_ushiftRight,
    BitVec.getLsbD_append, h, decide_true, Bool.true_and, Nat.zero_add]

theorem rotr_eq (n : Nat) (x0 x1 x2 : BitVec 128) (h : n ≤ 16) :
    (rotrByte n x0 x1 x2).2.2 ++ ((rotrByte n x0 x1 x2).2.1 ++ (rotrByte n x0 x1 x2).1) =
      (x2 ++ (x1 ++ x0)).rotateRight (8 * n) := by
  apply BitVec.eq_of_getLsbD_eq
  intro i hi
  have hm : 8 * n % 384 = 8 * n := Nat.mod_eq_of_lt (by omega)
  simp only [rotrByte, BitVec.getLsbD_append, BitVec.getLsbD_rotateRight]
  simp only [Nat.reduceAdd, hm, Bool.cond_decide]
  by_cases h1 : i < 128
  · rw [if_pos h1, if_pos (by omega), palignr_bit _ _ _ _ h1, if_pos (by omega : i < 384 - 8 * n)]
    by_cases h2 : 8 * n + i < 128
    · rw [if_pos h2, if_pos (by omega)]
    · rw [if_neg h2, if_pos (by omega : 8 * n + i < 256)]
  · by_cases h1' : i < 256
    · rw [if_pos h1', if_neg h1, palignr_bit _ _ _ _ (by omega), if_pos (by omega : i < 384 - 8 * n)]
      by_cases h2 : 8 * n + (i - 128) < 128
      · rw [if_pos h2, if_pos (by omega : 8 * n + i < 256), if_neg (by omega : ¬ 8 * n + i < 128)]
        exact bit_congr _ (by omega)
      · rw [if_neg h2, if_neg (by omega : ¬ 8 * n + i < 256)]
        exact bit_congr _ (by omega)
    · rw [if_neg h1', palignr_bit _ _ _ _ (by omega)]
      by_cases h2 : 8 * n + (i - 256) < 128
      · rw [if_pos h2, if_pos (by omega : i < 384 - 8 * n), if_neg (by omega : ¬ 8 * n + i < 256)]
        exact bit_congr _ (by omega)
      · rw [if_neg h2, if_neg (by omega : ¬ i < 384 - 8 * n), if_pos (by omega)]
        simp only [show i < 384 from hi, decide_true, Bool.true_and]
        rw [if_pos (by omega)]
        exact bit_congr _ (by omega)

theorem rotl_eq_rotr (n : Nat) (x0 x1 x2 : BitVec 128) :
    rotlByte n x0 x1 x2 = (palignr (16 - n) x0 x2, palignr (16 - n) x1 x0, palignr (16 - n) x2 x1) := rfl

theorem rotl_eq (n : Nat) (x0 x1 x2 : BitVec 128) (h : n ≤ 16) :
    (rotlByte n x0 x1 x2).2.2 ++ ((rotlByte n x0 x1 x2).2.1 ++ (rotlByte n x0 x1 x2).1) =
      (x2 ++ (x1 ++ x0)).rotateLeft (8 * n) := by
  apply BitVec.eq_of_getLsbD_eq
  intro i hi
  have hm : 8 * n % 384 = 8 * n := Nat.mod_eq_of_lt (by omega)
  simp only [rotl_eq_rotr, BitVec.getLsbD_append, BitVec.getLsbD_rotateLeft]
  simp only [Nat.reduceAdd, hm, Bool.cond_decide]
  simp only [show i < 384 from hi, decide_true, Bool.true_and]
  by_cases h1 : i < 128
  · rw [if_pos h1, if_pos (by omega), palignr_bit _ _ _ _ h1]
    by_cases h2 : 8 * (16 - n) + i < 128
    · rw [if_pos h2, if_pos (by omega : i < 8 * n), if_neg (by omega)]
      exact bit_congr _ (by omega)
    · rw [if_neg h2, if_neg (by omega : ¬ i < 8 * n), if_pos (by omega), if_pos (by omega)]
      exact bit_congr _ (by omega)
  · by_cases h1' : i < 256
    · rw [if_pos h1', if_neg h1, palignr_bit _ _ _ _ (by omega), if_neg (by omega : ¬ i < 8 * n),
        if_pos (by omega : i - 8 * n < 256)]
      by_cases h2 : 8 * (16 - n) + (i - 128) < 128
      · rw [if_pos h2, if_pos (by omega : i - 8 * n < 128)]
        exact bit_congr _ (by omega)
      · rw [if_neg h2, if_neg (by omega : ¬ i - 8 * n < 128)]
        exact bit_congr _ (by omega)
    · rw [if_neg h1', palignr_bit _ _ _ _ (by omega), if_neg (by omega : ¬ i < 8 * n)]
      by_cases h2 : 8 * (16 - n) + (i - 256) < 128
      · rw [if_pos h2, if_pos (by omega : i - 8 * n < 256), if_neg (by omega : ¬ i - 8 * n < 128)]
        exact bit_congr _ (by omega)
      · rw [if_neg h2, if_neg (by omega : ¬ i - 8 * n < 256)]
        exact bit_congr _ (by omega)

theorem word (a b c d : BitVec 32) (k : Nat) (h : k < 4) :
    (a ++ b ++ c ++ d : BitVec 128).extractLsb' (32 * k) 32 =
      if k = 0 then d else if k = 1 then c else if k = 2 then b else a := by
  apply BitVec.eq_of_getLsbD_eq
  intro i hi
  rw [BitVec.getLsbD_extractLsb']
  simp only [hi, decide_true, Bool.true_and, BitVec.getLsbD_append]
  have hk : k = 0 ∨ k = 1 ∨ k = 2 ∨ k = 3 := by omega
  rcases hk with rfl | rfl | rfl | rfl
  · simp [hi]
  · have : ¬ 32 * 1 + i < 32 := by omega
    have h2 : 32 * 1 + i - 32 < 32 := by omega
    have h3 : 32 * 1 + i - 32 = i := by omega
    simp [this, h2, h3, hi]
  · have : ¬ 32 * 2 + i < 32 := by omega
    have h2 : ¬ 32 * 2 + i - 32 < 32 := by omega
    have h4 : 32 * 2 + i - 32 - 32 < 32 := by omega
    have h3 : 32 * 2 + i - 32 - 32 = i := by omega
    rw [if_neg this, if_neg h2, if_pos h4, h3]; simp
  · have : ¬ 32 * 3 + i < 32 := by omega
    have h2 : ¬ 32 * 3 + i - 32 < 32 := by omega
    have h4 : ¬ 32 * 3 + i - 32 - 32 < 32 := by omega
    have h3 : 32 * 3 + i - 32 - 32 - 32 = i := by omega
    rw [if_neg this, if_neg h2, if_neg h4, h3]; simp

theorem copied (m m' : Mem) (p q : Nat) (hp : p % 4 = 0) (hq : q % 4 = 0) :
    ∃ x, load m q = .ok x ∧ store m' p x = .ok fun a => if p ≤ a ∧ a < p + 4 then m (q + (a - p)) else m' a := by
  refine ⟨_, by rw [load, if_pos hq], ?_⟩
  rw [store, if_pos hp]
  congr 1
  funext a
  by_cases h : p ≤ a ∧ a < p + 4
  · rw [if_pos h, if_pos h, word _ _ _ _ _ (by omega)]
    have : a - p = 0 ∨ a - p = 1 ∨ a - p = 2 ∨ a - p = 3 := by omega
    rcases this with e | e | e | e <;> simp [e]
  · rw [if_neg h, if_neg h]

end Verif.V128
