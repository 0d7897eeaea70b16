import Verif.Proof.BitOp

/-! # C08: bit scan, population count, masks -/
namespace Verif.Props.BitOp
open Verif Verif.BitOp Verif.Spec.BitOp

/-- C08.  `bsf` on every non-zero word: the index of the lowest set bit, in all three
implementations. -/
theorem C08_bsf (x : BitVec 64) (y : BitVec 32) (hx : x ≠ 0) (hy : y ≠ 0) :
    (∃ i, bsf64 x = .ok i ∧ IsLowest x i) ∧ (∃ i, bsf64Split x = .ok i ∧ IsLowest x i) ∧
    (∃ i, bsf32 y = .ok i ∧ IsLowest y i) :=
  ⟨bsf_spec x hx, bsf64Split_spec x hx, bsf_spec y hy⟩

/-- C08.  `bsr` on every non-zero word: the index of the highest set bit. -/
theorem C08_bsr (x : BitVec 64) (y : BitVec 32) (hx : x ≠ 0) (hy : y ≠ 0) :
    (∃ i, bsr64 x = .ok i ∧ IsHighest x i) ∧ (∃ i, bsr64Split x = .ok i ∧ IsHighest x i) ∧
    (∃ i, bsr32 y = .ok i ∧ IsHighest y i) :=
  ⟨bsr64_spec x hx, bsr64Split_spec x hx, bsr32_spec y hy⟩

/-- C08.  The portable fallbacks give the same number as the builtin versions. -/
theorem C08_fallbacks_agree (x : BitVec 64) (hx : x ≠ 0) :
    bsf64Split x = bsf64 x ∧ bsr64Split x = bsr64 x ∧ popcnt64Split x = popcnt64 x := by
  refine ⟨?_, ?_, popcnt64Split_eq x⟩
  · obtain ⟨i, h1, h2⟩ := bsf_spec x hx
    obtain ⟨j, h3, h4⟩ := bsf64Split_spec x hx
    rw [h3, bsf64, h1, isLowest_unique h2 h4]
  · obtain ⟨i, h1, h2⟩ := bsr64_spec x hx
    obtain ⟨j, h3, h4⟩ := bsr64Split_spec x hx
    rw [h3, h1, isHighest_unique h2 h4]

/-- C08.  `popcnt` is the sum of the binary digits, for every word (including 0). -/
theorem C08_popcnt (x : BitVec 64) (y : BitVec 32) :
    popcnt64 x = digitSum x.toNat ∧ popcnt64Split x = digitSum x.toNat ∧
    popcnt32 y = digitSum y.toNat :=
  ⟨popcount_eq x, (popcnt64Split_eq x).trans (popcount_eq x), popcount_eq y⟩

/-- C08.  `makeBitMask64(n)` has exactly the low `n` bits set for every `n < 64`. -/
theorem C08_mask (n : Nat) (h : n < 64) :
    ∃ m, makeBitMask64 n = .ok m ∧ m.toNat = 2 ^ n - 1 ∧ ∀ i, m.getLsbD i = decide (i < n) :=
  ⟨_, by simp only [makeBitMask64, h, if_true], mask_toNat n h, mask_bits n h⟩

example : bsf64Split 0x8000000000000 = .ok 51 := by decide +kernel
example : bsr64Split 0x8000000000001 = .ok 51 := by decide +kernel
example : popcnt64Split 0x8000000000001 = 2 := by decide +kernel
example : makeBitMask64 5 = .ok 31 := by decide +kernel
example : (0x8000000000001 : BitVec 64) ≠ 0 := by decide

#print axioms C08_bsf
#print axioms C08_bsr
#print axioms C08_fallbacks_agree
#print axioms C08_popcnt
#print axioms C08_mask

end Verif.Props.BitOp
