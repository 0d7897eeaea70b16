import Verif.Proof.V128
set_option linter.unusedSimpArgs false
/-!
# C74: shifts, rotations and moves of 128-bit registers
-/
namespace Verif.Props.V128
open Verif.V128

/-- `shrBit<n>` shifts all 128 bits, also across the border between the halves. -/
theorem C74_shr (n : Nat) (x : BitVec 128) (h : n < 64) : shrBit n x = .ok (x >>> n) := shr_eq n x h

/-- `shlBit<n>` shifts all 128 bits. -/
theorem C74_shl (n : Nat) (x : BitVec 128) (h : n < 64) : shlBit n x = .ok (x <<< n) := shl_eq n x h

/-- `rotrByte<n>` rotates the 48 bytes `[x2:x1:x0]` to the right. -/
theorem C74_rotr (n : Nat) (x0 x1 x2 : BitVec 128) (h : n ≤ 16) :
    ∃ y0 y1 y2, rotrByte n x0 x1 x2 = (y0, y1, y2) ∧
      y2 ++ (y1 ++ y0) = (x2 ++ (x1 ++ x0)).rotateRight (8 * n) :=
  ⟨_, _, _, rfl, rotr_eq n x0 x1 x2 h⟩

/-- `rotlByte<n>` rotates the 48 bytes `[x2:x1:x0]` to the left. -/
theorem C74_rotl (n : Nat) (x0 x1 x2 : BitVec 128) (h : n ≤ 16) :
    ∃ y0 y1 y2, rotlByte n x0 x1 x2 = (y0, y1, y2) ∧
      y2 ++ (y1 ++ y0) = (x2 ++ (x1 ++ x0)).rotateLeft (8 * n) :=
  ⟨_, _, _, rfl, rotl_eq n x0 x1 x2 h⟩

/-- Rotating to the left undoes rotating to the right. -/
theorem C74_rot_inverse (n : Nat) (x0 x1 x2 : BitVec 128) (h : n ≤ 16) :
    let y := rotrByte n x0 x1 x2
    rotlByte n y.1 y.2.1 y.2.2 = (x0, x1, x2) := by
  have bit : ∀ a b c : BitVec 128, palignr (16 - n) (palignr n b a) (palignr n a c) = a := by
    intro a b c
    apply BitVec.eq_of_getLsbD_eq
    intro i hi
    rw [palignr_bit _ _ _ _ hi]
    split
    · rename_i h1
      rw [palignr_bit _ _ _ _ h1, if_neg (by omega)]
      exact bit_congr _ (by omega)
    · rename_i h1
      rw [palignr_bit _ _ _ _ (by omega), if_pos (by omega)]
      exact bit_congr _ (by omega)
  simp only [rotl_eq_rotr, rotrByte, bit]

/-- `swap128` exchanges the two blocks, also if they are the same, and changes nothing else. -/
theorem C74_swap (m : Mem) (p q : Nat) (hp : p % 4 = 0) (hq : q % 4 = 0) :
    ∃ m', swap128 m p q = .ok m' ∧ (∀ k, k < 4 → m' (p + k) = m (q + k)) ∧
      (∀ k, k < 4 → m' (q + k) = m (p + k)) ∧
      ∀ a, ¬ (p ≤ a ∧ a < p + 4) → ¬ (q ≤ a ∧ a < q + 4) → m' a = m a := by
  obtain ⟨x, hx, hs⟩ := copied m m p q hp hq
  obtain ⟨y, hy, ht⟩ := copied m (fun a => if p ≤ a ∧ a < p + 4 then m (q + (a - p)) else m a) q p hq hp
  refine ⟨_, by rw [swap128, hy, Res.ok_bind, hx, Res.ok_bind, hs, Res.ok_bind, ht], ?_, ?_, ?_⟩
  · intro k hk
    by_cases h : q ≤ p + k ∧ p + k < q + 4
    · have : p = q := by omega
      subst this
      rw [if_pos h]
      exact congrArg m (by omega)
    · rw [if_neg h, if_pos (by omega)]
      exact congrArg m (by omega)
  · intro k hk
    rw [if_pos (by omega)]
    exact congrArg m (by omega)
  · intro a h1 h2
    rw [if_neg h2, if_neg h1]

/-- `copy128` copies the block and changes nothing else. -/
theorem C74_copy (m : Mem) (d s : Nat) (hd : d % 4 = 0) (hs : s % 4 = 0) :
    ∃ m', copy128 m d s = .ok m' ∧ (∀ k, k < 4 → m' (d + k) = m (s + k)) ∧
      ∀ a, ¬ (d ≤ a ∧ a < d + 4) → m' a = m a := by
  obtain ⟨x, hx, hs⟩ := copied m m d s hd hs
  refine ⟨_, by rw [copy128, hx, Res.ok_bind, hs], ?_, ?_⟩
  · intro k hk
    rw [if_pos (by omega)]
    exact congrArg m (by omega)
  · intro a h
    rw [if_neg h]

/-- Finding: `rotrByte<n>` compiles for counts above 16, but loses bytes. -/
theorem C74_finding_rotr_loses :
    (rotrByte 17 0 1 0) = ((0 : BitVec 128), 0, 0) ∧
      ((0 : BitVec 128) ++ ((1 : BitVec 128) ++ (0 : BitVec 128))).rotateRight (8 * 17) ≠ 0 := by
  constructor <;> decide +kernel

example : shrBit 60 ((1 : BitVec 64) ++ (0 : BitVec 64)) = .ok 16 := by decide +kernel
example : rotrByte 1 (0x102 : BitVec 128) 0 0 = ((1 : BitVec 128), (0 : BitVec 128), (2 : BitVec 128) <<< 120) := by decide +kernel

end Verif.Props.V128

#print axioms Verif.Props.V128.C74_shr
#print axioms Verif.Props.V128.C74_rotr
#print axioms Verif.Props.V128.C74_swap
