import Verif.Proof.ShiftLeftBit

/-! # C58: `ShiftLeftBit` -/
namespace Verif.Props.ShiftLeftBit
open Verif.BitVector Verif.Spec.BitVector

/-- C58.  Read as numbers (lowest word first), the destination words plus the returned word above them
are the low `n` bits of the source shifted left by `s`, or-ed with `ext`.  This holds with `dst` and
`src` different arrays and with `dst = src`; the words of `dst` behind the shifted ones and its size do
not change. -/
theorem C58_shiftLeft {w : Nat} (hw : 0 < w) (same : Bool) (dst src : List (BitVec w)) (n s : Nat)
    (ext : BitVec w) (hn : 0 < n) (hs : s < w) (hov : n + w ≤ 2 ^ 64)
    (h1 : (n + w - 1) / w ≤ dst.length) (h2 : same = false → (n + w - 1) / w ≤ src.length) :
    ∃ dst' ret, shiftLeftPub same dst src n s ext = .ok (dst', ret) ∧ dst'.length = dst.length ∧
      dst'.drop ((n + w - 1) / w) = dst.drop ((n + w - 1) / w) ∧
      value (dst'.take ((n + w - 1) / w)) + 2 ^ ((n + w - 1) / w * w) * ret.toNat =
        ((value (if same then dst else src) % 2 ^ n) <<< s) ||| ext.toNat :=
  shiftLeftPub_value hw same dst src n s ext hn hs hov h1 h2

/-- C58.  Nothing happens for length 0; a shift by the word size or more is refused. -/
theorem C58_edges {w : Nat} (same : Bool) (dst src : List (BitVec w)) (n s : Nat) (ext : BitVec w) :
    shiftLeftPub same dst src 0 s ext = .ok (dst, 0) ∧
    (0 < n → w ≤ s → shiftLeftPub same dst src n s ext = .throw) := by
  refine ⟨by simp [shiftLeftPub], fun h1 h2 => ?_⟩
  rw [shiftLeftPub, if_neg (by omega), if_pos h2]

example : shiftLeftPub true [0xffff, 0xabcd, 7] ([] : List (BitVec 16)) 30 4 0x3
    = .ok ([0xfff3, 0xbcdf, 7], 0x2) := by decide +kernel
example : shiftLeftPub false [0, 0] [0xffff, 0xabcd] 32 0 (0x0 : BitVec 16)
    = .ok ([0xffff, 0xabcd], 0) := by decide +kernel

#print axioms C58_shiftLeft
#print axioms C58_edges

end Verif.Props.ShiftLeftBit
