import Verif.Model.V128

/-!
# Model of the operations of `v128.hpp` on lanes

Each function is one instruction; what the instruction does is taken from the manual of the processor.
A register is a number of 128 bits, `lane w i` its `i`-th part of `w` bits, counted from the least one.
-/
namespace Verif.V128

/-- The bits `f 0`, `f 1`, … -/
def gather (n : Nat) (f : Nat → Bool) : BitVec n := (BitVec.ofBoolListLE ((List.range n).map f)).cast (by simp)

/-- Part `i` of `w` bits. -/
def lane (w i : Nat) (x : BitVec 128) : BitVec w := x.extractLsb' (w * i) w

/-- The register with the parts `f 0`, `f 1`, … of `w` bits. -/
def lanes (w : Nat) (f : Nat → BitVec w) : BitVec 128 := gather 128 fun k => (f (k / w)).getLsbD (k % w)

/-- `V128(x3, x2, x1, x0)`, `set(x3, x2, x1, x0)` (v128.hpp:46-50, 73-77). -/
def set4 (x3 x2 x1 x0 : BitVec 32) : BitVec 128 :=
  lanes 32 fun i => match i with | 0 => x0 | 1 => x1 | 2 => x2 | _ => x3

/-- `set(x)` (v128.hpp:69-72). -/
def set1 (x : BitVec 32) : BitVec 128 := lanes 32 fun _ => x

/-- `V128(uint32_t)` (v128.hpp:51-54). -/
def ofUint32 (x : BitVec 32) : BitVec 128 := x.setWidth 128

/-- `V128(uint64_t)` (v128.hpp:56-59). -/
def ofUint64 (x : BitVec 64) : BitVec 128 := x.setWidth 128

/-- `clear`, `Zero` (v128.hpp:65-68, 123-126). -/
def zero : BitVec 128 := 0

/-- `movd` (v128.hpp:118-121). -/
def movd (a : BitVec 128) : BitVec 32 := lane 32 0 a

/-- `store_u` (v128.hpp:84-87), on any address of words. -/
def storeU (m : Mem) (p : Nat) (x : BitVec 128) : Mem := fun a => if p ≤ a ∧ a < p + 4 then lane 32 (a - p) x else m a

/-- `load_u` (v128.hpp:94-97), from any address of words. -/
def loadU (m : Mem) (p : Nat) : BitVec 128 := lanes 32 fun i => m (p + i)

/-- `psrlq` with the count in a register (v128.hpp:146-149): the lower half of `n` counts, from 64 on all is shifted out. -/
def psrlqV (a n : BitVec 128) : BitVec 128 := lanes 64 fun i => lane 64 i a >>> (lane 64 0 n).toNat

/-- `psllq` with the count in a register (v128.hpp:157-160). -/
def psllqV (a n : BitVec 128) : BitVec 128 := lanes 64 fun i => lane 64 i a <<< (lane 64 0 n).toNat

/-- `punpckhdq` (v128.hpp:168-171) and `unpckhps` (193-196). -/
def punpckhdq (a b : BitVec 128) : BitVec 128 := lanes 32 fun i => if i % 2 = 0 then lane 32 (2 + i / 2) a else lane 32 (2 + i / 2) b

/-- `punpckldq` (v128.hpp:178-181) and `unpcklps` (188-191). -/
def punpckldq (a b : BitVec 128) : BitVec 128 := lanes 32 fun i => if i % 2 = 0 then lane 32 (i / 2) a else lane 32 (i / 2) b

/-- `punpckhqdq` (v128.hpp:173-176). -/
def punpckhqdq (a b : BitVec 128) : BitVec 128 := lanes 64 fun i => if i = 0 then lane 64 1 a else lane 64 1 b

/-- `punpcklqdq` (v128.hpp:183-186). -/
def punpcklqdq (a b : BitVec 128) : BitVec 128 := lanes 64 fun i => if i = 0 then lane 64 0 a else lane 64 0 b

/-- `paddd` (v128.hpp:198-201). -/
def paddd (a b : BitVec 128) : BitVec 128 := lanes 32 fun i => lane 32 i a + lane 32 i b

/-- `psubd` (v128.hpp:202-205). -/
def psubd (a b : BitVec 128) : BitVec 128 := lanes 32 fun i => lane 32 i a - lane 32 i b

/-- `pandn` (v128.hpp:207-210). -/
def pandn (a b : BitVec 128) : BitVec 128 := ~~~a &&& b

/-- `pand` (v128.hpp:217-220). -/
def pand (a b : BitVec 128) : BitVec 128 := a &&& b

/-- `pxor` (v128.hpp:222-225). -/
def pxor (a b : BitVec 128) : BitVec 128 := a ^^^ b

/-- `pmaxsd` (v128.hpp:227-230). -/
def pmaxsd (a b : BitVec 128) : BitVec 128 := lanes 32 fun i => if (lane 32 i b).slt (lane 32 i a) then lane 32 i a else lane 32 i b

/-- `pminsd` (v128.hpp:232-235). -/
def pminsd (a b : BitVec 128) : BitVec 128 := lanes 32 fun i => if (lane 32 i a).slt (lane 32 i b) then lane 32 i a else lane 32 i b

/-- `pmaxud` (v128.hpp:237-240). -/
def pmaxud (a b : BitVec 128) : BitVec 128 := lanes 32 fun i => if (lane 32 i b).ult (lane 32 i a) then lane 32 i a else lane 32 i b

/-- `pminud` (v128.hpp:242-245). -/
def pminud (a b : BitVec 128) : BitVec 128 := lanes 32 fun i => if (lane 32 i a).ult (lane 32 i b) then lane 32 i a else lane 32 i b

/-- `pcmpeqd` (v128.hpp:247-250). -/
def pcmpeqd (a b : BitVec 128) : BitVec 128 := lanes 32 fun i => if lane 32 i a = lane 32 i b then BitVec.allOnes 32 else 0

/-- `pcmpgtd` (v128.hpp:252-255). -/
def pcmpgtd (a b : BitVec 128) : BitVec 128 := lanes 32 fun i => if (lane 32 i b).slt (lane 32 i a) then BitVec.allOnes 32 else 0

/-- `pmovmskb` (v128.hpp:257-260): the top bits of the 16 bytes. -/
def pmovmskb (a : BitVec 128) : BitVec 32 := gather 32 fun i => decide (i < 16) && (lane 8 i a).msb

/-- `pshufb` (v128.hpp:261-264): byte `i` is the byte of `a` that the low 4 bits of byte `i` of `b` name, or 0 if its top bit is set. -/
def pshufb (a b : BitVec 128) : BitVec 128 := lanes 8 fun i => if (lane 8 i b).msb then 0 else lane 8 ((lane 8 i b).toNat % 16) a

/-- `pshufd<n>` (v128.hpp:266-270). -/
def pshufd (n : Nat) (a : BitVec 128) : BitVec 128 := lanes 32 fun i => lane 32 (n / 4 ^ i % 4) a

/-- `MIE_PACK` (v128.hpp:22-24). -/
def miePack (x y z w : Nat) : Nat := x * 64 + y * 16 + z * 4 + w

/-- `pextrd<idx>` (v128.hpp:272-276). -/
def pextrd (idx : Nat) (a : BitVec 128) : BitVec 32 := lane 32 (idx % 4) a

/-- `pinsrd<idx>` (v128.hpp:278-282). -/
def pinsrd (idx : Nat) (a : BitVec 128) (v : BitVec 32) : BitVec 128 := lanes 32 fun i => if i = idx % 4 then v else lane 32 i a

/-- `pinsrb<idx>` (v128.hpp:284-288). -/
def pinsrb (idx : Nat) (a : BitVec 128) (v : BitVec 8) : BitVec 128 := lanes 8 fun i => if i = idx % 16 then v else lane 8 i a

/-- `ptest_zf` (v128.hpp:290-293). -/
def ptestZf (a b : BitVec 128) : Bool := a &&& b = 0

/-- `ptest_cf` (v128.hpp:295-298). -/
def ptestCf (a b : BitVec 128) : Bool := ~~~a &&& b = 0

/-- `psadbw` (v128.hpp:300-303): for each half the sum of the differences of its bytes. -/
def psadbw (a b : BitVec 128) : BitVec 128 :=
  lanes 64 fun h => BitVec.ofNat 64 (((List.range 8).map fun k => ((lane 8 (8 * h + k) a).toNat : Int) - (lane 8 (8 * h + k) b).toNat).map Int.natAbs).sum

end Verif.V128
