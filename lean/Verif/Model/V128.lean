import Verif.Model.Common
/-!
# Model of the wrapper of 128-bit registers (include/cybozu/v128.hpp)

A register is a `BitVec 128`.  The intrinsics have the meaning of Intel's manual.  Memory is a
function from addresses of 32-bit words (an address is counted in words) to words.

`V128` has no `operator|` and no conversion to `__m128i`, so `shrBit` and `shlBit` do not compile
when they are used; they are modelled with `por` in its place.

Not modelled: the wrappers that are one intrinsic and are not used by another function here,
printing.
-/
namespace Verif.V128

/-- `_mm_srli_si128`: bytes to the right (v128.hpp:129-132). -/
def psrldq (n : Nat) (a : BitVec 128) : BitVec 128 := a >>> (8 * n)

/-- `_mm_slli_si128`: bytes to the left (v128.hpp:135-138). -/
def pslldq (n : Nat) (a : BitVec 128) : BitVec 128 := a <<< (8 * n)

/-- The upper half. -/
def hi (a : BitVec 128) : BitVec 64 := a.extractLsb' 64 64

/-- The lower half. -/
def lo (a : BitVec 128) : BitVec 64 := a.extractLsb' 0 64

/-- `_mm_srli_epi64`: each half to the right, zero from 64 bits on (v128.hpp:141-144). -/
def psrlq (n : Nat) (a : BitVec 128) : BitVec 128 := (hi a >>> n) ++ (lo a >>> n)

/-- `_mm_slli_epi64`: each half to the left, zero from 64 bits on (v128.hpp:152-155). -/
def psllq (n : Nat) (a : BitVec 128) : BitVec 128 := (hi a <<< n) ++ (lo a <<< n)

/-- `_mm_alignr_epi8`: 16 bytes out of the 32 bytes `[a:b]` from byte `n` on, zero behind the end
(v128.hpp:163-166). -/
def palignr (n : Nat) (a b : BitVec 128) : BitVec 128 := ((a ++ b) >>> (8 * n)).extractLsb' 0 128

/-- `_mm_or_si128` (v128.hpp:212-215). -/
def por (a b : BitVec 128) : BitVec 128 := a ||| b

/-- `V128::shrBit` (v128.hpp:318-329); `assert(n < 64)`. -/
def shrBit (n : Nat) (x : BitVec 128) : Res (BitVec 128) :=
  if n < 64 then .ok (por (psrlq n x) (psllq (64 - n) (psrldq 8 x))) else .ub

/-- `V128::shlBit` (v128.hpp:332-343); `assert(n < 64)`. -/
def shlBit (n : Nat) (x : BitVec 128) : Res (BitVec 128) :=
  if n < 64 then .ok (por (psllq n x) (psrlq (64 - n) (pslldq 8 x))) else .ub

/-- `rotrByte` (v128.hpp:349-355): the new `(x0, x1, x2)` of three different objects. -/
def rotrByte (n : Nat) (x0 x1 x2 : BitVec 128) : BitVec 128 × BitVec 128 × BitVec 128 :=
  let t := x0
  let x0 := palignr n x1 x0
  let x1 := palignr n x2 x1
  let x2 := palignr n t x2
  (x0, x1, x2)

/-- `rotlByte` (v128.hpp:361-367): a count above 16 is a negative argument of `palignr`, which does
not compile. -/
def rotlByte (n : Nat) (x0 x1 x2 : BitVec 128) : BitVec 128 × BitVec 128 × BitVec 128 :=
  let t := x2
  let x2 := palignr (16 - n) x2 x1
  let x1 := palignr (16 - n) x1 x0
  let x0 := palignr (16 - n) x0 t
  (x0, x1, x2)

/-- Memory of 32-bit words. -/
abbrev Mem := Nat → BitVec 32

/-- `_mm_load_si128` (v128.hpp:33-36): the address has to be a multiple of 16 bytes. -/
def load (m : Mem) (p : Nat) : Res (BitVec 128) :=
  if p % 4 = 0 then .ok (m (p + 3) ++ m (p + 2) ++ m (p + 1) ++ m p) else .ub

/-- `_mm_store_si128` (v128.hpp:79-82). -/
def store (m : Mem) (p : Nat) (x : BitVec 128) : Res Mem :=
  if p % 4 = 0 then
    .ok fun a => if p ≤ a ∧ a < p + 4 then x.extractLsb' (32 * (a - p)) 32 else m a
  else .ub

/-- `swap128` (v128.hpp:305-310). -/
def swap128 (m : Mem) (p q : Nat) : Res Mem := do
  let t ← load m p
  let m ← store m p (← load m q)
  store m q t

/-- `copy128` (v128.hpp:312-315). -/
def copy128 (m : Mem) (dest src : Nat) : Res Mem := do
  store m dest (← load m src)

end Verif.V128
