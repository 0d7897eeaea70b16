import Verif.Model.Common

/-!
# Model of `include/cybozu/bit_operation.hpp`

Words are `BitVec`.  The compiler builtins are given their documented meaning and are undefined on 0
where the documentation says so.
-/
namespace Verif.BitOp

/-- `__builtin_ctz(x)` / `__builtin_ctzll(x)` (bit_operation.hpp:32, 61): number of trailing zero bits,
undefined for 0. -/
def ctz {w : Nat} (x : BitVec w) : Res Nat :=
  match (List.range w).find? (fun i => x.getLsbD i) with
  | some i => .ok i
  | none => .ub

/-- `__builtin_clz(x)` / `__builtin_clzll(x)` (bit_operation.hpp:44, 78): number of leading zero bits,
undefined for 0. -/
def clz {w : Nat} (x : BitVec w) : Res Nat :=
  match (List.range w).find? (fun i => x.getLsbD (w - 1 - i)) with
  | some i => .ok i
  | none => .ub

/-- `__builtin_popcount(x)` / `__builtin_popcountll(x)` (bit_operation.hpp:119, 129). -/
def popcount {w : Nat} (x : BitVec w) : Nat :=
  (List.range w).countP (fun i => x.getLsbD i)

/-- `Tag<false>::bsf` for `uint32_t` (bit_operation.hpp:23-34). -/
def bsf32 (x : BitVec 32) : Res Nat := ctz x

/-- `Tag<false>::bsr` for `uint32_t` (bit_operation.hpp:35-46). -/
def bsr32 (x : BitVec 32) : Res Nat := do
  let c ← clz x
  return c ^^^ 0x1f

/-- `Tag<true>::bsf` on x86-64 (bit_operation.hpp:60-61). -/
def bsf64 (x : BitVec 64) : Res Nat := ctz x

/-- `Tag<true>::bsf`, portable branch (bit_operation.hpp:62-66). -/
def bsf64Split (x : BitVec 64) : Res Nat :=
  let L := x.truncate 32
  if L ≠ 0 then bsf32 L
  else
    let H := (x >>> 32).truncate 32
    do let r ← bsf32 H
       return r + 32

/-- `Tag<true>::bsr` on x86-64 (bit_operation.hpp:77-78). -/
def bsr64 (x : BitVec 64) : Res Nat := do
  let c ← clz x
  return c ^^^ 0x3f

/-- `Tag<true>::bsr`, portable branch (bit_operation.hpp:79-83). -/
def bsr64Split (x : BitVec 64) : Res Nat :=
  let H := (x >>> 32).truncate 32
  if H ≠ 0 then do
    let r ← bsr32 H
    return r + 32
  else
    let L := x.truncate 32
    bsr32 L

/-- `makeBitMask64` (bit_operation.hpp:101-106).  `assert(x < 64)`; without the assertion the shift by
64 or more is undefined, so both are `ub` here. -/
def makeBitMask64 (x : Nat) : Res (BitVec 64) :=
  if x < 64 then .ok (((1 : BitVec 64) <<< x) - 1) else .ub

/-- `popcnt<uint32_t>` (bit_operation.hpp:111-121). -/
def popcnt32 (x : BitVec 32) : Nat := popcount x

/-- `popcnt<uint64_t>` on x86-64 (bit_operation.hpp:128-129). -/
def popcnt64 (x : BitVec 64) : Nat := popcount x

/-- `popcnt<uint64_t>`, portable branch (bit_operation.hpp:132-133). -/
def popcnt64Split (x : BitVec 64) : Nat :=
  popcnt32 (x.truncate 32) + popcnt32 ((x >>> 32).truncate 32)

end Verif.BitOp
