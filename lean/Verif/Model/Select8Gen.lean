import Verif.Model.Select8

/-!
# Model of `misc/make_select8tbl.cpp`

The program whose output was pasted into `include/cybozu/select8.hpp`.
-/
namespace Verif.Select8Gen

/-- The loop of `select8` (make_select8tbl.cpp:8-14) with `k = 64 - i` rounds left. -/
def loop (v : BitVec 64) (r : Nat) : (k i count : Nat) → Nat
  | 0, _, _ => 64
  | k + 1, i, count =>
    let count := if v &&& (1#64 <<< i) ≠ 0 then count + 1 else count
    if count = r then i else loop v r k (i + 1) count

/-- `select8` (make_select8tbl.cpp:5-15); `count` is at most 64 and does not wrap. -/
def select8 (v : BitVec 64) (r : Nat) : Nat := loop v r 64 0 0

/-- `printf("%d, ", ...)` (make_select8tbl.cpp:22).  The argument is a `uint64_t`; that the callee takes its low half, as on
x86-64, is assumed. -/
def item (n : Nat) : String := (toString (Int.bmod n (2 ^ 32))) ++ ", "

/-- Lines 20-24 of make_select8tbl.cpp. -/
def row (x : Nat) : String :=
  "{" ++ String.join ((List.range 8).map fun i => item (select8 (BitVec.ofNat 64 x) i)) ++ "},\n"

/-- `main` (make_select8tbl.cpp:17-26): what is printed. -/
def main : String := String.join ((List.range 256).map row)

end Verif.Select8Gen
