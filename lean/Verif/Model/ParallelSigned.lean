import Verif.Model.Common

/-!
# Model of `parallel_for` for a signed index type (`include/cybozu/parallel.hpp`)

`N` is a signed type of `w` bits, such as `int`; both numbers may be negative.  What the threads do at the same time is C49 (`Model/Parallel`); here the
arithmetic is followed, with overflow as undefined behaviour (for types shorter than `int`, where the result would be converted back, this is stricter
than the language).
-/
namespace Verif.ParallelSigned

/-- `a + b` in `N`. -/
def add (w : Nat) (a b : Int) : Res Int := if -(2 ^ (w - 1) : Int) ≤ a + b ∧ a + b < (2 ^ (w - 1) : Int) then .ok (a + b) else .ub

/-- `if (i < r) end++` (parallel.hpp:70). -/
def oneMore (w : Nat) (i r e : Int) : Res Int := if i < r then add w e 1 else .ok e

/-- The loop that hands out the ranges (parallel.hpp:68-73); `fuel` is the number of elements of the array, an access behind it is undefined. -/
def rangeLoop (w : Nat) (q r t : Int) : (fuel : Nat) → (i b : Int) → Res (List (Int × Int))
  | fuel, i, b =>
    if i < t then
      match fuel with
      | 0 => .ub
      | fuel + 1 => do
        let e ← add w b q
        let e ← oneMore w i r e
        let i ← add w i 1
        let l ← rangeLoop w q r t fuel i e
        return (b, e) :: l
    else .ok []

/-- The ranges of the threads (parallel.hpp:60-74).  A negative number becomes as `size_t` a size no array can have: `new` throws
(`std::bad_array_new_length`, array.hpp:47-48). -/
def ranges (w : Nat) (n threadNum : Int) : Res (List (Int × Int)) :=
  if n = 0 then .ok []
  else if threadNum = 0 then .throw
  else
    let t := if threadNum > n then n else threadNum
    if t < 0 then .throw
    else rangeLoop w (Int.tdiv n t) (Int.tmod n t) t t.toNat 0 0

/-- The loop of a thread whose calls all return `true` (parallel.hpp:41-43): the arguments of the calls, from `i` on; at most `fuel` rounds. -/
def threadLoop (w : Nat) (e : Int) : (fuel : Nat) → (i : Int) → Res (List Int)
  | fuel, i =>
    if i < e then
      match fuel with
      | 0 => .ub
      | fuel + 1 => do
        let j ← add w i 1
        let l ← threadLoop w e fuel j
        return i :: l
    else .ok []

/-- The arguments of the calls of several threads, thread by thread. -/
def threads (w : Nat) : List (Int × Int) → Res (List Int)
  | [] => .ok []
  | (b, e) :: rs => do
    let l ← threadLoop w e (e - b).toNat b
    let m ← threads w rs
    return l ++ m

/-- The arguments of all calls of `target` if all return `true` (parallel.hpp:58-86), thread by thread. -/
def calls (w : Nat) (n threadNum : Int) : Res (List Int) := ranges w n threadNum >>= threads w

end Verif.ParallelSigned
