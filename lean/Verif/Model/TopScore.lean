import Verif.Model.Common
import Mathlib.Order.Defs.LinearOrder

/-!
# Model of `TopScore` in `include/cybozu/nlp/top_score.hpp`

Scores are taken from a linear order (so NaN is excluded).
-/
namespace Verif.TopScore

variable {α T : Type}

/-- `maxSize_, size_, tbl_` (top_score.hpp:23-25); a `Pair` is (score, idx). -/
structure Top (α T : Type) where
  maxSize : Nat
  size : Nat
  tbl : List (α × T)
deriving DecidableEq

/-- The constructor (top_score.hpp:29-34); `d` is the value of a new entry. -/
def make (d : α × T) (maxSize : Nat) : Top α T := ⟨maxSize, 0, List.replicate maxSize d⟩

/-- `setSize` (top_score.hpp:35-40). -/
def setSize (_t : Top α T) (maxSize : Nat) : Top α T := ⟨maxSize, 0, []⟩

/-- `tbl_[i] = x`. -/
def put (tbl : List (α × T)) (i : Int) (x : α × T) : Res (List (α × T)) :=
  if 0 ≤ i ∧ i < tbl.length then .ok (tbl.set i.toNat x) else .ub

/-- `(int)n`. -/
def castInt (n : Nat) : Int := Int.bmod n (2 ^ 32)

/-- `for (int j = end; j >= i; j--) tbl_[j + 1] = tbl_[j];` (top_score.hpp:52-54); the argument is the
number of rounds left, so `j` is `i + c` in the round with `c + 1` left. -/
def shift (i : Nat) : Nat → List (α × T) → Res (List (α × T))
  | 0, tbl => .ok tbl
  | c + 1, tbl => do
    let x ← at? tbl (i + c)
    let tbl ← put tbl (i + c + 1 : Nat) x
    shift i c tbl

/-- `end` (top_score.hpp:51): `maxSize_ - 2` is computed in 64 bits. -/
def endOf (maxSize size : Nat) : Int := castInt (min ((maxSize + 2 ^ 64 - 2) % 2 ^ 64) (size - 1))

/-- top_score.hpp:60-66. -/
def finish (t : Top α T) (score : α) (idx : T) (tbl : List (α × T)) (pos : Int) : Res (Top α T) :=
  let pos' := if t.size < t.maxSize ∧ pos < 0 then castInt t.size else pos
  let size' := if t.size < t.maxSize then t.size + 1 else t.size
  if pos' = -1 then .ok ⟨t.maxSize, size', tbl⟩
  else do
    let tbl ← put tbl pos' (score, idx)
    return ⟨t.maxSize, size', tbl⟩

/-- `getTable` (top_score.hpp:68-72): `resize` shortens the table (new entries would be `d`). -/
def getTable (d : α × T) (t : Top α T) : Top α T × List (α × T) :=
  let tbl := t.tbl.take t.size ++ List.replicate (t.size - t.tbl.length) d
  ({ t with tbl := tbl }, tbl)

variable [LinearOrder α]

/-- The search for the first entry with a lower score (top_score.hpp:49-50, 56); `cnt` entries left. -/
def find (score : α) (tbl : List (α × T)) : Nat → Nat → Res (Option Nat)
  | 0, _ => .ok none
  | cnt + 1, i => do
    let e ← at? tbl i
    if score > e.1 then return some i else find score tbl cnt (i + 1)

/-- The loop of top_score.hpp:47-59: the table and `pos`. -/
def place (t : Top α T) (score : α) : Res (List (α × T) × Int) := do
  let f ← find score t.tbl t.size 0
  match f with
  | none => return (t.tbl, -1)
  | some i =>
    let tbl ← shift i (endOf t.maxSize t.size + 1 - i).toNat t.tbl
    return (tbl, castInt i)

/-- The test of the short cut (top_score.hpp:44). -/
def shortcut (t : Top α T) (score : α) : Res Bool :=
  if t.size = t.maxSize then do
    if t.size = 0 then .ub
    else
      let e ← at? t.tbl (t.size - 1)
      return decide (score ≤ e.1)
  else .ok false

/-- `add` (top_score.hpp:41-67). -/
def add (t : Top α T) (score : α) (idx : T) : Res (Top α T) := do
  let s ← shortcut t score
  if s then return t
  else
    let (tbl, pos) ← place t score
    finish t score idx tbl pos

/-- Several calls of `add`. -/
def addAll (t : Top α T) : List (α × T) → Res (Top α T)
  | [] => .ok t
  | e :: es => do
    let t ← add t e.1 e.2
    addAll t es

end Verif.TopScore
