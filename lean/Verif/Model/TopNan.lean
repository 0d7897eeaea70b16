import Verif.Model.TopScore

/-!
# `TopScore` (`include/cybozu/nlp/top_score.hpp`) with scores that may be NaN

A score is a number (`some`) or NaN (`none`); a comparison with NaN is false.  The numbers are those of a linear order (0 and -0 are the
same).  What does not compare scores is taken from `Verif/Model/TopScore.lean`.
-/
namespace Verif.TopNan
open Verif.TopScore (Top put castInt shift endOf finish)

variable {α T : Type} [LinearOrder α]

/-- `a > b` for `Double` (top_score.hpp:50). -/
def gt : Option α → Option α → Bool
  | some a, some b => decide (b < a)
  | _, _ => false

/-- `a <= b` for `Double` (top_score.hpp:44). -/
def le : Option α → Option α → Bool
  | some a, some b => decide (a ≤ b)
  | _, _ => false

/-- The search for the first entry with a lower score (top_score.hpp:49-50, 56); `cnt` entries left. -/
def find (score : Option α) (tbl : List (Option α × T)) : Nat → Nat → Res (Option Nat)
  | 0, _ => .ok none
  | cnt + 1, i => do
    let e ← at? tbl i
    if gt score e.1 then return some i else find score tbl cnt (i + 1)

/-- The loop of top_score.hpp:47-59: the table and `pos`. -/
def place (t : Top (Option α) T) (score : Option α) : Res (List (Option α × T) × Int) := do
  let f ← find score t.tbl t.size 0
  match f with
  | none => return (t.tbl, -1)
  | some i =>
    let tbl ← shift i (endOf t.maxSize t.size + 1 - i).toNat t.tbl
    return (tbl, castInt i)

/-- The test of the short cut (top_score.hpp:44). -/
def shortcut (t : Top (Option α) T) (score : Option α) : Res Bool :=
  if t.size = t.maxSize then do
    if t.size = 0 then .ub
    else
      let e ← at? t.tbl (t.size - 1)
      return le score e.1
  else .ok false

/-- `add` (top_score.hpp:41-67). -/
def add (t : Top (Option α) T) (score : Option α) (idx : T) : Res (Top (Option α) T) := do
  let s ← shortcut t score
  if s then return t
  else
    let (tbl, pos) ← place t score
    finish t score idx tbl pos

/-- Several calls of `add`. -/
def addAll (t : Top (Option α) T) : List (Option α × T) → Res (Top (Option α) T)
  | [] => .ok t
  | e :: es => do
    let t ← add t e.1 e.2
    addAll t es

end Verif.TopNan
