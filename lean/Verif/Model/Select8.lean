import Verif.Model.Common

/-!
# Table of `include/cybozu/select8.hpp`
-/
namespace Verif.SucVector

/-- `tbl` of `select8` (select8.hpp:18-275), transcribed row by row. -/
def select8Tbl : List (List Nat) := [
  [0, 64, 64, 64, 64, 64, 64, 64],
  [64, 0, 64, 64, 64, 64, 64, 64],
  [0, 1, 64, 64, 64, 64, 64, 64],
  [64, 0, 1, 64, 64, 64, 64, 64],
  [0, 2, 64, 64, 64, 64, 64, 64],
  [64, 0, 2, 64, 64, 64, 64, 64],
  [0, 1, 2, 64, 64, 64, 64, 64],
  [64, 0, 1, 2, 64, 64, 64, 64],
  [0, 3, 64, 64, 64, 64, 64, 64],
  [64, 0, 3, 64, 64, 64, 64, 64],
  [0, 1, 3, 64, 64, 64, 64, 64],
  [64, 0, 1, 3, 64, 64, 64, 64],
  [0, 2, 3, 64, 64, 64, 64, 64],
  [64, 0, 2, 3, 64, 64, 64, 64],
  [0, 1, 2, 3, 64, 64, 64, 64],
  [64, 0, 1, 2, 3, 64, 64, 64],
  [0, 4, 64, 64, 64, 64, 64, 64],
  [64, 0, 4, 64, 64, 64, 64, 64],
  [0, 1, 4, 64, 64, 64, 64, 64],
  [64, 0, 1, 4, 64, 64, 64, 64],
  [0, 2, 4, 64, 64, 64, 64, 64],
  [64, 0, 2, 4, 64, 64, 64, 64],
  [0, 1, 2, 4, 64, 64, 64, 64],
  [64, 0, 1, 2, 4, 64, 64, 64],
  [0, 3, 4, 64, 64, 64, 64, 64],
  [64, 0, 3, 4, 64, 64, 64, 64],
  [0, 1, 3, 4, 64, 64, 64, 64],
  [64, 0, 1, 3, 4, 64, 64, 64],
  [0, 2, 3, 4, 64, 64, 64, 64],
  [64, 0, 2, 3, 4, 64, 64, 64],
  [0, 1, 2, 3, 4, 64, 64, 64],
  [64, 0, 1, 2, 3, 4, 64, 64],
  [0, 5, 64, 64, 64, 64, 64, 64],
  [64, 0, 5, 64, 64, 64, 64, 64],
  [0, 1, 5, 64, 64, 64, 64, 64],
  [64, 0, 1, 5, 64, 64, 64, 64],
  [0, 2, 5, 64, 64, 64, 64, 64],
  [64, 0, 2, 5, 64, 64, 64, 64],
  [0, 1, 2, 5, 64, 64, 64, 64],
  [64, 0, 1, 2, 5, 64, 64, 64],
  [0, 3, 5, 64, 64, 64, 64, 64],
  [64, 0, 3, 5, 64, 64, 64, 64],
  [0, 1, 3, 5, 64, 64, 64, 64],
  [64, 0, 1, 3, 5, 64, 64, 64],
  [0, 2, 3, 5, 64, 64, 64, 64],
  [64, 0, 2, 3, 5, 64, 64, 64],
  [0, 1, 2, 3, 5, 64, 64, 64],
  [64, 0, 1, 2, 3, 5, 64, 64],
  [0, 4, 5, 64, 64, 64, 64, 64],
  [64, 0, 4, 5, 64, 64, 64, 64],
  [0, 1, 4, 5, 64, 64, 64, 64],
  [64, 0, 1, 4, 5, 64, 64, 64],
  [0, 2, 4, 5, 64, 64, 64, 64],
  [64, 0, 2, 4, 5, 64, 64, 64],
  [0, 1, 2, 4, 5, 64, 64, 64],
  [64, 0, 1, 2, 4, 5, 64, 64],
  [0, 3, 4, 5, 64, 64, 64, 64],
  [64, 0, 3, 4, 5, 64, 64, 64],
  [0, 1, 3, 4, 5, 64, 64, 64],
  [64, 0, 1, 3, 4, 5, 64, 64],
  [0, 2, 3, 4, 5, 64, 64, 64],
  [64, 0, 2, 3, 4, 5, 64, 64],
  [0, 1, 2, 3, 4, 5, 64, 64],
  [64, 0, 1, 2, 3, 4, 5, 64],
  [0, 6, 64, 64, 64, 64, 64, 64],
  [64, 0, 6, 64, 64, 64, 64, 64],
  [0, 1, 6, 64, 64, 64, 64, 64],
  [64, 0, 1, 6, 64, 64, 64, 64],
  [0, 2, 6, 64, 64, 64, 64, 64],
  [64, 0, 2, 6, 64, 64, 64, 64],
  [0, 1, 2, 6, 64, 64, 64, 64],
  [64, 0, 1, 2, 6, 64, 64, 64],
  [0, 3, 6, 64, 64, 64, 64, 64],
  [64, 0, 3, 6, 64, 64, 64, 64],
  [0, 1, 3, 6, 64, 64, 64, 64],
  [64, 0, 1, 3, 6, 64, 64, 64],
  [0, 2, 3, 6, 64, 64, 64, 64],
  [64, 0, 2, 3, 6, 64, 64, 64],
  [0, 1, 2, 3, 6, 64, 64, 64],
  [64, 0, 1, 2, 3, 6, 64, 64],
  [0, 4, 6, 64, 64, 64, 64, 64],
  [64, 0, 4, 6, 64, 64, 64, 64],
  [0, 1, 4, 6, 64, 64, 64, 64],
  [64, 0, 1, 4, 6, 64, 64, 64],
  [0, 2, 4, 6, 64, 64, 64, 64],
  [64, 0, 2, 4, 6, 64, 64, 64],
  [0, 1, 2, 4, 6, 64, 64, 64],
  [64, 0, 1, 2, 4, 6, 64, 64],
  [0, 3, 4, 6, 64, 64, 64, 64],
  [64, 0, 3, 4, 6, 64, 64, 64],
  [0, 1, 3, 4, 6, 64, 64, 64],
  [64, 0, 1, 3, 4, 6, 64, 64],
  [0, 2, 3, 4, 6, 64, 64, 64],
  [64, 0, 2, 3, 4, 6, 64, 64],
  [0, 1, 2, 3, 4, 6, 64, 64],
  [64, 0, 1, 2, 3, 4, 6, 64],
  [0, 5, 6, 64, 64, 64, 64, 64],
  [64, 0, 5, 6, 64, 64, 64, 64],
  [0, 1, 5, 6, 64, 64, 64, 64],
  [64, 0, 1, 5, 6, 64, 64, 64],
  [0, 2, 5, 6, 64, 64, 64, 64],
  [64, 0, 2, 5, 6, 64, 64, 64],
  [0, 1, 2, 5, 6, 64, 64, 64],
  [64, 0, 1, 2, 5, 6, 64, 64],
  [0, 3, 5, 6, 64, 64, 64, 64],
  [64, 0, 3, 5, 6, 64, 64, 64],
  [0, 1, 3, 5, 6, 64, 64, 64],
  [64, 0, 1, 3, 5, 6, 64, 64],
  [0, 2, 3, 5, 6, 64, 64, 64],
  [64, 0, 2, 3, 5, 6, 64, 64],
  [0, 1, 2, 3, 5, 6, 64, 64],
  [64, 0, 1, 2, 3, 5, 6, 64],
  [0, 4, 5, 6, 64, 64, 64, 64],
  [64, 0, 4, 5, 6, 64, 64, 64],
  [0, 1, 4, 5, 6, 64, 64, 64],
  [64, 0, 1, 4, 5, 6, 64, 64],
  [0, 2, 4, 5, 6, 64, 64, 64],
  [64, 0, 2, 4, 5, 6, 64, 64],
  [0, 1, 2, 4, 5, 6, 64, 64],
  [64, 0, 1, 2, 4, 5, 6, 64],
  [0, 3, 4, 5, 6, 64, 64, 64],
  [64, 0, 3, 4, 5, 6, 64, 64],
  [0, 1, 3, 4, 5, 6, 64, 64],
  [64, 0, 1, 3, 4, 5, 6, 64],
  [0, 2, 3, 4, 5, 6, 64, 64],
  [64, 0, 2, 3, 4, 5, 6, 64],
  [0, 1, 2, 3, 4, 5, 6, 64],
  [64, 0, 1, 2, 3, 4, 5, 6],
  [0, 7, 64, 64, 64, 64, 64, 64],
  [64, 0, 7, 64, 64, 64, 64, 64],
  [0, 1, 7, 64, 64, 64, 64, 64],
  [64, 0, 1, 7, 64, 64, 64, 64],
  [0, 2, 7, 64, 64, 64, 64, 64],
  [64, 0, 2, 7, 64, 64, 64, 64],
  [0, 1, 2, 7, 64, 64, 64, 64],
  [64, 0, 1, 2, 7, 64, 64, 64],
  [0, 3, 7, 64, 64, 64, 64, 64],
  [64, 0, 3, 7, 64, 64, 64, 64],
  [0, 1, 3, 7, 64, 64, 64, 64],
  [64, 0, 1, 3, 7, 64, 64, 64],
  [0, 2, 3, 7, 64, 64, 64, 64],
  [64, 0, 2, 3, 7, 64, 64, 64],
  [0, 1, 2, 3, 7, 64, 64, 64],
  [64, 0, 1, 2, 3, 7, 64, 64],
  [0, 4, 7, 64, 64, 64, 64, 64],
  [64, 0, 4, 7, 64, 64, 64, 64],
  [0, 1, 4, 7, 64, 64, 64, 64],
  [64, 0, 1, 4, 7, 64, 64, 64],
  [0, 2, 4, 7, 64, 64, 64, 64],
  [64, 0, 2, 4, 7, 64, 64, 64],
  [0, 1, 2, 4, 7, 64, 64, 64],
  [64, 0, 1, 2, 4, 7, 64, 64],
  [0, 3, 4, 7, 64, 64, 64, 64],
  [64, 0, 3, 4, 7, 64, 64, 64],
  [0, 1, 3, 4, 7, 64, 64, 64],
  [64, 0, 1, 3, 4, 7, 64, 64],
  [0, 2, 3, 4, 7, 64, 64, 64],
  [64, 0, 2, 3, 4, 7, 64, 64],
  [0, 1, 2, 3, 4, 7, 64, 64],
  [64, 0, 1, 2, 3, 4, 7, 64],
  [0, 5, 7, 64, 64, 64, 64, 64],
  [64, 0, 5, 7, 64, 64, 64, 64],
  [0, 1, 5, 7, 64, 64, 64, 64],
  [64, 0, 1, 5, 7, 64, 64, 64],
  [0, 2, 5, 7, 64, 64, 64, 64],
  [64, 0, 2, 5, 7, 64, 64, 64],
  [0, 1, 2, 5, 7, 64, 64, 64],
  [64, 0, 1, 2, 5, 7, 64, 64],
  [0, 3, 5, 7, 64, 64, 64, 64],
  [64, 0, 3, 5, 7, 64, 64, 64],
  [0, 1, 3, 5, 7, 64, 64, 64],
  [64, 0, 1, 3, 5, 7, 64, 64],
  [0, 2, 3, 5, 7, 64, 64, 64],
  [64, 0, 2, 3, 5, 7, 64, 64],
  [0, 1, 2, 3, 5, 7, 64, 64],
  [64, 0, 1, 2, 3, 5, 7, 64],
  [0, 4, 5, 7, 64, 64, 64, 64],
  [64, 0, 4, 5, 7, 64, 64, 64],
  [0, 1, 4, 5, 7, 64, 64, 64],
  [64, 0, 1, 4, 5, 7, 64, 64],
  [0, 2, 4, 5, 7, 64, 64, 64],
  [64, 0, 2, 4, 5, 7, 64, 64],
  [0, 1, 2, 4, 5, 7, 64, 64],
  [64, 0, 1, 2, 4, 5, 7, 64],
  [0, 3, 4, 5, 7, 64, 64, 64],
  [64, 0, 3, 4, 5, 7, 64, 64],
  [0, 1, 3, 4, 5, 7, 64, 64],
  [64, 0, 1, 3, 4, 5, 7, 64],
  [0, 2, 3, 4, 5, 7, 64, 64],
  [64, 0, 2, 3, 4, 5, 7, 64],
  [0, 1, 2, 3, 4, 5, 7, 64],
  [64, 0, 1, 2, 3, 4, 5, 7],
  [0, 6, 7, 64, 64, 64, 64, 64],
  [64, 0, 6, 7, 64, 64, 64, 64],
  [0, 1, 6, 7, 64, 64, 64, 64],
  [64, 0, 1, 6, 7, 64, 64, 64],
  [0, 2, 6, 7, 64, 64, 64, 64],
  [64, 0, 2, 6, 7, 64, 64, 64],
  [0, 1, 2, 6, 7, 64, 64, 64],
  [64, 0, 1, 2, 6, 7, 64, 64],
  [0, 3, 6, 7, 64, 64, 64, 64],
  [64, 0, 3, 6, 7, 64, 64, 64],
  [0, 1, 3, 6, 7, 64, 64, 64],
  [64, 0, 1, 3, 6, 7, 64, 64],
  [0, 2, 3, 6, 7, 64, 64, 64],
  [64, 0, 2, 3, 6, 7, 64, 64],
  [0, 1, 2, 3, 6, 7, 64, 64],
  [64, 0, 1, 2, 3, 6, 7, 64],
  [0, 4, 6, 7, 64, 64, 64, 64],
  [64, 0, 4, 6, 7, 64, 64, 64],
  [0, 1, 4, 6, 7, 64, 64, 64],
  [64, 0, 1, 4, 6, 7, 64, 64],
  [0, 2, 4, 6, 7, 64, 64, 64],
  [64, 0, 2, 4, 6, 7, 64, 64],
  [0, 1, 2, 4, 6, 7, 64, 64],
  [64, 0, 1, 2, 4, 6, 7, 64],
  [0, 3, 4, 6, 7, 64, 64, 64],
  [64, 0, 3, 4, 6, 7, 64, 64],
  [0, 1, 3, 4, 6, 7, 64, 64],
  [64, 0, 1, 3, 4, 6, 7, 64],
  [0, 2, 3, 4, 6, 7, 64, 64],
  [64, 0, 2, 3, 4, 6, 7, 64],
  [0, 1, 2, 3, 4, 6, 7, 64],
  [64, 0, 1, 2, 3, 4, 6, 7],
  [0, 5, 6, 7, 64, 64, 64, 64],
  [64, 0, 5, 6, 7, 64, 64, 64],
  [0, 1, 5, 6, 7, 64, 64, 64],
  [64, 0, 1, 5, 6, 7, 64, 64],
  [0, 2, 5, 6, 7, 64, 64, 64],
  [64, 0, 2, 5, 6, 7, 64, 64],
  [0, 1, 2, 5, 6, 7, 64, 64],
  [64, 0, 1, 2, 5, 6, 7, 64],
  [0, 3, 5, 6, 7, 64, 64, 64],
  [64, 0, 3, 5, 6, 7, 64, 64],
  [0, 1, 3, 5, 6, 7, 64, 64],
  [64, 0, 1, 3, 5, 6, 7, 64],
  [0, 2, 3, 5, 6, 7, 64, 64],
  [64, 0, 2, 3, 5, 6, 7, 64],
  [0, 1, 2, 3, 5, 6, 7, 64],
  [64, 0, 1, 2, 3, 5, 6, 7],
  [0, 4, 5, 6, 7, 64, 64, 64],
  [64, 0, 4, 5, 6, 7, 64, 64],
  [0, 1, 4, 5, 6, 7, 64, 64],
  [64, 0, 1, 4, 5, 6, 7, 64],
  [0, 2, 4, 5, 6, 7, 64, 64],
  [64, 0, 2, 4, 5, 6, 7, 64],
  [0, 1, 2, 4, 5, 6, 7, 64],
  [64, 0, 1, 2, 4, 5, 6, 7],
  [0, 3, 4, 5, 6, 7, 64, 64],
  [64, 0, 3, 4, 5, 6, 7, 64],
  [0, 1, 3, 4, 5, 6, 7, 64],
  [64, 0, 1, 3, 4, 5, 6, 7],
  [0, 2, 3, 4, 5, 6, 7, 64],
  [64, 0, 2, 3, 4, 5, 6, 7],
  [0, 1, 2, 3, 4, 5, 6, 7],
  [64, 0, 1, 2, 3, 4, 5, 6]]

/-- `select8` (select8.hpp:14-277); the assertions and the array bounds are the same condition. -/
def select8 (v x : Nat) : Res Nat := do
  let row ← at? select8Tbl v
  at? row x

end Verif.SucVector
