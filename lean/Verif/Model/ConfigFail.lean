import Verif.Model.Config

/-!
# Model of `Config::load` for programs that catch its exceptions (`include/cybozu/config.hpp:336-369`)

C25 (`Model/Config`) ends with the first exception.  Here the object and the stream after it are kept.  All exceptions of a line (55, 61, 156, 160,
269, 360) are thrown before the line has changed the object: names are checked first, and an insertion that fails leaves the map as it was.
-/
namespace Verif.ConfigFail
open Verif.Config (Str Conf loadLine appendSection getlines)

/-- How `load` ended, with the object and, after an exception, the lines that are left in the stream. -/
inductive Kept where
  | ok (c : Conf)
  | threw (c : Conf) (rest : List Str)
  | ub
  deriving DecidableEq

/-- The loop of `load` (config.hpp:342-368). -/
def keepLines (c : Conf) (sec : Str) : List Str → Kept
  | [] => .ok c
  | line :: ls =>
    match loadLine c sec line with
    | .ok (c, sec) => keepLines c sec ls
    | .throw => .threw c ls
    | .ub => .ub

/-- `load(is)` (config.hpp:336-369) for a stream with these lines. -/
def loadKeep (c : Conf) (lines : List Str) : Kept :=
  match appendSection c [] with
  | .ok c => keepLines c [] lines
  | .throw => .threw c lines
  | .ub => .ub

/-- A program that goes on with the same stream after exceptions, at most `n` times: the object at last and how many exceptions there were. -/
def goOn : (n : Nat) → Conf → List Str → Option (Conf × Nat)
  | 0, _, _ => none
  | n + 1, c, lines =>
    match loadKeep c lines with
    | .ok c => some (c, 0)
    | .threw c rest => (goOn n c rest).map fun p => (p.1, p.2 + 1)
    | .ub => none

end Verif.ConfigFail
