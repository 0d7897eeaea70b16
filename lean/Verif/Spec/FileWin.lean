import Verif.Model.FileWin

/-!
# Specification for portable programs on files
-/
namespace Verif.FileWinSpec
open Verif.FileOps Verif.FileWin

/-- Somebody else (not `fd`) has the file open for appending. -/
def AppendedElsewhere (w : FS) (file fd : Nat) : Prop :=
  ∃ fd' d, fd' ≠ fd ∧ w.desc fd' = some d ∧ d.flags.append = true ∧ d.file = file

/-- A call that does not disturb an appender: no seeking on it, nobody else writes to its file or empties it. -/
def Gentle (w : FS) : Call → Prop
  | .open name fd m => m.out = true → m.app = false → ¬ AppendedElsewhere w name fd
  | .write fd _ => ∀ d, w.desc fd = some d → ¬ AppendedElsewhere w d.file fd
  | .seek fd _ _ => ∀ d, w.desc fd = some d → d.flags.append = false
  | _ => True

/-- A program of gentle calls, judged by what happens on POSIX. -/
def GentleAll (w : FS) : List Call → Prop
  | [] => True
  | c :: l => Gentle w c ∧ GentleAll (posixStep w c).2 l

/-- No file is open. -/
def Closed (w : FS) : Prop := ∀ fd, w.desc fd = none

end Verif.FileWinSpec
