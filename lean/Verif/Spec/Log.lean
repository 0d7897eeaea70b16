import Verif.Model.Log
/-!
# What a program may do with the logger
-/
namespace Verif.LogSpec
open Verif.Log

/-- What the C library promises (a new file is not one of the open ones, nor `stdout` or
`stderr`) and what the program has to keep to: it gives the logger only files that are open, and
does not close a file while the logger writes to it. -/
def Valid (l : Logger) (w : World) : Op → Prop
  | .openFile (some h) _ => h ∉ w.user ∧ h ∉ w.mine ∧ h ≠ stdOut ∧ h ≠ stdErr
  | .set (some h) _ => h ∈ w.user ∨ h = stdOut ∨ h = stdErr
  | .userOpen h => h ∉ w.user ∧ h ∉ w.mine ∧ h ≠ stdOut ∧ h ≠ stdErr
  | .userClose h => h ∈ w.user ∧ l.fp ≠ some h
  | _ => True

/-- Every action is valid in the state in which it is taken. -/
def ValidAll : List Op → Logger → World → Prop
  | [], _, _ => True
  | o :: os, l, w => Valid l w o ∧ ∀ d, step l w o = .ok d → ValidAll os d.l d.w

/-- The files of the program after its own openings and closings. -/
def userFiles : List Op → List Handle → List Handle
  | [], u => u
  | .userOpen h :: os, u => userFiles os (h :: u)
  | .userClose h :: os, u => userFiles os (u.erase h)
  | _ :: os, u => userFiles os u

/-- No call of `fclose` reports an error. -/
def Good : Op → Prop
  | .openFile _ g => g = true
  | .set _ g => g = true
  | .closeFile g => g = true
  | _ => True

/-- A program starts with no files of the logger. -/
def World.start (user : List Handle) : World := ⟨user, [], []⟩

end Verif.LogSpec
