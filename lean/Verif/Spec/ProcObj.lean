import Verif.Model.ProcObj
/-!
# Correct use of `Process` objects
-/
namespace Verif.Spec.ProcObj
open Verif.ProcObj

/-- `o` holds the handle `h`. -/
def Holds (w : World) (o h : Nat) : Prop := w.obj o = some (some h)

/-- Objects are used while they are alive, the system gives a handle that is not in use (a pid: of no process, and no other object still
has it), and no object that has a child is assigned to. -/
def Allowed (pf : Platform) (w : World) : Op → Prop
  | .new o => w.obj o = none
  | .run o r => w.obj o ≠ none ∧ ∀ h, r = some h →
      match pf with
      | .windows => w.opn h = true → Holds w o h
      | .posix => w.kid h = .gone ∧ ∀ p, Holds w p h → p = o
  | .copy o p => w.obj o = none ∧ w.obj p ≠ none
  | .assign o p => w.obj p ≠ none ∧ (o ≠ p → w.obj o = some none)
  | .del o => w.obj o ≠ none
  | .ask o => w.obj o ≠ none
  | .ends _ _ => True

/-- Every operation of a sequence is allowed when it comes. -/
def AllAllowed (pf : Platform) (dbg : Bool) : List Op → World → Prop
  | [], _ => True
  | op :: ops, w => Allowed pf w op ∧ ∀ w', step pf dbg op w = .ok w' → AllAllowed pf dbg ops w'

/-- The objects an operation names. -/
def names : Op → List Nat
  | .new o => [o]
  | .run o _ => [o]
  | .copy o p => [o, p]
  | .assign o p => [o, p]
  | .del o => [o]
  | .ask o => [o]
  | .ends _ _ => []

end Verif.Spec.ProcObj
