import Verif.Spec.Event

/-!
# Specification of a counting semaphore

`Spec/Event` has the auto-reset event; here the signals are counted.
-/
namespace Verif.Spec.EventPipe

open Verif.Spec.Event

/-- The counter after the events, `none` if some `consume` found it at 0. -/
def count : Nat → List Ev → Option Nat
  | n, [] => some n
  | n, .signal :: l => count (n + 1) l
  | 0, .consume :: _ => none
  | n + 1, .consume :: l => count n l

end Verif.Spec.EventPipe
