/-!
# Specification of an auto-reset event

A flag: `signal` sets it (again), `consume` needs it set and clears it.
-/
namespace Verif.Spec.Event

inductive Ev where
  | signal
  | consume
  deriving DecidableEq, Repr

/-- The flag after the events, `none` if some `consume` found it cleared. -/
def flag : Bool → List Ev → Option Bool
  | b, [] => some b
  | _, .signal :: l => flag true l
  | b, .consume :: l => if b then flag false l else none

end Verif.Spec.Event
