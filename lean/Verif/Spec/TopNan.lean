import Verif.Spec.TopScore

/-!
# The entries whose score is a number
-/
namespace Verif.Spec.TopNan

variable {α T : Type}

/-- An entry whose score is a number. -/
def real (e : Option α × T) : Option (α × T) := e.1.map fun a => (a, e.2)

/-- The entries whose score is a number, in their order. -/
def reals (l : List (Option α × T)) : List (α × T) := l.filterMap real

/-- How many scores are NaN. -/
def nans (l : List (Option α × T)) : Nat := l.countP fun e => e.1.isNone

end Verif.Spec.TopNan
