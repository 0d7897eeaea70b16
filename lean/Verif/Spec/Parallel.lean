import Verif.Model.Parallel
/-!
# What a user of `parallel_for` sees

Projections of the trace of calls.
-/
namespace Verif.Spec.Parallel
open Verif.Parallel

/-- The calls `(threadIdx, i)` in the order they began. -/
def calls (l : List Ev) : List (Nat × Nat) :=
  l.filterMap (fun | .enter k i => some (k, i) | .leave _ _ _ => none)

/-- The calls `(threadIdx, i)` in the order they ended. -/
def ends (l : List Ev) : List (Nat × Nat) :=
  l.filterMap (fun | .enter _ _ => none | .leave k i _ => some (k, i))

/-- The indices thread `k` was called with, in order. -/
def callsOf (k : Nat) (l : List Ev) : List Nat := ((calls l).filter (fun c => c.1 == k)).map Prod.snd

/-- Every call that ended returned `true`. -/
def AllTrue (l : List Ev) : Prop := ∀ k i out, Ev.leave k i out ∈ l → out = .yes

end Verif.Spec.Parallel
