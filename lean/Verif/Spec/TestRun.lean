import Verif.Model.TestRun
/-!
# What a test run means

The meaning of a test function without counters: the list of the results of its checks, how it
ends, and the state it leaves.
-/
namespace Verif.TestRunSpec
open Verif.TestRun

/-- The results of the checks, the lines it prints, the exception that leaves the function (if any), the result and
the state of the user's program after it. -/
structure Trace (W α : Type) where
  checks : List Bool
  lines : List Line
  out : Except Exc α
  w : W

/-- Run a function just for its effects. -/
def trace {W α : Type} : Prog W α → W → Trace W α
  | .ret a, w => ⟨[], [], .ok a, w⟩
  | .thr e, w => ⟨[], [], .error e, w⟩
  | .set b k, w => let t := trace k w; { t with checks := b :: t.checks }
  | .print l k, w => let t := trace k w; { t with lines := l :: t.lines }
  | .get k, w => trace (k w) w
  | .put w k, _ => trace k w

/-- Does an exception leave? -/
def Trace.threw {W α : Type} (t : Trace W α) : Bool :=
  match t.out with
  | .ok _ => false
  | .error _ => true

/-- The traces of the tests, each started in the state the one before left. -/
def traces {W : Type} : List (Entry W) → W → List (Trace W Unit)
  | [], _ => []
  | e :: l, w => let t := trace e.2 w; t :: traces l t.w

/-- The state after all of them. -/
def lastW {W : Type} : List (Entry W) → W → W
  | [], w => w
  | e :: l, w => lastW l (trace e.2 w).w

/-- The trace of an optional function. -/
def traceOpt {W : Type} (f : Option (Prog W Unit)) (w : W) : Trace W Unit :=
  match f with
  | none => ⟨[], [], .ok (), w⟩
  | some p => trace p w

/-- What one test has to print: its name, its own lines, and a notice if an exception left it. -/
def report {W : Type} (name : String) (t : Trace W Unit) : List Line :=
  .module name :: t.lines ++
    match t.out with
    | .ok _ => []
    | .error e => [if e.isStd then .stopped name e.what else .stoppedUnknown name]

/-- All checks of a run without exceptions in `init` and `term`. -/
def allChecks {W : Type} (init term : Option (Prog W Unit)) (l : List (Entry W)) (w : W) :
    List Bool :=
  let i := traceOpt init w
  let ts := traces l i.w
  i.checks ++ ts.flatMap (·.checks) ++ (traceOpt term (lastW l i.w)).checks

/-- The number of tests left by an exception. -/
def numThrew {W : Type} (init : Option (Prog W Unit)) (l : List (Entry W)) (w : W) : Nat :=
  (traces l (traceOpt init w).w).countP (·.threw)

end Verif.TestRunSpec
