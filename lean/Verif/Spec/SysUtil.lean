/-!
# Specification: what clocks, naps and thread local variables mean
-/
namespace Verif.Spec.SysUtil

/-- Total length of time intervals. -/
def total : List (Nat × Nat) → Nat
  | [] => 0
  | p :: l => (p.2 - p.1) + total l

/-- Nanoseconds of a pair of seconds and nanoseconds. -/
def nanos (sec nsec : Int) : Int := sec * 1000000000 + nsec

/-- One nap: it was asked for, it took this long, and this is reported to be left (nothing if it came to its end). The system never
reports less than what is missing. -/
structure Nap where
  asked : Int
  took : Int
  left : Int
  fair : asked ≤ took + left

/-- The time all naps took. -/
def slept : List Nap → Int
  | [] => 0
  | n :: l => n.took + slept l

/-- A thread local variable: null in every thread, until a thread sets its own. -/
structure Var where
  usable : Bool
  val : Nat → Nat

/-- Events in the life of variables. -/
inductive Ev where
  | new (o : Nat) (usable : Bool)
  | put (o t v : Nat)
  | del (o : Nat)

/-- The variables of a program. -/
def step (s : Nat → Option Var) : Ev → Nat → Option Var
  | .new o u => fun i => if i = o ∧ s o = none then some ⟨u, fun _ => 0⟩ else s i
  | .put o t v => fun i => if i = o then (s o).map (fun x => if x.usable then ⟨x.usable, fun u => if u = t then v else x.val u⟩ else x)
      else s i
  | .del o => fun i => if i = o then none else s i

def run (l : List Ev) : Nat → Option Var := l.foldl step (fun _ => none)

end Verif.Spec.SysUtil
