import Verif.Model.Monitor

/-!
# What the threads are asked to do

Of the model only the operations are used.
-/
namespace Verif.Spec.Monitor

open Verif.Monitor (Op)

/-- The items that a program puts, in order. -/
def puts : List Op → List Nat
  | [] => []
  | .put x _ _ :: r => x :: puts r
  | .take :: r => puts r

/-- How many items it takes. -/
def takes : List Op → Nat
  | [] => 0
  | .put _ _ _ :: r => takes r
  | .take :: r => takes r + 1

/-- A producer only puts, a consumer only takes. -/
def OneRole (p : List Op) : Prop := puts p = [] ∨ takes p = 0

instance (p : List Op) : Decidable (OneRole p) := inferInstanceAs (Decidable (_ ∨ _))

/-- All puts and all takes of a list of programs. -/
def totalPuts (progs : List (List Op)) : Nat := (progs.map (fun p => (puts p).length)).sum
def totalTakes (progs : List (List Op)) : Nat := (progs.map takes).sum

end Verif.Spec.Monitor
