import Verif.Spec.Array
/-!
# Vectors with a capacity, and calls that fail as a whole

A vector has contents and a capacity.  A call that needs more room than the capacity asks for memory once; if there is none, the call
throws and every vector is as it was.  What a call does when it does not throw is in `Verif/Spec/Array.lean`.
-/
namespace Verif.Spec.ArrayFail
open Verif.Array (Op)
open Verif.Spec.Array

variable {α : Type}

/-- Contents, capacities, and how often memory was asked for. -/
structure State (α : Type) where
  vecs : Vecs α
  cap : Nat → Nat
  asked : Nat

/-- The number of elements of vector `k`. -/
def len (s : Vecs α) (k : Nat) : Nat := ((s k).getD []).length

/-- A call needs more room than there is. -/
def needs (s : State α) : Op α → Bool
  | .make _ n _ => decide (0 < n)
  | .makeCopy _ j => decide (0 < len s.vecs j)
  | .assign k j => decide (s.cap k < len s.vecs j)
  | .resize k n _ => decide (s.cap k < n)
  | _ => false

/-- Change of one capacity. -/
def setCap (f : Nat → Nat) (k n : Nat) : Nat → Nat := fun i => if i = k then n else f i

/-- The capacities after a call that did not throw: they never shrink, moving and swapping take them along. -/
def caps (s : State α) : Op α → Nat → Nat
  | .make k n _ => setCap s.cap k n
  | .makeCopy k j => setCap s.cap k (len s.vecs j)
  | .makeMove k j => setCap (setCap s.cap k (s.cap j)) j 0
  | .assign k j => setCap s.cap k (max (s.cap k) (len s.vecs j))
  | .moveAssign k j => setCap (setCap s.cap k (s.cap j)) j (s.cap k)
  | .swap k j => setCap (setCap s.cap k (s.cap j)) j (s.cap k)
  | .resize k n _ => setCap s.cap k (max (s.cap k) n)
  | _ => s.cap

/-- One call: whether it threw, and the vectors.  `avail c`: the `c`-th request for memory is granted. -/
def step (zero : α) (limit : Nat) (avail : Nat → Bool) (s : State α) (op : Op α) : Option (Bool × State α) :=
  match Array.step zero limit s.vecs op with
  | none => none
  | some v =>
    if needs s op then
      if avail s.asked then some (false, ⟨v, caps s op, s.asked + 1⟩) else some (true, { s with asked := s.asked + 1 })
    else some (false, ⟨v, caps s op, s.asked⟩)

/-- A history: which calls threw, and the vectors. -/
def run (zero : α) (limit : Nat) (avail : Nat → Bool) : List (Op α) → State α → Option (List Bool × State α)
  | [], s => some ([], s)
  | op :: ops, s =>
    match step zero limit avail s op with
    | none => none
    | some (t, s) => (run zero limit avail ops s).map fun r => (t :: r.1, r.2)

end Verif.Spec.ArrayFail
