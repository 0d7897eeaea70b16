import Verif.Model.Array
/-!
# Plain vectors

The contents of a vector are a list; an element is `none` while its value is not determined (a new
element for which no clearing was requested).  Only the names of the calls (`Op`) are taken from the
model.
-/
namespace Verif.Spec.Array

open Verif.Array (Op)

variable {α : Type}

/-- The vectors that exist. -/
abbrev Vecs (α : Type) := Nat → Option (List (Option α))

/-- Change of one vector. -/
def upd (s : Vecs α) (k : Nat) (v : Option (List (Option α))) : Vecs α := fun i => if i = k then v else s i

/-- A vector brought to another length. -/
def resized (zero : α) (l : List (Option α)) (n : Nat) (doClear : Bool) : List (Option α) :=
  l.take n ++ List.replicate (n - l.length) (if doClear then some zero else none)

/-- What a call does to plain vectors; a call that is no valid use (the object does not exist, is made
twice, or an index is not below the size) has no result.  `limit` is the largest number of elements
that can be allocated. -/
def step (zero : α) (limit : Nat) (s : Vecs α) : Op α → Option (Vecs α)
  | .make k n b =>
    match s k with
    | none => if n ≤ limit then some (upd s k (some (resized zero [] n b))) else none
    | some _ => none
  | .makeCopy k j =>
    match s k, s j with
    | none, some l => some (upd s k (some l))
    | _, _ => none
  | .makeMove k j =>
    match s k, s j with
    | none, some l => some (upd (upd s k (some l)) j (some []))
    | _, _ => none
  | .assign k j =>
    match s k, s j with
    | some _, some l => some (upd s k (some l))
    | _, _ => none
  | .moveAssign k j =>
    match s k, s j with
    | some _, some l => some (upd (upd s k (some l)) j (some []))
    | _, _ => none
  | .resize k n b =>
    match s k with
    | some l => if n ≤ limit then some (upd s k (some (resized zero l n b))) else none
    | none => none
  | .clear k =>
    match s k with
    | some _ => some (upd s k (some []))
    | none => none
  | .swap k j =>
    match s k, s j with
    | some m, some l => some (upd (upd s k (some l)) j (some m))
    | _, _ => none
  | .write k i x =>
    match s k with
    | some l => if i < l.length then some (upd s k (some (l.set i (some x)))) else none
    | none => none
  | .destroy k =>
    match s k with
    | some _ => some (upd s k none)
    | none => none

/-- A history. -/
def run (zero : α) (limit : Nat) : List (Op α) → Vecs α → Option (Vecs α)
  | [], s => some s
  | op :: ops, s => (step zero limit s op).bind (run zero limit ops)

end Verif.Spec.Array
