import Verif.Model.AutoLock

/-!
# Rules for the use of scoped locks

The rules that a user follows: what is required of the text of a program.  They do not speak of its execution.
-/
namespace Verif.Spec.AutoLock
open Verif.AutoLock

/-- Variable `m` is only touched inside a block guarded by mutex `m`, and scoped locks are not copied.
`held`: the guards around the text. -/
def Disciplined : List Nat → Prog → Prop
  | _, .done => True
  | held, .update m _ k => m ∈ held ∧ Disciplined held k
  | held, .throwIf m _ k => m ∈ held ∧ Disciplined held k
  | held, .guarded m b k => Disciplined (m :: held) b ∧ Disciplined held k
  | held, .attempt b k => Disciplined held b ∧ Disciplined held k
  | _, .copied _ _ _ => False

/-- Guards are nested in increasing order of the mutexes; if mutexes may be locked again, a mutex that is already locked
is allowed as well. -/
def Ordered (rec : Bool) : List Nat → Prog → Prop
  | _, .done => True
  | held, .update _ _ k => Ordered rec held k
  | held, .throwIf _ _ k => Ordered rec held k
  | held, .guarded m b k =>
    ((∀ h ∈ held, h < m) ∨ (rec = true ∧ m ∈ held)) ∧ Ordered rec (m :: held) b ∧ Ordered rec held k
  | held, .attempt b k => Ordered rec held b ∧ Ordered rec held k
  | held, .copied _ b k => Ordered rec held b ∧ Ordered rec held k

/-- The mutexes of the guards that the thread is in. -/
def inside : Th → List Nat
  | .run _ st => frames st
  | .store _ _ _ _ st => frames st
  | .unwind st => frames st
where
  /-- the mutexes of the scoped locks on a stack -/
  frames : List Frame → List Nat
    | [] => []
    | .guard m _ :: st => m :: frames st
    | .tried _ :: st => frames st

/-- The program throws nothing. -/
def NoThrow : Prog → Prop
  | .done => True
  | .update _ _ k => NoThrow k
  | .throwIf _ _ _ => False
  | .guarded _ b k => NoThrow b ∧ NoThrow k
  | .attempt b k => NoThrow b ∧ NoThrow k
  | .copied _ b k => NoThrow b ∧ NoThrow k

/-- The updates of variable `m` in the program text. -/
def updates (m : Nat) : Prog → List (Int → Int)
  | .done => []
  | .update m' f k => if m' = m then f :: updates m k else updates m k
  | .throwIf _ _ k => updates m k
  | .guarded _ b k => updates m b ++ updates m k
  | .attempt b k => updates m b ++ updates m k
  | .copied _ b k => updates m b ++ updates m k

/-- Number of steps that the program can take at most. -/
def size : Prog → Nat
  | .done => 0
  | .update _ _ k => 2 + size k
  | .throwIf _ _ k => 1 + size k
  | .guarded _ b k => 2 + size b + size k
  | .attempt b k => 2 + size b + size k
  | .copied _ b k => 2 + size b + size k

end Verif.Spec.AutoLock
