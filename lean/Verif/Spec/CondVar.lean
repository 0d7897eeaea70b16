import Verif.Model.CondVar

/-! What the threads of the model are doing, as a user sees it. -/
namespace Verif.Spec.CondVar

open Verif.CondVar

/-- Threads that hold the mutex: outside the class after `lock`, at the beginning of `wait`, and in a notification made with the mutex. -/
def holds : PC → Bool
  | .own => true
  | .w1 => true
  | .w2 => true
  | .n1 b => b
  | .n2 b _ => b
  | .a1 b => b
  | .a2 b => b
  | .a3 b => b
  | _ => false
/-- Threads that have begun to wait and have not been woken completely. -/
def waiting : PC → Bool
  | .w2 => true
  | .w3 => true
  | .w4 => true
  | _ => false
/-- Threads that were woken and are on the way out of `wait`. -/
def leaving : PC → Bool
  | .w5 _ => true
  | .w6 => true
  | _ => false

/-- How many steps the threads in `wait` can make before all of them ask for the mutex: three for a thread that waits for the
semaphore, two for one that got it, one for one that has been counted out. -/
def stepsLeft : PC → Nat
  | .w3 => 3
  | .w4 => 2
  | .w5 _ => 1
  | _ => 0

/-- The same for all threads. -/
def allStepsLeft (s : St) : Nat := (s.pcs.map stepsLeft).sum

/-- How many of the steps `l` from `s` on are steps of threads inside `wait` that still have to be woken. -/
def waiterSteps (free : Bool) : St → List (Nat × Act) → Nat
  | _, [] => 0
  | s, (i, a) :: l =>
    match step free s i a with
    | some s' => (if (s.pcs[i]?.map stepsLeft).getD 0 = 0 then 0 else 1) + waiterSteps free s' l
    | none => 0

end Verif.Spec.CondVar
