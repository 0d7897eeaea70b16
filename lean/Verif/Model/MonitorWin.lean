import Verif.Model.Monitor
import Verif.Model.CondVar

/-!
# Model of a program that guards a queue with `Mutex` and `ConditionVariable` on Windows

The calls are those of `Verif.Model.CondVar` (condition_variable.hpp:37-98, mutex.hpp:122-135); here the threads do not call them in any
order but follow the programs of `Verif.Model.Monitor`: `put` locks, appends, notifies and unlocks, `take` locks, waits while the queue
is empty, removes the first item and unlocks.  A late notification is `notifyOne` after unlocking (`all` is then ignored, since
`notifyAll` without the mutex can hang, see C68).
-/
namespace Verif.MonitorWin

open Verif.Monitor (Op)
open Verif.CondVar (PC Act)

/-- What a thread does next when it is outside of the calls, or when the call it is in returns. -/
inductive Ph where
  /-- the next operation -/
  | z
  /-- `put`: append -/
  | p1
  /-- `put`: notify -/
  | p2 (all : Bool)
  /-- unlock -/
  | p3
  /-- `put`: unlock and notify afterwards -/
  | q2
  /-- `put`: notify, without the mutex -/
  | q3
  /-- `take`: look at the queue -/
  | t1
  deriving DecidableEq, Repr

/-- A thread of the program: where it is, and the operations whose effect on the queue is still to come. -/
structure Cl where
  ph : Ph
  prog : List Op
  deriving DecidableEq, Repr

/-- The condition variable and the mutex, the threads of the program, the queue and its history. -/
structure WSt where
  cv : CondVar.St
  cl : List Cl
  queue : List Nat
  pushed : List (Nat × Nat)
  popped : List (Nat × Nat)
  deriving DecidableEq, Repr

/-- The start. -/
def WSt.start (progs : List (List Op)) : WSt :=
  ⟨CondVar.St.start progs.length, progs.map (fun p => ⟨.z, p⟩), [], [], []⟩

/-- A step of thread `i` in the library, after which the program is at `c`. -/
def WSt.call (s : WSt) (i : Nat) (a : Act) (c : Cl) : Option WSt :=
  (CondVar.step false s.cv i a).map (fun cv => { s with cv := cv, cl := s.cl.set i c })

/-- A step of a thread that is outside of the calls without the mutex. -/
def WSt.outside (s : WSt) (i : Nat) (c : Cl) : Option WSt :=
  match c.ph, c.prog with
  | .z, .put _ _ _ :: _ => s.call i .lock { c with ph := .p1 }
  | .z, .take :: _ => s.call i .lock { c with ph := .t1 }
  | .q3, _ => s.call i .one { c with ph := .z }
  | _, _ => none

/-- A step of a thread that is outside of the calls with the mutex. -/
def WSt.inside (s : WSt) (i : Nat) (c : Cl) : Option WSt :=
  match c.ph, c.prog with
  | .p1, .put x all late :: rest =>
    some { s with cl := s.cl.set i ⟨if late then .q2 else .p2 all, rest⟩, queue := s.queue ++ [x], pushed := s.pushed ++ [(i, x)] }
  | .p2 all, _ => s.call i (if all then .all else .one) { c with ph := .p3 }
  | .p3, _ => s.call i .unlock { c with ph := .z }
  | .q2, _ => s.call i .unlock { c with ph := .q3 }
  | .t1, .take :: rest =>
    match s.queue with
    | [] => s.call i .wait c
    | x :: q => some { s with cl := s.cl.set i ⟨.p3, rest⟩, queue := q, popped := s.popped ++ [(i, x)] }
  | _, _ => none

/-- Thread `i` makes one step; `none`: it cannot. -/
def WSt.step (s : WSt) (i : Nat) : Option WSt :=
  match s.cv.pcs[i]?, s.cl[i]? with
  | some pc, some c =>
    match pc with
    | .idle => s.outside i c
    | .own => s.inside i c
    | _ => s.call i .go c
  | _, _ => none

/-- The states after `n` steps. -/
inductive Runs : WSt → Nat → WSt → Prop where
  | nil (s : WSt) : Runs s 0 s
  | step {s t t' : WSt} {n : Nat} (i : Nat) : Runs s n t → t.step i = some t' → Runs s (n + 1) t'

/-- Nothing can happen any more. -/
def WSt.Stuck (s : WSt) : Prop := ∀ i, s.step i = none

end Verif.MonitorWin
