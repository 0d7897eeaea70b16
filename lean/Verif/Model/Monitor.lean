import Verif.Model.Common

/-!
# Model of `CriticalSection` and `ConditionVariableCs` under a program that guards a queue with them

The classes are thin: `lock`/`unlock` are `pthread_mutex_lock`/`_unlock` (critical_section.hpp:26-27, 44-51) and `wait`,
`notifyOne`, `notifyAll` are `pthread_cond_wait`, `_signal`, `_broadcast` on the handle of the critical section
(condition_variable_cs.hpp:44-67).  The same calls are made by the pthread branch of `Mutex` and `ConditionVariable`
(mutex.hpp:76, 88, condition_variable.hpp:57, 71, 96).  The library calls are modelled after POSIX: `wait` releases the mutex and blocks in one
step, returns with the mutex held, and may return without having been notified; `signal` unblocks at least one blocked thread if
there is one, `broadcast` all of them.  Errors of the calls are not modelled (the code ignores them).

The program: any number of threads, each with a list of operations on one queue.  `put` locks, appends, notifies (before or
after unlocking) and unlocks; `take` locks, waits while the queue is empty, removes the first item and unlocks.
-/
namespace Verif.Monitor

/-- An operation of a thread.  `all`: `notifyAll` instead of `notifyOne`; `late`: notify after unlocking. -/
inductive Op where
  | put (x : Nat) (all late : Bool)
  | take
  deriving DecidableEq, Repr

/-- Where a thread is. -/
inductive PC where
  /-- between operations -/
  | idle
  /-- `put`: has the lock, about to append -/
  | p1
  /-- `put`: appended, has the lock, about to notify -/
  | p2 (all : Bool)
  /-- `put`: notified, has the lock, about to unlock -/
  | p3
  /-- `put`: appended, has the lock, about to unlock and notify afterwards -/
  | q2 (all : Bool)
  /-- `put`: unlocked, about to notify -/
  | q3 (all : Bool)
  /-- `take`: has the lock, about to look at the queue -/
  | t1
  /-- `take`: blocked in `wait` -/
  | t2
  /-- `take`: unblocked, about to get the lock back inside `wait` -/
  | t3
  /-- `take`: removed an item, about to unlock -/
  | t4
  deriving DecidableEq, Repr

/-- A thread: where it is, and the operations whose effect on the queue is still to come. -/
structure Th where
  pc : PC
  prog : List Op
  deriving DecidableEq, Repr

/-- The shared objects.  `pushed` and `popped` are the history of the queue with the threads that did it. -/
structure St where
  ths : List Th
  /-- the owner of `hdl_` (critical_section.hpp:55) -/
  lock : Option Nat
  queue : List Nat
  pushed : List (Nat × Nat)
  popped : List (Nat × Nat)
  deriving DecidableEq, Repr

/-- The start: nobody has begun. -/
def St.start (progs : List (List Op)) : St := ⟨progs.map (fun p => ⟨.idle, p⟩), none, [], [], []⟩

/-- Thread `i` goes to `pc`. -/
def St.goto (s : St) (i : Nat) (th : Th) (pc : PC) : St := { s with ths := s.ths.set i { th with pc := pc } }

/-- What unblocking does to a thread that may be blocked. -/
def Th.wake (th : Th) : Th := if th.pc = .t2 then { th with pc := .t3 } else th

/-- `notifyAll` (condition_variable_cs.hpp:60-67): everybody who is blocked is unblocked. -/
def St.wakeAll (s : St) : St := { s with ths := s.ths.map Th.wake }

/-- `notifyOne` (condition_variable_cs.hpp:52-59): nothing if nobody is blocked, else the system chooses the blocked thread `j`;
`none` if `j` is no choice. -/
def St.wakeOne (s : St) (j : Nat) : Option St :=
  if s.ths.all (fun th => th.pc ≠ .t2) then some s
  else
    match s.ths[j]? with
    | none => none
    | some th => if th.pc = .t2 then some (s.goto j th .t3) else none

/-- `notifyAll` or `notifyOne`. -/
def St.notify (s : St) (all : Bool) (j : Nat) : Option St := if all then some s.wakeAll else s.wakeOne j

/-- `lock` (critical_section.hpp:44-47) of thread `i`, then at `pc`. -/
def St.acquire (s : St) (i : Nat) (th : Th) (pc : PC) : Option St :=
  if s.lock = none then some { s.goto i th pc with lock := some i } else none

/-- `unlock` (critical_section.hpp:48-51) of thread `i`, then at `pc`. -/
def St.release (s : St) (i : Nat) (th : Th) (pc : PC) : Option St := some { s.goto i th pc with lock := none }

/-- Thread `i` makes one step; `j` is the choice of the system in `notifyOne`.  `none`: it cannot.  A step of a thread that is
blocked in `wait` is a return without notification. -/
def St.step (s : St) (i j : Nat) : Option St :=
  match s.ths[i]? with
  | none => none
  | some th =>
    match th.pc, th.prog with
    | .idle, [] => none
    | .idle, .put _ _ _ :: _ => s.acquire i th .p1
    | .idle, .take :: _ => s.acquire i th .t1
    | .p1, .put x all late :: rest =>
      some { s with ths := s.ths.set i ⟨if late then .q2 all else .p2 all, rest⟩, queue := s.queue ++ [x],
                    pushed := s.pushed ++ [(i, x)] }
    | .p2 all, _ => (s.goto i th .p3).notify all j
    | .p3, _ => s.release i th .idle
    | .q2 all, _ => s.release i th (.q3 all)
    | .q3 all, _ => (s.goto i th .idle).notify all j
    | .t1, .take :: rest =>
      match s.queue with
      | [] => s.release i th .t2
      | x :: q => some { s with ths := s.ths.set i ⟨.t4, rest⟩, queue := q, popped := s.popped ++ [(i, x)] }
    | .t2, _ => some (s.goto i th .t3)
    | .t3, _ => s.acquire i th .t1
    | .t4, _ => s.release i th .idle
    | _, _ => none

/-- The states that a run can reach. -/
inductive Reach (progs : List (List Op)) : St → Prop where
  | start : Reach progs (St.start progs)
  | step {s s' : St} (i j : Nat) : Reach progs s → s.step i j = some s' → Reach progs s'

/-- A thread that is blocked in `wait`. -/
def St.blocked (s : St) (i : Nat) : Prop := ∃ th, s.ths[i]? = some th ∧ th.pc = .t2

/-- A run of `n` steps, of which `k` are returns from `wait` without notification. -/
inductive Runs : St → Nat → Nat → St → Prop where
  | nil (s : St) : Runs s 0 0 s
  | move {s s' t : St} {n k : Nat} (i j : Nat) : ¬ s.blocked i → s.step i j = some s' → Runs s' n k t → Runs s (n + 1) k t
  | spurious {s s' t : St} {n k : Nat} (i j : Nat) : s.blocked i → s.step i j = some s' → Runs s' n k t → Runs s (n + 1) (k + 1) t

/-- Nothing can happen any more, except that somebody returns from `wait` without notification. -/
def St.Stuck (s : St) : Prop := ∀ i j s', s.step i j = some s' → s.blocked i

/-- The program of the library's own test (condition_variable_cs_test.cpp:22-28, 48-56): each thread locks, waits without looking at
any condition and unlocks, while the main thread notifies.  A thread: -/
inductive TPC where
  | begin | locked | blocked | woken | last | done
  deriving DecidableEq, Repr

/-- The threads, the lock and the number of notifications that the main thread is still to make. -/
structure TSt where
  ths : List TPC
  lock : Option Nat
  notes : Nat
  deriving DecidableEq, Repr

/-- One step of thread `i` (`some i`) or one `notifyOne` of the main thread (`none`), which unblocks `j`. -/
def TSt.step (s : TSt) (i : Option Nat) (j : Nat) : Option TSt :=
  match i with
  | none =>
    match s.notes with
    | 0 => none
    | n + 1 =>
      if s.ths.all (fun p => p ≠ .blocked) then some { s with notes := n }
      else if s.ths[j]? = some .blocked then some { s with ths := s.ths.set j .woken, notes := n } else none
  | some i =>
    match s.ths[i]? with
    | some .begin => if s.lock = none then some { s with ths := s.ths.set i .locked, lock := some i } else none
    | some .locked => some { s with ths := s.ths.set i .blocked, lock := none }
    | some .woken => if s.lock = none then some { s with ths := s.ths.set i .last, lock := some i } else none
    | some .last => some { s with ths := s.ths.set i .done, lock := none }
    | _ => none

/-- A run of the test program. -/
def TSt.run : List (Option Nat × Nat) → TSt → Option TSt
  | [], s => some s
  | c :: cs, s =>
    match s.step c.1 c.2 with
    | none => none
    | some s' => TSt.run cs s'

end Verif.Monitor
