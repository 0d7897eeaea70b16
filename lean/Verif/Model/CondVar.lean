/-! Model of `ConditionVariable` on Windows (condition_variable.hpp), the construction with a semaphore, a counter and an event,
and of the `Mutex` it works with (mutex.hpp).  Any number of threads run interleaved; one step is one access to a shared object.

Simplifications: the accesses to `waiterNum_` between `EnterCriticalSection` and `LeaveCriticalSection` are one step, since nobody
else touches the counter meanwhile; the plain store `wasBroadcast_ = false` is a step of its own.  `SignalObjectAndWait` signals in
one step and waits in another, because Windows does not promise that it is atomic.  The mutex is not taken twice by one thread.
Handles are never closed while threads run, and waits do not fail.  The branch for pthreads just calls the library and has no model. -/
namespace Verif.CondVar

/-- Where a thread is. -/
inductive PC where
  /-- outside, without the mutex -/
  | idle
  /-- outside, with the mutex -/
  | own
  /-- `wait` begins (condition_variable.hpp:40-42) -/
  | w1
  /-- counted, about to release the mutex (condition_variable.hpp:44) -/
  | w2
  /-- mutex released, waiting for the semaphore (condition_variable.hpp:44) -/
  | w3
  /-- got the semaphore, about to be counted out (condition_variable.hpp:45-50) -/
  | w4
  /-- counted out; `last` is `last_waiter` (condition_variable.hpp:48, 51-52) -/
  | w5 (last : Bool)
  /-- waiting for the mutex (condition_variable.hpp:52, 54) -/
  | w6
  /-- `notifyOne` begins (condition_variable.hpp:63-65) -/
  | n1 (held : Bool)
  /-- has looked at the counter (condition_variable.hpp:67-69) -/
  | n2 (held : Bool) (haveWaiters : Bool)
  /-- `notifyAll` begins (condition_variable.hpp:77-94) -/
  | a1 (held : Bool)
  /-- waiting for the event (condition_variable.hpp:90) -/
  | a2 (held : Bool)
  /-- about to reset `wasBroadcast_` (condition_variable.hpp:91) -/
  | a3 (held : Bool)
  deriving DecidableEq, Repr

/-- The shared objects (condition_variable.hpp:101-105, mutex.hpp:139) and the places of the threads. -/
structure St where
  pcs : List PC
  /-- the thread that holds the mutex -/
  mutex : Option Nat
  waiterNum : Int
  sema : Nat
  /-- the auto-reset event `waiterDone_` -/
  done : Bool
  wasBroadcast : Bool
  deriving DecidableEq, Repr

/-- What a thread outside the class decides to do; `go` continues a call. -/
inductive Act where
  | lock | unlock | wait | one | all | go
  deriving DecidableEq, Repr

/-- The constructor (condition_variable.hpp:18-22) and `n` threads that have not begun. -/
def St.start (n : Nat) : St := ⟨List.replicate n .idle, none, 0, 0, false, false⟩

/-- The largest count of the semaphore (condition_variable.hpp:20). -/
def semaMax : Nat := 0x7fffffff

/-- `ReleaseSemaphore`, which fails and changes nothing if the count would become too large; the result is not looked at
(condition_variable.hpp:68, 86). -/
def releaseSema (sema n : Nat) : Nat := if sema + n ≤ semaMax then sema + n else sema

/-- Where a notifying thread returns to. -/
def ret (held : Bool) : PC := if held then .own else .idle

/-- One step of thread `i` (condition_variable.hpp:37-98, mutex.hpp:122-135); `free` tells whether `notifyAll` may be called
without the mutex. -/
def step (free : Bool) (s : St) (i : Nat) (a : Act) : Option St :=
  match s.pcs[i]?, a with
  | some .idle, .lock => if s.mutex = none then some { s with pcs := s.pcs.set i .own, mutex := some i } else none
  | some .own, .unlock => some { s with pcs := s.pcs.set i .idle, mutex := none }
  | some .own, .wait => some { s with pcs := s.pcs.set i .w1 }
  | some .w1, .go => some { s with pcs := s.pcs.set i .w2, waiterNum := s.waiterNum + 1 }
  | some .w2, .go => some { s with pcs := s.pcs.set i .w3, mutex := none }
  | some .w3, .go => if 0 < s.sema then some { s with pcs := s.pcs.set i .w4, sema := s.sema - 1 } else none
  | some .w4, .go => some { s with pcs := s.pcs.set i (.w5 (s.wasBroadcast && decide (s.waiterNum - 1 = 0))), waiterNum := s.waiterNum - 1 }
  | some (.w5 true), .go => some { s with pcs := s.pcs.set i .w6, done := true }
  | some (.w5 false), .go => some { s with pcs := s.pcs.set i .w6 }
  | some .w6, .go => if s.mutex = none then some { s with pcs := s.pcs.set i .own, mutex := some i } else none
  | some .idle, .one => some { s with pcs := s.pcs.set i (.n1 false) }
  | some .own, .one => some { s with pcs := s.pcs.set i (.n1 true) }
  | some (.n1 h), .go => some { s with pcs := s.pcs.set i (.n2 h (decide (0 < s.waiterNum))) }
  | some (.n2 h true), .go => some { s with pcs := s.pcs.set i (ret h), sema := releaseSema s.sema 1 }
  | some (.n2 h false), .go => some { s with pcs := s.pcs.set i (ret h) }
  | some .idle, .all => if free then some { s with pcs := s.pcs.set i (.a1 false) } else none
  | some .own, .all => some { s with pcs := s.pcs.set i (.a1 true) }
  | some (.a1 h), .go =>
    if 0 < s.waiterNum then
      some { s with pcs := s.pcs.set i (.a2 h), wasBroadcast := true, sema := releaseSema s.sema s.waiterNum.toNat }
    else some { s with pcs := s.pcs.set i (ret h) }
  | some (.a2 h), .go => if s.done then some { s with pcs := s.pcs.set i (.a3 h), done := false } else none
  | some (.a3 h), .go => some { s with pcs := s.pcs.set i (ret h), wasBroadcast := false }
  | _, _ => none

/-- The states after some steps. -/
inductive Reach (free : Bool) (n : Nat) : St → Prop where
  | start : Reach free n (St.start n)
  | step {s s' i a} : Reach free n s → step free s i a = some s' → Reach free n s'

/-- Many steps in a row. -/
def run (free : Bool) : St → List (Nat × Act) → Option St
  | s, [] => some s
  | s, (i, a) :: l => match step free s i a with
    | some s' => run free s' l
    | none => none

end Verif.CondVar
