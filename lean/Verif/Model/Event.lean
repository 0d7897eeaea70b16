/-!
# Model of `include/cybozu/event.hpp`, the `std::mutex` version (lines 65-85)

Any number of threads (numbered by `Nat`) call `wakeup` and `wait` of one `Event`, again and again, in any order. A step is one
action of one thread; a schedule is any sequence of steps. `std::mutex` admits one holder. `std::condition_variable::wait(lk, pred)`
is `while (!pred()) wait(lk);`, where `wait(lk)` releases the mutex and goes to sleep in one step, wakes up when notified or
spuriously, and takes the mutex again. `notify_one` wakes one sleeping thread of any choice, if there is one. The memory model is
sequential consistency (every access to `isSignaled_` is under the mutex, see `C48_mutex`). The Windows and the pipe version are in
`Model/EventPipe`.
-/
namespace Verif.Event

/-- Where a thread is. -/
inductive Pc where
  /-- outside of `wakeup` and `wait` -/
  | idle
  /-- in `wakeup`, before `lk(m_)` (event.hpp:75) -/
  | wLock
  /-- in `wakeup`, before `isSignaled_ = true` (event.hpp:76) -/
  | wSet
  /-- in `wakeup`, before `notify_one` (event.hpp:77) -/
  | wNotify
  /-- in `wakeup`, before the mutex is released (event.hpp:78) -/
  | wUnlock
  /-- in `wait`, before `lk(m_)` (event.hpp:81) -/
  | aLock
  /-- in `cv_.wait`, before the predicate is called (event.hpp:82) -/
  | aCheck
  /-- asleep in `cv_.wait` (event.hpp:82) -/
  | asleep
  /-- woken in `cv_.wait`, before the mutex is taken again (event.hpp:82) -/
  | woken
  /-- in `wait`, before `isSignaled_ = false` (event.hpp:83) -/
  | aClear
  /-- in `wait`, before the mutex is released (event.hpp:84) -/
  | aUnlock
  deriving DecidableEq, Repr

/-- An `Event` (event.hpp:66-68) and the threads that use it; `lock` is the holder of `m_`. -/
structure St where
  signaled : Bool
  lock : Option Nat
  pc : Nat → Pc

/-- The constructor (event.hpp:72), nobody inside. -/
def St.init : St := ⟨false, none, fun _ => .idle⟩

/-- Thread `t` goes to `p`. -/
def upd (f : Nat → Pc) (t : Nat) (p : Pc) : Nat → Pc := fun u => if u = t then p else f u

/-- What a step does to `isSignaled_`. -/
inductive Act where
  | set
  | clear
  | other
  deriving DecidableEq, Repr

/-- The steps of thread `t`. -/
inductive Step : St → Nat → Act → St → Prop where
  /-- `wakeup` is called (event.hpp:73) -/
  | callWakeup {s t} : s.pc t = .idle → Step s t .other { s with pc := upd s.pc t .wLock }
  /-- `std::unique_lock lk(m_)` (event.hpp:75) -/
  | wLock {s t} : s.pc t = .wLock → s.lock = none → Step s t .other { s with pc := upd s.pc t .wSet, lock := some t }
  /-- `isSignaled_ = true` (event.hpp:76) -/
  | wSet {s t} : s.pc t = .wSet → Step s t .set { s with pc := upd s.pc t .wNotify, signaled := true }
  /-- `notify_one` wakes thread `u` (event.hpp:77) -/
  | wNotify {s t u} : s.pc t = .wNotify → s.pc u = .asleep →
      Step s t .other { s with pc := upd (upd s.pc t .wUnlock) u .woken }
  /-- `notify_one` when nobody sleeps (event.hpp:77) -/
  | wNotifyNone {s t} : s.pc t = .wNotify → (∀ u, s.pc u ≠ .asleep) → Step s t .other { s with pc := upd s.pc t .wUnlock }
  /-- the end of `wakeup` (event.hpp:78) -/
  | wUnlock {s t} : s.pc t = .wUnlock → Step s t .other { s with pc := upd s.pc t .idle, lock := none }
  /-- `wait` is called (event.hpp:79) -/
  | callWait {s t} : s.pc t = .idle → Step s t .other { s with pc := upd s.pc t .aLock }
  /-- `std::unique_lock lk(m_)` (event.hpp:81) -/
  | aLock {s t} : s.pc t = .aLock → s.lock = none → Step s t .other { s with pc := upd s.pc t .aCheck, lock := some t }
  /-- the predicate is true (event.hpp:82) -/
  | aTrue {s t} : s.pc t = .aCheck → s.signaled = true → Step s t .other { s with pc := upd s.pc t .aClear }
  /-- the predicate is false: the mutex is released, the thread sleeps (event.hpp:82) -/
  | aSleep {s t} : s.pc t = .aCheck → s.signaled = false →
      Step s t .other { s with pc := upd s.pc t .asleep, lock := none }
  /-- a spurious wake-up -/
  | spurious {s t} : s.pc t = .asleep → Step s t .other { s with pc := upd s.pc t .woken }
  /-- the mutex is taken again (event.hpp:82) -/
  | aRelock {s t} : s.pc t = .woken → s.lock = none → Step s t .other { s with pc := upd s.pc t .aCheck, lock := some t }
  /-- `isSignaled_ = false` (event.hpp:83) -/
  | aClear {s t} : s.pc t = .aClear → Step s t .clear { s with pc := upd s.pc t .aUnlock, signaled := false }
  /-- the end of `wait` (event.hpp:84) -/
  | aUnlock {s t} : s.pc t = .aUnlock → Step s t .other { s with pc := upd s.pc t .idle, lock := none }

/-- A finite schedule from `s`: the actions in order. -/
inductive Steps : St → List Act → St → Prop where
  | nil {s} : Steps s [] s
  | snoc {s l s' t a s''} : Steps s l s' → Step s' t a s'' → Steps s (l ++ [a]) s''

/-- Thread `t` is inside a call and can go on (starting a new call and spurious wake-ups are not counted). -/
def Enabled (s : St) (t : Nat) : Prop :=
  match s.pc t with
  | .idle | .asleep => False
  | .wLock | .aLock | .woken => s.lock = none
  | _ => True

/-- An infinite schedule; `who n = none`: nothing happens at time `n`. -/
structure Exec where
  st : Nat → St
  who : Nat → Option Nat
  act : Nat → Act
  init : st 0 = St.init
  step : ∀ n, match who n with
    | some t => Step (st n) t (act n) (st (n + 1))
    | none => st (n + 1) = st n ∧ act n = .other

/-- The scheduler is (strongly) fair: a thread that again and again can go on inside a call takes a step again and again. -/
def Exec.Fair (e : Exec) : Prop :=
  ∀ t, (∀ n, ∃ m, n ≤ m ∧ Enabled (e.st m) t) → ∀ n, ∃ m, n ≤ m ∧ e.who m = some t

end Verif.Event
