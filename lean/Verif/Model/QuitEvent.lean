import Verif.Model.Event
import Verif.Model.EventPipe

/-!
# Model of `QuitSignalHandler` with an application whose `quit` wakes up an `Event`

`quit_signal_handler.hpp` runs `app_->quit()` inside a signal handler, on whatever thread the system chooses, in the middle of whatever this
thread does.  Here `quit` calls `wakeup` of an `Event` on which threads of the program `wait`, which is how a program leaves its main loop.
`sigfillset(&sa.sa_mask)` (line 49) holds back further signals on a thread while its handler runs, so a thread has at most one handler.

The calls of the program itself are the steps of `Model/Event` (the `std::mutex` version) or `Model/EventPipe` (the pipe version); a thread
takes none of them while its handler runs.  Locking a `std::mutex` that the same thread holds is undefined in C++; the `pthread_mutex_t` of
Linux under it waits, and so does the model.
-/
namespace Verif.QuitEvent
open Verif.Event (Pc Act upd)

/-- The `Event` (event.hpp:65-85), the threads, and for every thread where its handler is; `.idle`: none runs
(quit_signal_handler.hpp:34-38). -/
structure St where
  e : Event.St
  h : Nat → Pc

/-- Nothing has happened (event.hpp:72, quit_signal_handler.hpp:41-60). -/
def St.init : St := ⟨Event.St.init, fun _ => .idle⟩

/-- The steps of thread `t`.  `at_ s t`: the system may deliver a signal to thread `t` in state `s`. -/
inductive Step (at_ : St → Nat → Prop) : St → Nat → St → Prop where
  /-- a step of a call of the program (event.hpp:73-84) -/
  | own {s t a e'} : s.h t = .idle → Event.Step s.e t a e' → Step at_ s t { s with e := e' }
  /-- a signal comes: `ctrlHandler` calls `quit`, which calls `wakeup` (quit_signal_handler.hpp:34-38, event.hpp:73) -/
  | signal {s t} : s.h t = .idle → at_ s t → Step at_ s t { s with h := upd s.h t .wLock }
  /-- `std::unique_lock lk(m_)` in the handler (event.hpp:75) -/
  | hLock {s t} : s.h t = .wLock → s.e.lock = none → Step at_ s t { e := { s.e with lock := some t }, h := upd s.h t .wSet }
  /-- `isSignaled_ = true` in the handler (event.hpp:76) -/
  | hSet {s t} : s.h t = .wSet → Step at_ s t { e := { s.e with signaled := true }, h := upd s.h t .wNotify }
  /-- `notify_one` in the handler wakes thread `u`, which may be `t` (event.hpp:77) -/
  | hNotify {s t u} : s.h t = .wNotify → s.e.pc u = .asleep →
      Step at_ s t { e := { s.e with pc := upd s.e.pc u .woken }, h := upd s.h t .wUnlock }
  /-- `notify_one` in the handler when nobody sleeps (event.hpp:77) -/
  | hNotifyNone {s t} : s.h t = .wNotify → (∀ u, s.e.pc u ≠ .asleep) → Step at_ s t { s with h := upd s.h t .wUnlock }
  /-- the end of `wakeup` and of the handler (event.hpp:78, quit_signal_handler.hpp:38) -/
  | hUnlock {s t} : s.h t = .wUnlock → Step at_ s t { e := { s.e with lock := none }, h := upd s.h t .idle }

/-- Executions. -/
inductive Steps (at_ : St → Nat → Prop) : St → St → Prop where
  | refl {s} : Steps at_ s s
  | tail {s s' t s''} : Steps at_ s s' → Step at_ s' t s'' → Steps at_ s s''

/-- The pipe version (event.hpp:88-117) with handlers; `h t`: thread `t` is in `write` of its handler, `cut t`: the signal came while
`read` or `write` of a call of this thread was blocked. -/
structure PSt where
  e : EventPipe.St
  h : Nat → Bool
  cut : Nat → Bool

/-- Nothing has happened (event.hpp:93-100). -/
def PSt.init : PSt := ⟨EventPipe.St.init, fun _ => false, fun _ => false⟩

/-- What a step of the pipe version does. -/
inductive PAct where
  /-- `wakeup` of the program has written its byte and returns -/
  | put
  /-- `wait` has read a byte and returns -/
  | take
  /-- a signal comes -/
  | signal
  /-- a handler has written its byte and ends -/
  | ended
  /-- the same, and `wait` that it interrupted returns without having read -/
  | endedWait
  /-- the same, and `wakeup` that it interrupted returns without having written -/
  | endedWakeup
  | call
  deriving DecidableEq, Repr

/-- The steps of thread `t` in the pipe version; the pipe holds `cap` bytes.  All signals are quit signals.  `write` of a handler is not
interrupted: the handler runs with all signals held back (quit_signal_handler.hpp:49).  `read` or `write` of the program that was blocked when
the signal came gives `EINTR` after the handler (`sa.sa_flags = 0`, line 50) if it had reached the system, otherwise it is just going on. -/
inductive PStep (cap : Nat) : PSt → Nat → PAct → PSt → Prop where
  /-- a call begins (event.hpp:106, 112) -/
  | call {s t e'} : s.h t = false → EventPipe.Step cap s.e t .call e' → PStep cap s t .call { s with e := e' }
  /-- `write` of `wakeup` (event.hpp:109) -/
  | put {s t e'} : s.h t = false → EventPipe.Step cap s.e t .put e' → PStep cap s t .put { s with e := e' }
  /-- `read` of `wait` (event.hpp:115) -/
  | take {s t e'} : s.h t = false → EventPipe.Step cap s.e t .take e' → PStep cap s t .take { s with e := e' }
  /-- a signal comes (quit_signal_handler.hpp:34-38, event.hpp:106-109) -/
  | signal {s t} : s.h t = false →
      PStep cap s t .signal { s with
        h := fun u => if u = t then true else s.h u
        cut := fun u => if u = t then decide ((s.e.pc t = .reading ∧ s.e.bytes = 0) ∨ (s.e.pc t = .writing ∧ cap ≤ s.e.bytes)) else s.cut u }
  /-- `::write(pipefd_[1], &c, 1)` in the handler, and its end (event.hpp:109-111) -/
  | ended {s t} : s.h t = true → s.e.bytes < cap →
      PStep cap s t .ended { s with e := ⟨s.e.bytes + 1, s.e.pc⟩, h := fun u => if u = t then false else s.h u }
  /-- the same, then `read` of the interrupted `wait` gives -1, which is ignored (event.hpp:115-116) -/
  | endedWait {s t} : s.h t = true → s.e.bytes < cap → s.cut t = true → s.e.pc t = .reading →
      PStep cap s t .endedWait
        { s with e := ⟨s.e.bytes + 1, EventPipe.upd s.e.pc t .idle⟩, h := fun u => if u = t then false else s.h u }
  /-- the same, then `write` of the interrupted `wakeup` gives -1, which is ignored (event.hpp:109-110) -/
  | endedWakeup {s t} : s.h t = true → s.e.bytes < cap → s.cut t = true → s.e.pc t = .writing →
      PStep cap s t .endedWakeup
        { s with e := ⟨s.e.bytes + 1, EventPipe.upd s.e.pc t .idle⟩, h := fun u => if u = t then false else s.h u }

/-- Executions of the pipe version, with what happened in order. -/
inductive PSteps (cap : Nat) : PSt → List PAct → PSt → Prop where
  | nil {s} : PSteps cap s [] s
  | snoc {s l s' t a s''} : PSteps cap s l s' → PStep cap s' t a s'' → PSteps cap s (l ++ [a]) s''

end Verif.QuitEvent
