/-!
# Model of `include/cybozu/event.hpp`, the pipe version (lines 88-117) and the Windows version (lines 30-61)

Any number of threads (numbered by `Nat`) call `wakeup` and `wait` of one `Event`, again and again, in any order.  A step is one action of
one thread.  Reading and writing of one byte of a pipe is atomic; `write` blocks while the pipe is full, `read` while it is empty, and either
ends with `EINTR` when a signal handler without `SA_RESTART` has run meanwhile.  The results of both calls are ignored.  `SetEvent` and
`WaitForSingleObject` on an auto-reset event are atomic.  Constructor failures and the destructor are not modelled.
-/
namespace Verif.EventPipe

/-- Where a thread is. -/
inductive Pc where
  /-- outside of `wakeup` and `wait` -/
  | idle
  /-- in `write` of `wakeup` (event.hpp:109) -/
  | writing
  /-- in `read` of `wait` (event.hpp:115) -/
  | reading
  deriving DecidableEq, Repr

/-- An `Event` (event.hpp:89): the number of bytes in the pipe, and the threads. -/
structure St where
  bytes : Nat
  pc : Nat → Pc

/-- The constructor (event.hpp:93-100), nobody inside. -/
def St.init : St := ⟨0, fun _ => .idle⟩

/-- Thread `t` goes to `p`. -/
def upd (f : Nat → Pc) (t : Nat) (p : Pc) : Nat → Pc := fun u => if u = t then p else f u

/-- What a step does. -/
inductive Act where
  /-- a byte is written, `wakeup` returns -/
  | put
  /-- a byte is read, `wait` returns -/
  | take
  /-- `wakeup` or `wait` returns because of a signal -/
  | intr
  | call
  deriving DecidableEq, Repr

/-- The steps of thread `t`; the pipe holds `cap` bytes. -/
inductive Step (cap : Nat) : St → Nat → Act → St → Prop where
  /-- `wakeup` is called (event.hpp:106) -/
  | callWakeup {s t} : s.pc t = .idle → Step cap s t .call { s with pc := upd s.pc t .writing }
  /-- `::write(pipefd_[1], &c, 1)` (event.hpp:109) -/
  | write {s t} : s.pc t = .writing → s.bytes < cap → Step cap s t .put ⟨s.bytes + 1, upd s.pc t .idle⟩
  /-- `write` blocks and is interrupted -/
  | writeIntr {s t} : s.pc t = .writing → cap ≤ s.bytes → Step cap s t .intr { s with pc := upd s.pc t .idle }
  /-- `wait` is called (event.hpp:112) -/
  | callWait {s t} : s.pc t = .idle → Step cap s t .call { s with pc := upd s.pc t .reading }
  /-- `::read(pipefd_[0], &c, 1)` (event.hpp:115) -/
  | read {s t} : s.pc t = .reading → 0 < s.bytes → Step cap s t .take ⟨s.bytes - 1, upd s.pc t .idle⟩
  /-- `read` blocks and is interrupted -/
  | readIntr {s t} : s.pc t = .reading → s.bytes = 0 → Step cap s t .intr { s with pc := upd s.pc t .idle }

/-- A finite schedule from `s`: the actions in order. -/
inductive Steps (cap : Nat) : St → List Act → St → Prop where
  | nil {s} : Steps cap s [] s
  | snoc {s l s' t a s''} : Steps cap s l s' → Step cap s' t a s'' → Steps cap s (l ++ [a]) s''

/-- Thread `t` is inside a call and can go on without a signal. -/
def Enabled (cap : Nat) (s : St) (t : Nat) : Prop :=
  match s.pc t with
  | .idle => False
  | .writing => s.bytes < cap
  | .reading => 0 < s.bytes

/-- An infinite schedule; `who n = none`: nothing happens at time `n`. -/
structure Exec (cap : Nat) where
  st : Nat → St
  who : Nat → Option Nat
  act : Nat → Act
  init : st 0 = St.init
  step : ∀ n, match who n with
    | some t => Step cap (st n) t (act n) (st (n + 1))
    | none => st (n + 1) = st n ∧ act n = .call

/-- The scheduler is (strongly) fair: a thread that again and again can go on inside a call takes a step again and again. -/
def Exec.Fair {cap : Nat} (e : Exec cap) : Prop :=
  ∀ t, (∀ n, ∃ m, n ≤ m ∧ Enabled cap (e.st m) t) → ∀ n, ∃ m, n ≤ m ∧ e.who m = some t

/-! ## Windows -/

/-- The state of an auto-reset event (event.hpp:31) and who is in `wait` or `wakeup` (`writing` is in `SetEvent`). -/
structure WSt where
  flag : Bool
  pc : Nat → Pc

/-- The constructor (event.hpp:35-43): `CreateEvent(NULL, FALSE, FALSE, NULL)`. -/
def WSt.init : WSt := ⟨false, fun _ => .idle⟩

/-- The steps of thread `t` on Windows. -/
inductive WStep : WSt → Nat → Act → WSt → Prop where
  /-- `wakeup` is called (event.hpp:48) -/
  | callWakeup {s t} : s.pc t = .idle → WStep s t .call { s with pc := upd s.pc t .writing }
  /-- `::SetEvent(event_)` (event.hpp:50) -/
  | set {s t} : s.pc t = .writing → WStep s t .put ⟨true, upd s.pc t .idle⟩
  /-- `wait` is called (event.hpp:52) -/
  | callWait {s t} : s.pc t = .idle → WStep s t .call { s with pc := upd s.pc t .reading }
  /-- `WaitForSingleObject(event_, INFINITE)` (event.hpp:55): succeeds when the flag is set, and clears it -/
  | wait {s t} : s.pc t = .reading → s.flag = true → WStep s t .take ⟨false, upd s.pc t .idle⟩

/-- A finite schedule. -/
inductive WSteps : WSt → List Act → WSt → Prop where
  | nil {s} : WSteps s [] s
  | snoc {s l s' t a s''} : WSteps s l s' → WStep s' t a s'' → WSteps s (l ++ [a]) s''

end Verif.EventPipe
