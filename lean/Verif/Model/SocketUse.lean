import Verif.Model.Common

/-!
# Model of one `Socket` object used by several threads (`include/cybozu/socket.hpp`, Linux)

Every transfer (`readSome` 471-483, `read` 490-499, `write` 505-524), `shutdown` (439-444) and every setting reads the member `sd_` anew for each system call.
`close` (420-433) takes the descriptor out of the object first and closes it then.  The kernel hands out any free number for a new descriptor, also to other
parts of the program.  `calm` restricts `close` and `connect`/`accept`/`moveFrom` to moments at which no call on the object is running; without it
they may come at any time.  Reading `sd_` is taken as atomic.  What the system calls transfer is not modelled (C54), only on which connection they act.
-/
namespace Verif.SocketUse

/-- Where a thread is. -/
inductive Pc where
  | idle
  /-- inside a transfer or setting, before it reads `sd_`; `c` is the connection the object had when the call began (history) -/
  | busy (c : Option Nat)
  /-- `sd_` was read; before the system call -/
  | loaded (c : Option Nat) (fd : Option Nat)
  /-- in `close`, behind `AtomicExchange` (socket.hpp:422) -/
  | closing (fd : Nat)
  deriving DecidableEq

/-- `sd_` (`none`: `INVALID_SOCKET`), the descriptor table (which connection or file a descriptor stands for), a number for the next connection,
the threads.  As history: for each system call the thread, the connection of the object when the call of the library began, and the one it acted on
(`none`: it failed with `EBADF`). -/
structure St where
  sd : Option Nat
  tab : Nat → Option Nat
  next : Nat
  pc : Nat → Pc
  log : List (Nat × Option Nat × Option Nat)

/-- Function update. -/
def upd {α : Type} (f : Nat → α) (i : Nat) (v : α) : Nat → α := fun j => if j = i then v else f j

/-- The connection of a descriptor. -/
def conn (tab : Nat → Option Nat) (fd : Option Nat) : Option Nat :=
  match fd with
  | none => none
  | some f => tab f

/-- A new object (socket.hpp:385-388); the process has other descriptors `tab`. -/
def St.start (tab : Nat → Option Nat) (next : Nat) : St := ⟨none, tab, next, fun _ => .idle, []⟩

/-- The steps of thread `t`. -/
inductive Step (calm : Bool) : St → St → Prop where
  /-- a transfer, `shutdown` or setting is called (socket.hpp:439, 471, 490, 505, 687, 693) -/
  | enter {s t} : s.pc t = .idle → Step calm s { s with pc := upd s.pc t (.busy (conn s.tab s.sd)) }
  /-- it reads `sd_` (socket.hpp:441, 478, 513, 689, 696) -/
  | load {s t c} : s.pc t = .busy c → Step calm s { s with pc := upd s.pc t (.loaded c s.sd) }
  /-- its system call; it may go on with another one -/
  | io {s t c fd} : s.pc t = .loaded c fd → Step calm s { s with pc := upd s.pc t (.busy c), log := s.log ++ [(t, c, conn s.tab fd)] }
  /-- it returns or throws -/
  | leave {s t c} : s.pc t = .busy c → Step calm s { s with pc := upd s.pc t .idle }
  /-- `AtomicExchange(&sd_, INVALID_SOCKET)` in `close` (socket.hpp:422) -/
  | take {s t f} : s.pc t = .idle → s.sd = some f → (calm = true → ∀ u, s.pc u = .idle) →
      Step calm s { s with sd := none, pc := upd s.pc t (.closing f) }
  /-- `::close(sd)` (socket.hpp:429) -/
  | shut {s t f} : s.pc t = .closing f → Step calm s { s with tab := upd s.tab f none, pc := upd s.pc t .idle }
  /-- the object gets a new connection (`connect` 546-572, `accept` 673-684, `moveFrom` 401-405) -/
  | attach {s t f} : s.pc t = .idle → s.sd = none → s.tab f = none → (calm = true → ∀ u, s.pc u = .idle) →
      Step calm s { s with sd := some f, tab := upd s.tab f (some s.next), next := s.next + 1 }
  /-- another part of the program opens a descriptor -/
  | other {s f} : s.tab f = none → Step calm s { s with tab := upd s.tab f (some s.next), next := s.next + 1 }
  /-- another part of the program closes a descriptor of its own -/
  | otherClose {s f} : s.sd ≠ some f → (∀ t, s.pc t ≠ .closing f) → Step calm s { s with tab := upd s.tab f none }

/-- Executions. -/
inductive Steps (calm : Bool) : St → St → Prop where
  | refl {s} : Steps calm s s
  | tail {s s' s''} : Steps calm s s' → Step calm s' s'' → Steps calm s s''

end Verif.SocketUse
