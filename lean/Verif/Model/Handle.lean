/-!
# Model of the handles of `include/cybozu/socket.hpp` and `include/cybozu/thread.hpp`

Objects (numbered by `Nat`) hold a handle: `Socket::sd_`, `ThreadBase::threadHdl_`; `none` is `INVALID_SOCKET`, 0. Any number of
threads (numbered by `Nat`) operate on them; a step is one memory access or system call of one thread, an execution is any sequence
of steps. `AtomicExchange` (atomic.hpp:135-139) is one step; a plain assignment of a handle to the member is one step. A handle is
a fresh number: the kernel may give the number of a closed descriptor to a new one, here they are told apart. Releasing is
`::close` for a socket, `pthread_join` or `pthread_detach` for a thread; it is assumed to release the handle whatever it returns.
-/
namespace Verif.Handle

/-- What a thread does after a release. -/
inductive Cont where
  | stop
  /-- `moveFrom` goes on with the exchange (socket.hpp:404) -/
  | exchange (dst src : Nat)
  deriving DecidableEq, Repr

/-- Where a thread is. -/
inductive Pc where
  | idle
  /-- it took the handle out of an object and is about to release it (socket.hpp:423-429, thread.hpp:209-210, 218-219) -/
  | releasing (h : Nat) (c : Cont)
  /-- in `moveFrom` or the move constructor, before the exchange (socket.hpp:397, 404) -/
  | exchange (dst src : Nat)
  /-- before `sd_ = ` the value (socket.hpp:397, 404, 549, 583, 678, 681; thread.hpp:125) -/
  | store (dst : Nat) (v : Option Nat)
  /-- before `::socket`, `::accept` or `pthread_create` (socket.hpp:549, 583, 678, 681; thread.hpp:125) -/
  | opening (dst : Nat)
  deriving DecidableEq, Repr

/-- The objects, the threads, the number of handles obtained so far (handle `h` is the `h`-th one), the handles released, in
order, and the handles overwritten. -/
structure St where
  slot : Nat → Option Nat
  pc : Nat → Pc
  next : Nat
  released : List Nat
  lost : List Nat

/-- Objects just constructed (socket.hpp:385-388, thread.hpp:192-195), nothing open. -/
def St.init : St := ⟨fun _ => none, fun _ => .idle, 0, [], []⟩

/-- Change at one place. -/
def upd {A : Type} (f : Nat → A) (k : Nat) (a : A) : Nat → A := fun j => if j = k then a else f j

/-- Where a thread is after the exchange of `close`: it releases what it got, then does `c`. -/
def afterExchange : Option Nat → Cont → Pc
  | some h, c => .releasing h c
  | none, .stop => .idle
  | none, .exchange dst src => .exchange dst src

/-- The steps of thread `t`. -/
inductive Step : St → Nat → St → Prop where
  /-- `close`, `~Socket` (socket.hpp:415-433), `joinThread`, `detachThread`, `~ThreadBase` (thread.hpp:196-222): the exchange -/
  | close {s t a} : s.pc t = .idle →
      Step s t { s with slot := upd s.slot a none, pc := upd s.pc t (afterExchange (s.slot a) .stop) }
  /-- `moveFrom` (socket.hpp:401-413): the exchange of its `close` -/
  | moveFrom {s t dst src} : s.pc t = .idle →
      Step s t { s with slot := upd s.slot dst none, pc := upd s.pc t (afterExchange (s.slot dst) (.exchange dst src)) }
  /-- the move constructor (socket.hpp:394-398): `dst` is new -/
  | moveCtor {s t dst src} : s.pc t = .idle → s.slot dst = none → Step s t { s with pc := upd s.pc t (.exchange dst src) }
  /-- the release -/
  | release {s t h c} : s.pc t = .releasing h c →
      Step s t { s with pc := upd s.pc t (afterExchange none c), released := s.released ++ [h] }
  /-- the release, `::close` reports an error and `moveFrom` is left by the exception (socket.hpp:431) -/
  | releaseThrows {s t h c} : s.pc t = .releasing h c →
      Step s t { s with pc := upd s.pc t .idle, released := s.released ++ [h] }
  /-- the exchange of a move (socket.hpp:397, 404) -/
  | exchange {s t dst src} : s.pc t = .exchange dst src →
      Step s t { s with slot := upd s.slot src none, pc := upd s.pc t (.store dst (s.slot src)) }
  /-- the assignment to the member: what was there is overwritten -/
  | store {s t dst v} : s.pc t = .store dst v →
      Step s t { s with slot := upd s.slot dst v, pc := upd s.pc t .idle, lost := s.lost ++ (s.slot dst).toList }
  /-- `connect` (socket.hpp:546-549), which throws if the object is valid -/
  | connect {s t dst} : s.pc t = .idle → s.slot dst = none → Step s t { s with pc := upd s.pc t (.opening dst) }
  /-- `bind` (socket.hpp:580-583), `accept` to `dst` (socket.hpp:673-682), `beginThread` (thread.hpp:201-204): no check -/
  | openNoCheck {s t dst} : s.pc t = .idle → Step s t { s with pc := upd s.pc t (.opening dst) }
  /-- the system call gives a handle -/
  | opened {s t dst} : s.pc t = .opening dst →
      Step s t { s with pc := upd s.pc t (.store dst (some s.next)), next := s.next + 1 }
  /-- the system call fails, `-1` is assigned (for `pthread_create` this is a simplification: POSIX leaves open what it stores then, see C126) -/
  | openFails {s t dst} : s.pc t = .opening dst → Step s t { s with pc := upd s.pc t (.store dst none) }

/-- Any number of steps. -/
inductive Steps : St → St → Prop where
  | nil {s} : Steps s s
  | snoc {s s' t s''} : Steps s s' → Step s' t s'' → Steps s s''

/-- The object the thread is going to assign to. -/
def Pc.target : Pc → Option Nat
  | .idle => none
  | .releasing _ .stop => none
  | .releasing _ (.exchange dst _) => some dst
  | .exchange dst _ => some dst
  | .store dst _ => some dst
  | .opening dst => some dst

/-- A step of a user who starts `moveFrom`, the move constructor, `connect`, `bind`, `accept` or `beginThread` on an object only
when no other thread does so at the same time, and `bind`, `accept`, `beginThread` only on an object without a handle. Closing,
joining, detaching and moving away are not restricted. -/
def Careful (s : St) (t : Nat) (s' : St) : Prop :=
  Step s t s' ∧ ∀ dst, (s.pc t).target = none → (s'.pc t).target = some dst →
    (∀ u, (s.pc u).target ≠ some dst) ∧ (s'.pc t = .opening dst → s.slot dst = none)

/-- Any number of careful steps. -/
inductive CarefulSteps : St → St → Prop where
  | nil {s} : CarefulSteps s s
  | snoc {s s' t s''} : CarefulSteps s s' → Careful s' t s'' → CarefulSteps s s''

end Verif.Handle
