/-!
# Model of the life of a `ThreadBase` object (`include/cybozu/thread.hpp`)

One object of a class derived from `ThreadBase`, the program that owns it and the threads it has started.  A step is one access to the
object or one system call; an execution is any interleaving.  `threadEntry` is any number of accesses to the derived object, and may
end at any time or never.
-/
namespace Verif.ThreadObj

inductive Platform where
  | posix
  | windows
  deriving DecidableEq, Repr

/-- The object: complete; only its part `ThreadBase` is left (in `~ThreadBase`: the virtual table is the one of `ThreadBase`); no more. -/
inductive Life where
  | alive
  | base
  | gone
  deriving DecidableEq, Repr

/-- `threadHdl_` (thread.hpp:176): 0, a thread, or what a failed `pthread_create` left. -/
inductive Slot where
  | zero
  | thread (k : Nat)
  | garbage
  deriving DecidableEq, Repr

/-- A thread: before `main->threadEntry()` (thread.hpp:188), in `threadEntry`, behind it. -/
inductive Th where
  | created
  | inside
  | finished
  deriving DecidableEq, Repr

/-- What the owner calls: `beginThread`, `joinThread` (with a time limit or without), `detachThread`, `delete`. -/
inductive Call where
  | begin
  | join (timed : Bool)
  | detach
  | destroy
  deriving DecidableEq, Repr

/-- Where the owner is: between its calls; in `Join`; in `~ThreadBase` before `joinThread`; in the `Join` of `~ThreadBase`. -/
inductive Pc where
  | idle
  | joining (k : Nat) (timed : Bool)
  | dtor
  | dtorJoin (k : Nat)
  deriving DecidableEq, Repr

/-- The object, its threads in the order of their start, the owner, what `beginThread` and `joinThread` returned, and whether the
behaviour has become undefined. -/
structure W where
  life : Life
  slot : Slot
  th : List Th
  pc : Pc
  begun : List Bool
  joined : List Bool
  bad : Bool

/-- The object just constructed (thread.hpp:192-195). -/
def W.init : W := ⟨.alive, .zero, [], .idle, [], [], false⟩

/-- Steps of the owner, who still has the calls of the list to make, and of the threads.  `keeps` tells whether a failing
`pthread_create` leaves the handle alone; POSIX does not promise it. -/
inductive Step (pf : Platform) (keeps : Bool) : List Call × W → List Call × W → Prop where
  /-- `beginThread` (thread.hpp:201-204), `Begin` succeeds (thread.hpp:105-133): the member gets the handle, whatever was there -/
  | begin {cs w} : w.pc = .idle →
      Step pf keeps (.begin :: cs, w) (cs, { w with slot := .thread w.th.length, th := w.th ++ [.created], begun := w.begun ++ [true] })
  /-- `Begin` fails: on Windows 0 is assigned (thread.hpp:109) -/
  | beginFailsWin {cs w} : w.pc = .idle → pf = .windows →
      Step pf keeps (.begin :: cs, w) (cs, { w with slot := .zero, begun := w.begun ++ [false] })
  /-- `pthread_create` fails (thread.hpp:125) and leaves the handle as it is -/
  | beginFails {cs w} : w.pc = .idle → pf = .posix →
      Step pf keeps (.begin :: cs, w) (cs, { w with begun := w.begun ++ [false] })
  /-- `pthread_create` fails and leaves something in the handle -/
  | beginGarbage {cs w} : w.pc = .idle → pf = .posix → keeps = false →
      Step pf keeps (.begin :: cs, w) (cs, { w with slot := .garbage, begun := w.begun ++ [false] })
  /-- `joinThread` without a thread (thread.hpp:215-222) -/
  | joinNone {cs w timed} : w.pc = .idle → w.slot = .zero →
      Step pf keeps (.join timed :: cs, w) (cs, { w with joined := w.joined ++ [true] })
  /-- `joinThread`: the exchange, then `Join` (thread.hpp:217-220) -/
  | join {cs w timed k} : w.pc = .idle → w.slot = .thread k →
      Step pf keeps (.join timed :: cs, w) (cs, { w with slot := .zero, pc := .joining k timed })
  /-- `pthread_join` on something that is no thread -/
  | joinGarbage {cs w timed} : w.pc = .idle → w.slot = .garbage →
      Step pf keeps (.join timed :: cs, w) (cs, { w with bad := true })
  /-- `Join` returns (thread.hpp:151-163): the thread has ended -/
  | joinDone {cs} {w : W} {k : Nat} {timed : Bool} : w.pc = .joining k timed → w.th[k]? = some .finished →
      Step pf keeps (cs, w) (cs, { w with pc := .idle, joined := w.joined ++ [true] })
  /-- Windows: the time is over, the handle is closed (thread.hpp:154-156) -/
  | joinTimeout {cs} {w : W} {k : Nat} : w.pc = .joining k true → pf = .windows →
      Step pf keeps (cs, w) (cs, { w with pc := .idle, joined := w.joined ++ [false] })
  /-- `detachThread` (thread.hpp:206-213) -/
  | detach {cs w} : w.pc = .idle → Step pf keeps (.detach :: cs, w) (cs, { w with slot := .zero })
  /-- the destructor of the derived class has run, `~ThreadBase` begins (thread.hpp:196-199) -/
  | destroy {cs w} : w.pc = .idle → Step pf keeps (.destroy :: cs, w) (cs, { w with life := .base, pc := .dtor })
  /-- `joinThread` in `~ThreadBase` without a thread: the object is gone -/
  | dtorNone {cs w} : w.pc = .dtor → w.slot = .zero → Step pf keeps (cs, w) (cs, { w with life := .gone, pc := .idle })
  /-- the exchange in `~ThreadBase` -/
  | dtorJoin {cs} {w : W} {k : Nat} : w.pc = .dtor → w.slot = .thread k → Step pf keeps (cs, w) (cs, { w with slot := .zero, pc := .dtorJoin k })
  | dtorGarbage {cs w} : w.pc = .dtor → w.slot = .garbage → Step pf keeps (cs, w) (cs, { w with bad := true })
  /-- `Join` in `~ThreadBase` returns -/
  | dtorDone {cs} {w : W} {k : Nat} : w.pc = .dtorJoin k → w.th[k]? = some .finished →
      Step pf keeps (cs, w) (cs, { w with life := .gone, pc := .idle })
  /-- the virtual call `main->threadEntry()` (thread.hpp:187-188) -/
  | enter {cs} {w : W} {k : Nat} : w.th[k]? = some .created → w.life = .alive →
      Step pf keeps (cs, w) (cs, { w with th := w.th.set k .inside })
  /-- the same when the derived part has been destroyed: a pure virtual call, or one through freed memory -/
  | enterDead {cs} {w : W} {k : Nat} : w.th[k]? = some .created → w.life ≠ .alive →
      Step pf keeps (cs, w) (cs, { w with bad := true })
  /-- `threadEntry` uses the derived object -/
  | work {cs} {w : W} {k : Nat} : w.th[k]? = some .inside → Step pf keeps (cs, w) (cs, { w with bad := w.bad || w.life != .alive })
  /-- `threadEntry` returns (thread.hpp:189) -/
  | leave {cs} {w : W} {k : Nat} : w.th[k]? = some .inside → Step pf keeps (cs, w) (cs, { w with th := w.th.set k .finished })

/-- Any number of steps. -/
inductive Steps (pf : Platform) (keeps : Bool) : List Call × W → List Call × W → Prop where
  | nil {s} : Steps pf keeps s s
  | snoc {s s' s''} : Steps pf keeps s s' → Step pf keeps s' s'' → Steps pf keeps s s''

end Verif.ThreadObj
