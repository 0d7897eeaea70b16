import Verif.Model.Common

/-!
# Model of `include/cybozu/atomic.hpp`

A variable of type `T` (4 or 8 bytes, `Tag<4>` and `Tag<8>`) is a `BitVec w`; the casts to `long` and
`int64_t` on Windows keep its bits.  The built-in functions of the compilers are modelled as what their
manuals say, each with its own order of arguments: one indivisible step (sequentially consistent, as on x86).
-/
namespace Verif.Atomic

variable {w : Nat}

/-- `__sync_fetch_and_add(p, y)` of GCC and `_InterlockedExchangeAdd(p, y)` of Visual C++: the old value and
the new contents (atomic.hpp:37-39, 71-73). -/
def fetchAdd (cell y : BitVec w) : BitVec w × BitVec w := (cell, cell + y)

/-- `__sync_val_compare_and_swap(p, oldValue, newValue)` of GCC (atomic.hpp:49, 84). -/
def gccCas (cell oldValue newValue : BitVec w) : BitVec w × BitVec w := (cell, if cell = oldValue then newValue else cell)

/-- `_InterlockedCompareExchange(p, exchange, comperand)` of Visual C++ (atomic.hpp:47, 82). -/
def winCas (cell exchange comperand : BitVec w) : BitVec w × BitVec w := (cell, if cell = comperand then exchange else cell)

/-- `__sync_lock_test_and_set(p, newValue)` of GCC, `_InterlockedExchange(p, newValue)` of Visual C++ (atomic.hpp:57-59,
93-95). -/
def swap (cell newValue : BitVec w) : BitVec w × BitVec w := (cell, newValue)

/-- A call of one of the three functions. -/
inductive Op (w : Nat) where
  | add (y : BitVec w)
  | compareExchange (newValue oldValue : BitVec w)
  | exchange (newValue : BitVec w)
deriving DecidableEq

/-- `AtomicAdd` (atomic.hpp:33-41, 67-75, 113-117). -/
def atomicAdd (_win : Bool) (cell y : BitVec w) : BitVec w × BitVec w := fetchAdd cell y

/-- `AtomicCompareExchange` (atomic.hpp:43-51, 78-86, 124-128); `win` selects the branch. -/
def atomicCompareExchange (win : Bool) (cell newValue oldValue : BitVec w) : BitVec w × BitVec w :=
  if win then winCas cell newValue oldValue else gccCas cell oldValue newValue

/-- `AtomicExchange` (atomic.hpp:53-61, 89-97, 135-139). -/
def atomicExchange (_win : Bool) (cell newValue : BitVec w) : BitVec w × BitVec w := swap cell newValue

/-- The value returned by a call and the new contents of the variable (atomic.hpp:113-139). -/
def exec (win : Bool) (op : Op w) (cell : BitVec w) : BitVec w × BitVec w :=
  match op with
  | .add y => atomicAdd win cell y
  | .compareExchange n o => atomicCompareExchange win cell n o
  | .exchange n => atomicExchange win cell n

/-- Threads that work on one variable: what each has still to do, and what the calls made so far have
returned, oldest first. -/
structure St (w : Nat) where
  cell : BitVec w
  prog : Nat → List (Op w)
  log : List (Nat × Op w × BitVec w)

/-- Thread `t` makes its next call. -/
inductive Step (win : Bool) : St w → St w → Prop
  | call {s : St w} {t : Nat} {op : Op w} {rest : List (Op w)} (h : s.prog t = op :: rest) :
      Step win s ⟨(exec win op s.cell).2, fun u => if u = t then rest else s.prog u,
        s.log ++ [(t, op, (exec win op s.cell).1)]⟩

/-- Any number of calls, in any order of the threads. -/
inductive Steps (win : Bool) : St w → St w → Prop
  | refl (s : St w) : Steps win s s
  | step {s s' s'' : St w} : Steps win s s' → Step win s' s'' → Steps win s s''

/-- The state before the first call. -/
def start (cell : BitVec w) (prog : Nat → List (Op w)) : St w := ⟨cell, prog, []⟩

/-- Where a thread is in the usual loop `do { x = *p; } while (AtomicCompareExchange(p, f(x), x) != x)`. -/
inductive Pc (w : Nat) where
  | load
  | swap (x : BitVec w)

/-- Threads that apply `f` to the variable with this loop, each for `todo t` more times; `done` counts the
rounds that are over. -/
structure LoopSt (w : Nat) where
  cell : BitVec w
  pc : Nat → Pc w
  todo : Nat → Nat
  done : Nat

/-- One step of the loop of thread `t` (uses atomic.hpp:124-128). -/
inductive LoopStep (win : Bool) (f : BitVec w → BitVec w) : LoopSt w → LoopSt w → Prop
  | load {s : LoopSt w} {t : Nat} (h : s.pc t = .load) (h' : 0 < s.todo t) :
      LoopStep win f s { s with pc := fun u => if u = t then .swap s.cell else s.pc u }
  | success {s : LoopSt w} {t : Nat} {x : BitVec w} (h : s.pc t = .swap x)
      (h' : (exec win (.compareExchange (f x) x) s.cell).1 = x) :
      LoopStep win f s ⟨(exec win (.compareExchange (f x) x) s.cell).2, fun u => if u = t then .load else s.pc u,
        fun u => if u = t then s.todo t - 1 else s.todo u, s.done + 1⟩
  | retry {s : LoopSt w} {t : Nat} {x : BitVec w} (h : s.pc t = .swap x)
      (h' : (exec win (.compareExchange (f x) x) s.cell).1 ≠ x) :
      LoopStep win f s { s with
        cell := (exec win (.compareExchange (f x) x) s.cell).2, pc := fun u => if u = t then .load else s.pc u }

/-- Any number of steps of the loops. -/
inductive LoopSteps (win : Bool) (f : BitVec w → BitVec w) : LoopSt w → LoopSt w → Prop
  | refl (s : LoopSt w) : LoopSteps win f s s
  | step {s s' s'' : LoopSt w} : LoopSteps win f s s' → LoopStep win f s' s'' → LoopSteps win f s s''

/-- Threads that use the variable as a lock: `while (AtomicExchange(p, 1) != 0) {}` to enter,
`AtomicExchange(p, 0)` to leave. -/
structure SpinSt (w : Nat) where
  cell : BitVec w
  inside : Nat → Bool

/-- One step of thread `t` (uses atomic.hpp:135-139). -/
inductive SpinStep (win : Bool) : SpinSt w → SpinSt w → Prop
  | enter {s : SpinSt w} {t : Nat} (h : s.inside t = false) (h' : (exec win (.exchange 1) s.cell).1 = 0) :
      SpinStep win s ⟨(exec win (.exchange 1) s.cell).2, fun u => if u = t then true else s.inside u⟩
  | spin {s : SpinSt w} {t : Nat} (h : s.inside t = false) (h' : (exec win (.exchange 1) s.cell).1 ≠ 0) :
      SpinStep win s { s with cell := (exec win (.exchange 1) s.cell).2 }
  | leave {s : SpinSt w} {t : Nat} (h : s.inside t = true) :
      SpinStep win s ⟨(exec win (.exchange 0) s.cell).2, fun u => if u = t then false else s.inside u⟩

/-- Any number of steps of the threads. -/
inductive SpinSteps (win : Bool) : SpinSt w → SpinSt w → Prop
  | refl (s : SpinSt w) : SpinSteps win s s
  | step {s s' s'' : SpinSt w} : SpinSteps win s s' → SpinStep win s' s'' → SpinSteps win s s''

end Verif.Atomic
