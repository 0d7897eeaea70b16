import Verif.Model.Common

/-!
# Model of `include/cybozu/parallel.hpp`

The type `N` is an unsigned type of `w` bits. The function `target(i, threadIdx)` is arbitrary: every call may return `true`,
return `false` or throw, whatever it did before. The threads run at the same time; a step is one action of one thread, an
execution is any sequence of steps. A call has a beginning and an end, so calls of several threads may overlap. An exception that
is no `std::exception` (which ends the process) is not modelled, nor is a call that never returns. `pthread_join` of a running
thread is assumed to succeed.
-/
namespace Verif.Parallel

/-- How a call of `target` ends; `exn what` is a `std::exception`. -/
inductive Out where
  | yes
  | no
  | exn (what : String)
  deriving DecidableEq, Repr

/-- The loop that hands out the ranges (parallel.hpp:68-74): the pairs `begin_`, `end_` of the threads `i`, `i + 1`, ... -/
def rangeLoop (w q r threadNum : Nat) : (fuel i begin : Nat) → List (Nat × Nat)
  | 0, _, _ => []
  | fuel + 1, i, b =>
    if i < threadNum then
      let e := (b + q) % 2 ^ w
      let e := if i < r then (e + 1) % 2 ^ w else e
      (b, e) :: rangeLoop w q r threadNum fuel (i + 1) e
    else []

/-- `threadNum` after parallel.hpp:62. -/
def threads (n threadNum : Nat) : Nat := if threadNum > n then n else threadNum

/-- The ranges of all threads (parallel.hpp:62-74). -/
def ranges (w n threadNum : Nat) : List (Nat × Nat) :=
  rangeLoop w (n / threads n threadNum) (n % threads n threadNum) (threads n threadNum) (threads n threadNum) 0 0

/-- Where a thread is. -/
inductive TPc where
  /-- `beginThread` was not called yet -/
  | none
  /-- before the test `i < end_` (parallel.hpp:41) -/
  | loop (i : Nat)
  /-- inside `(*t_)(i, threadIdx_)` (parallel.hpp:43) -/
  | call (i : Nat)
  /-- `threadEntry` has returned -/
  | done
  deriving DecidableEq, Repr

/-- Where the caller of `parallel_for` is. -/
inductive MPc where
  /-- before `thread[k].beginThread()` (parallel.hpp:75-77) -/
  | begin (k : Nat)
  /-- before or in `thread[k].joinThread()` (parallel.hpp:78-80) -/
  | join (k : Nat)
  /-- before the test of `thread[k].getErr()` (parallel.hpp:81-84) -/
  | check (k : Nat)
  /-- `beginThread` failed: before the derived part of `thread[k - 1]` is destroyed (array.hpp, `ScopedArray`) -/
  | destroy (k : Nat)
  /-- in `~ThreadBase` of `thread[k]`, which joins it (thread.hpp:196-199) -/
  | destroyJoin (k : Nat)
  /-- returned normally -/
  | returned
  /-- threw an exception with the error of thread `k` (parallel.hpp:83) -/
  | threw (k : Nat) (what : String)
  /-- threw the exception of parallel.hpp:76 -/
  | cantBegin
  deriving DecidableEq, Repr

/-- What `target` sees. -/
inductive Ev where
  /-- thread `k` calls `target(i, k)` -/
  | enter (k i : Nat)
  /-- the call ends -/
  | leave (k i : Nat) (out : Out)
  deriving DecidableEq, Repr

/-- The state of `parallel_for`: `err` are the members `err_`, `dead k` tells that the derived part of `thread[k]` is
destroyed, `trace` is what happened so far. -/
structure St where
  main : MPc
  thr : Nat → TPc
  err : Nat → String
  dead : Nat → Bool
  trace : List Ev

/-- The state before the first `beginThread` (parallel.hpp:75). -/
def St.init : St := ⟨.begin 0, fun _ => .none, fun _ => "", fun _ => false, []⟩

/-- Change at one place. -/
def upd {A : Type} (f : Nat → A) (k : Nat) (a : A) : Nat → A := fun j => if j = k then a else f j

/-- The steps; `rs` are the ranges of the threads. -/
inductive Step (rs : List (Nat × Nat)) : St → St → Prop where
  /-- `beginThread` succeeds: the thread is at the head of its loop (parallel.hpp:41, 76) -/
  | begin {s k r} : s.main = .begin k → rs[k]? = some r →
      Step rs s { s with main := .begin (k + 1), thr := upd s.thr k (.loop r.1) }
  /-- `beginThread` fails (parallel.hpp:76): the array is destroyed from its end -/
  | beginFails {s k} : s.main = .begin k → k < rs.length → Step rs s { s with main := .destroy rs.length }
  /-- all begun (parallel.hpp:75) -/
  | allBegun {s} : s.main = .begin rs.length → Step rs s { s with main := .join 0 }
  /-- `joinThread` returns (parallel.hpp:79) -/
  | join {s k} : s.main = .join k → k < rs.length → s.thr k = .done → Step rs s { s with main := .join (k + 1) }
  /-- all joined (parallel.hpp:78) -/
  | allJoined {s} : s.main = .join rs.length → Step rs s { s with main := .check 0 }
  /-- `err.empty()` (parallel.hpp:83) -/
  | checkNext {s k} : s.main = .check k → k < rs.length → s.err k = "" → Step rs s { s with main := .check (k + 1) }
  /-- `!err.empty()` (parallel.hpp:83) -/
  | checkThrow {s k} : s.main = .check k → k < rs.length → s.err k ≠ "" → Step rs s { s with main := .threw k (s.err k) }
  /-- the end (parallel.hpp:86) -/
  | return {s} : s.main = .check rs.length → Step rs s { s with main := .returned }
  /-- the derived part of an element is destroyed (parallel.hpp:18-23: `err_`, the virtual function) -/
  | destroy {s k} : s.main = .destroy (k + 1) → Step rs s { s with main := .destroyJoin k, dead := upd s.dead k true }
  /-- `~ThreadBase` has joined the thread, if there is one (thread.hpp:198, 215-222) -/
  | destroyJoin {s k} : s.main = .destroyJoin k → (s.thr k = .none ∨ s.thr k = .done) →
      Step rs s { s with main := .destroy k }
  /-- all destroyed, the exception leaves `parallel_for` -/
  | destroyed {s} : s.main = .destroy 0 → Step rs s { s with main := .cantBegin }
  /-- `i < end_`: the call (parallel.hpp:41-43) -/
  | enter {s k i r} : s.thr k = .loop i → rs[k]? = some r → i < r.2 →
      Step rs s { s with thr := upd s.thr k (.call i), trace := s.trace ++ [.enter k i] }
  /-- the end of the loop (parallel.hpp:41) -/
  | loopEnd {s k i r} : s.thr k = .loop i → rs[k]? = some r → r.2 ≤ i → Step rs s { s with thr := upd s.thr k .done }
  /-- the call returned `true`: `i++` (parallel.hpp:41-43) -/
  | yes {s k i} : s.thr k = .call i →
      Step rs s { s with thr := upd s.thr k (.loop (i + 1)), trace := s.trace ++ [.leave k i .yes] }
  /-- the call returned `false`: `break` (parallel.hpp:43) -/
  | no {s k i} : s.thr k = .call i →
      Step rs s { s with thr := upd s.thr k .done, trace := s.trace ++ [.leave k i .no] }
  /-- the call threw: `err_ = e.what(); break;` (parallel.hpp:44-47) -/
  | exn {s k i what} : s.thr k = .call i →
      Step rs s { s with thr := upd s.thr k .done, err := upd s.err k what, trace := s.trace ++ [.leave k i (.exn what)] }

/-- Any number of steps. -/
inductive Steps (rs : List (Nat × Nat)) : St → Nat → St → Prop where
  | nil {s} : Steps rs s 0 s
  | snoc {s n s' s''} : Steps rs s n s' → Step rs s' s'' → Steps rs s (n + 1) s''

/-- How `parallel_for(target, n, threadNum)` ends (parallel.hpp:58-86). -/
inductive End where
  | returned
  | threw (k : Nat) (what : String)
  | cantBegin
  | threadNumZero
  deriving DecidableEq, Repr

/-- `parallel_for(target, n, threadNum)` can end like this, having made these calls. -/
inductive Run (w n threadNum : Nat) : List Ev → End → Prop where
  /-- parallel.hpp:60 -/
  | zero : n = 0 → Run w n threadNum [] .returned
  /-- parallel.hpp:61 -/
  | noThread : n ≠ 0 → threadNum = 0 → Run w n threadNum [] .threadNumZero
  | returned {m s} : n ≠ 0 → threadNum ≠ 0 → Steps (ranges w n threadNum) St.init m s → s.main = .returned →
      Run w n threadNum s.trace .returned
  | threw {m s k what} : n ≠ 0 → threadNum ≠ 0 → Steps (ranges w n threadNum) St.init m s → s.main = .threw k what →
      Run w n threadNum s.trace (.threw k what)
  | cantBegin {m s} : n ≠ 0 → threadNum ≠ 0 → Steps (ranges w n threadNum) St.init m s → s.main = .cantBegin →
      Run w n threadNum s.trace .cantBegin

end Verif.Parallel
