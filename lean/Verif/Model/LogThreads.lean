import Verif.Model.Log

/-!
# Model of the logger of `include/cybozu/log.hpp` used by several threads

Any number of threads (numbered by `Nat`) call `PutLog` or destroy `Log` objects, and call `OpenLogFile`.  A step is one access to `fp_` with
the library call that uses it.  A call of `fprintf` or `fflush` on a file is atomic (the C library locks the `FILE`), the buffer may be written
out in part at any time.  Every `fopen` gives a new number.  Plain accesses to the members of `Logger` are sequentially consistent; in C++ they
are data races when `OpenLogFile` runs at the same time as another call.

Not modelled here (see `Model/Log`): failures of `fopen`, `fclose`, `fprintf`, `fflush` and of formatting, `SetLogFILE`, changes of the
priority, of `useSyslog` and of `useMsec` while threads run.
-/
namespace Verif.LogThreads
open Verif.Log (Text cstr)

/-- A line that `fprintf` was called for: the thread, the file, the time stamp, the text (log.hpp:50). -/
structure Entry where
  thr : Nat
  file : Nat
  stamp : Nat
  text : Text
  deriving DecidableEq, Repr

/-- The bytes of a line (log.hpp:50). -/
def line (fmt : Nat → Text) (e : Entry) : Text := fmt e.stamp ++ [32] ++ cstr e.text ++ [10]

/-- Where a thread is. -/
inductive Pc where
  | idle
  /-- in `put`, before `cybozu::Time cur(true)` (log.hpp:49) -/
  | stamp (p : Nat) (text : Text)
  /-- before `fprintf` (log.hpp:50) -/
  | print (p : Nat) (text : Text) (stamp : Nat)
  /-- before `fflush` (log.hpp:53) -/
  | flush (p : Nat) (text : Text)
  /-- before `syslog` (log.hpp:57-69) -/
  | sys (p : Nat) (text : Text)
  /-- in `openFile`, before `fclose` (log.hpp:97, 123-128) -/
  | closing (h : Nat)
  /-- before `fp_ = NULL` (log.hpp:129) -/
  | clearing (h : Nat)
  /-- before `fp_ = fp` (log.hpp:98-100) -/
  | setting (h : Nat)
  deriving DecidableEq, Repr

/-- The thread is in `openFile`. -/
def Pc.opening : Pc → Bool
  | .closing _ | .clearing _ | .setting _ => true
  | _ => false

/-- The logger (log.hpp:27-31), the files with their buffers, the threads.  `base` is what a file contained when it was opened, `asked` the calls
of each thread, `log` the calls of `fprintf` in order, `sysl` those of `syslog`; `bad`: a file was used that is not open. -/
structure St where
  fp : Option Nat
  doClose : Bool
  useSys : Bool
  opened : Nat → Bool
  base : Nat → Text
  disk : Nat → Text
  buf : Nat → Text
  clock : Nat
  pc : Nat → Pc
  asked : Nat → List (Nat × Text)
  log : List Entry
  sysl : List (Nat × Nat × Text)
  bad : Bool

/-- Function update. -/
def upd {α : Type} (f : Nat → α) (i : Nat) (v : α) : Nat → α := fun j => if j = i then v else f j

/-- The logger writes to a file (`stderr` at the start of a program, log.hpp:33-40) that contains `c`; nobody is inside. -/
def St.start (h : Nat) (c : Text) : St :=
  ⟨some h, false, true, fun k => k == h, upd (fun _ => []) h c, upd (fun _ => []) h c, fun _ => [], 0, fun _ => .idle, fun _ => [], [], [], false⟩

/-- The steps of thread `t`.  `pri` is the priority of the logger, `fmt` shows a time.  `ser`: nobody calls `openFile` while a thread is in a
function of the logger, nor the other way round, as the comment in log.hpp:84-87 asks for. -/
inductive Step (fmt : Nat → Text) (pri : Nat) (ser : Bool) : St → Nat → St → Prop where
  /-- a call of `put` with a lower priority returns at once (log.hpp:47, 73) -/
  | low {s t p text} : s.pc t = .idle → p < pri → (ser = true → ∀ u, (s.pc u).opening = false) →
      Step fmt pri ser s t { s with asked := upd s.asked t (s.asked t ++ [(p, text)]) }
  /-- a call of `put` (log.hpp:47-48) -/
  | call {s t p text} : s.pc t = .idle → pri ≤ p → s.fp ≠ none → (ser = true → ∀ u, (s.pc u).opening = false) →
      Step fmt pri ser s t { s with asked := upd s.asked t (s.asked t ++ [(p, text)]), pc := upd s.pc t (.stamp p text) }
  /-- a call of `put` while `fp_` is null (log.hpp:47-48, 57) -/
  | callNull {s t p text} : s.pc t = .idle → pri ≤ p → s.fp = none → (ser = true → ∀ u, (s.pc u).opening = false) →
      Step fmt pri ser s t { s with asked := upd s.asked t (s.asked t ++ [(p, text)]), pc := upd s.pc t (.sys p text) }
  /-- `cybozu::Time cur(true)` (log.hpp:49) -/
  | time {s t p text} : s.pc t = .stamp p text → Step fmt pri ser s t { s with pc := upd s.pc t (.print p text s.clock) }
  /-- `fprintf(fp_, ...)` (log.hpp:50) -/
  | print {s t p text c h} : s.pc t = .print p text c → s.fp = some h → s.opened h = true →
      Step fmt pri ser s t { s with
        buf := upd s.buf h (s.buf h ++ line fmt ⟨t, h, c, text⟩), log := s.log ++ [⟨t, h, c, text⟩], pc := upd s.pc t (.flush p text) }
  /-- `fprintf` on no file or on a closed one (log.hpp:50) -/
  | printBad {s t p text c} : s.pc t = .print p text c → (∀ h, s.fp = some h → s.opened h = false) →
      Step fmt pri ser s t { s with bad := true, pc := upd s.pc t (.flush p text) }
  /-- `fflush(fp_)` (log.hpp:53) -/
  | flush {s t p text h} : s.pc t = .flush p text → s.fp = some h → s.opened h = true →
      Step fmt pri ser s t { s with disk := upd s.disk h (s.disk h ++ s.buf h), buf := upd s.buf h [], pc := upd s.pc t (.sys p text) }
  /-- `fflush(NULL)` flushes all files (log.hpp:53) -/
  | flushAll {s t p text} : s.pc t = .flush p text → s.fp = none →
      Step fmt pri ser s t { s with disk := fun h => s.disk h ++ s.buf h, buf := fun _ => [], pc := upd s.pc t (.sys p text) }
  /-- `fflush` on a closed file (log.hpp:53) -/
  | flushBad {s t p text h} : s.pc t = .flush p text → s.fp = some h → s.opened h = false →
      Step fmt pri ser s t { s with bad := true, pc := upd s.pc t (.sys p text) }
  /-- `syslog`, if it is used, and the return (log.hpp:57-70) -/
  | sys {s t p text} : s.pc t = .sys p text →
      Step fmt pri ser s t { s with sysl := if s.useSys then s.sysl ++ [(t, p, text)] else s.sysl, pc := upd s.pc t .idle }
  /-- `fopen` in `openFile` (log.hpp:90-96); the file contains `c` -/
  | open {s t h c} : s.pc t = .idle → s.opened h = false → s.fp ≠ some h → (∀ e ∈ s.log, e.file ≠ h) → (ser = true → ∀ u, s.pc u = .idle) →
      Step fmt pri ser s t { s with
        opened := upd s.opened h true, base := upd s.base h c, disk := upd s.disk h c, buf := upd s.buf h [], pc := upd s.pc t (.closing h) }
  /-- `closeFile` that has nothing to close (log.hpp:97, 123) -/
  | keep {s t h} : s.pc t = .closing h → s.doClose = false ∨ s.fp = none → Step fmt pri ser s t { s with pc := upd s.pc t (.setting h) }
  /-- `fclose(fp_)` (log.hpp:128) -/
  | close {s t h k} : s.pc t = .closing h → s.doClose = true → s.fp = some k → s.opened k = true →
      Step fmt pri ser s t { s with
        opened := upd s.opened k false, disk := upd s.disk k (s.disk k ++ s.buf k), buf := upd s.buf k [], pc := upd s.pc t (.clearing h) }
  /-- `fclose` of a file that is closed already (log.hpp:128) -/
  | closeBad {s t h k} : s.pc t = .closing h → s.doClose = true → s.fp = some k → s.opened k = false →
      Step fmt pri ser s t { s with bad := true, pc := upd s.pc t (.clearing h) }
  /-- `fp_ = NULL` (log.hpp:129) -/
  | clear {s t h} : s.pc t = .clearing h → Step fmt pri ser s t { s with fp := none, pc := upd s.pc t (.setting h) }
  /-- the end of `openFile` (log.hpp:98-101) -/
  | set {s t h} : s.pc t = .setting h →
      Step fmt pri ser s t { s with fp := some h, doClose := true, useSys := false, pc := upd s.pc t .idle }
  /-- time goes by -/
  | tick {s t} : Step fmt pri ser s t { s with clock := s.clock + 1 }
  /-- the C library writes `n` bytes of a buffer -/
  | spill {s t h n} : Step fmt pri ser s t { s with disk := upd s.disk h (s.disk h ++ (s.buf h).take n), buf := upd s.buf h ((s.buf h).drop n) }

/-- Executions. -/
inductive Steps (fmt : Nat → Text) (pri : Nat) (ser : Bool) : St → St → Prop where
  | refl {s} : Steps fmt pri ser s s
  | tail {s s' t s''} : Steps fmt pri ser s s' → Step fmt pri ser s' t s'' → Steps fmt pri ser s s''

end Verif.LogThreads
