/-!
# Model of mutexes and scoped locks

Source: `/repo/include/cybozu/mutex.hpp`, `/repo/include/cybozu/critical_section.hpp`.

Threads run programs made of guarded blocks (`{ AutoLock lk(m); body }`), accesses to shared variables, exceptions and
`try` blocks.  Every access is its own step, and an update `v = f(v)` is two steps (read, write), so that other threads
can come in between.  The memory is sequentially consistent (simplification); the operating system's mutex is a
parameter: `rec = false` is a default pthread mutex, `rec = true` a Windows mutex or critical section.
-/
namespace Verif.AutoLock

/-- For each mutex its owner and how often the owner has locked it (`hdl_`, mutex.hpp:139; critical_section.hpp:55);
`none` is an unlocked mutex, as `MutexInit` (mutex.hpp:30-34, 61-75) and `CsInit` (critical_section.hpp:19, 25) leave it. -/
abbrev Own := Nat → Option (Nat × Nat)

/-- `f` with the value at `i` replaced (assignment to one of many variables; no code of its own). -/
def put {α : Type} (f : Nat → α) (i : Nat) (x : α) : Nat → α := fun j => if j = i then x else f j

/-- `Mutex::lock` by thread `t` (mutex.hpp:35, 76, 122-125; critical_section.hpp:20, 26, 44-47).  `none`: the call waits.
A mutex that is already owned by the caller can be locked again on Windows; `pthread_mutex_lock` on a default mutex
waits for ever. -/
def lock (rec : Bool) (own : Own) (m t : Nat) : Option Own :=
  match own m with
  | none => some (put own m (some (t, 1)))
  | some (u, c) => if rec && u == t then some (put own m (some (t, c + 1))) else none

/-- `Mutex::unlock` by thread `t` (mutex.hpp:53-57, 88, 132-135; critical_section.hpp:21, 27, 48-51).  `none`: the caller
does not own the mutex, which is undefined for pthread mutexes and an error on Windows. -/
def unlock (own : Own) (m t : Nat) : Option Own :=
  match own m with
  | some (u, c + 1) => if u = t then some (put own m (if c = 0 then none else some (t, c))) else none
  | _ => none

/-- What a thread runs.  User code, not code of the library, except for `guarded` and `copied`. -/
inductive Prog where
  /-- the end of the block -/
  | done
  /-- `v[m] = f(v[m]);` (two accesses) -/
  | update (m : Nat) (f : Int → Int) (k : Prog)
  /-- `if (p(v[m])) throw ...;` -/
  | throwIf (m : Nat) (p : Int → Bool) (k : Prog)
  /-- `{ AutoLock lk(m); body }` (mutex.hpp:92-107) -/
  | guarded (m : Nat) (body k : Prog)
  /-- `try { body } catch (...) { }` -/
  | attempt (body k : Prog)
  /-- `{ AutoLock lk2(lk); body }` where `lk` guards `m`: only the assignment is private (mutex.hpp:106), the copy
  constructor is the one of the compiler, which copies the reference `t_` and does not lock -/
  | copied (m : Nat) (body k : Prog)

/-- What waits on a thread's stack: the destructor of a scoped lock (mutex.hpp:100-103) or the end of a `try` block, each
with the code behind it. -/
inductive Frame where
  | guard (m : Nat) (k : Prog)
  | tried (k : Prog)

/-- Where a thread is. -/
inductive Th where
  /-- running a block -/
  | run (p : Prog) (st : List Frame)
  /-- between the read (of `x`) and the write of an update -/
  | store (m : Nat) (x : Int) (f : Int → Int) (p : Prog) (st : List Frame)
  /-- an exception is on its way -/
  | unwind (st : List Frame)

/-- All threads, mutexes and variables; `log` has the updates of each variable in the order of their writes (a history
variable, not in the code). -/
structure St where
  th : Nat → Th
  own : Own
  val : Nat → Int
  log : Nat → List (Int → Int)

/-- One step of thread `t`; `none` if it is finished, waits, or would unlock a mutex that it does not own.
The constructor `AutoLockT` calls `lock` (mutex.hpp:95-99), the destructor `unlock` (mutex.hpp:100-103), at the end of
the block and when an exception passes through it. -/
def step (rec : Bool) (t : Nat) (s : St) : Option St :=
  match s.th t with
  | .run .done [] => none
  | .run .done (.guard m k :: st) => (unlock s.own m t).map fun o => { s with own := o, th := put s.th t (.run k st) }
  | .run .done (.tried k :: st) => some { s with th := put s.th t (.run k st) }
  | .run (.update m f k) st => some { s with th := put s.th t (.store m (s.val m) f k st) }
  | .run (.throwIf m p k) st => some { s with th := put s.th t (if p (s.val m) then .unwind st else .run k st) }
  | .run (.guarded m b k) st =>
    (lock rec s.own m t).map fun o => { s with own := o, th := put s.th t (.run b (.guard m k :: st)) }
  | .run (.attempt b k) st => some { s with th := put s.th t (.run b (.tried k :: st)) }
  | .run (.copied m b k) st => some { s with th := put s.th t (.run b (.guard m k :: st)) }
  | .store m x f k st =>
    some { s with val := put s.val m (f x), log := put s.log m (s.log m ++ [f]), th := put s.th t (.run k st) }
  | .unwind [] => none
  | .unwind (.guard m _ :: st) => (unlock s.own m t).map fun o => { s with own := o, th := put s.th t (.unwind st) }
  | .unwind (.tried k :: st) => some { s with th := put s.th t (.run k st) }

/-- `n` steps of any threads (the scheduler is arbitrary). -/
inductive Steps (rec : Bool) : Nat → St → St → Prop where
  | refl (s : St) : Steps rec 0 s s
  | step {n : Nat} {s s' s'' : St} {t : Nat} : Steps rec n s s' → step rec t s' = some s'' → Steps rec (n + 1) s s''

/-- The start: all mutexes are unlocked. -/
def start (val : Nat → Int) (prog : Nat → Prog) : St := ⟨fun t => .run (prog t) [], fun _ => none, val, fun _ => []⟩

/-- The thread has come to its end, normally or by an exception that nobody caught. -/
def Th.Finished : Th → Prop
  | .run .done [] => True
  | .unwind [] => True
  | _ => False

end Verif.AutoLock
