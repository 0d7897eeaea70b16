import Verif.Model.Handle
import Verif.Model.Common
/-!
# Model of `include/cybozu/process.hpp`

`Start` on a POSIX system (process.hpp:142-201) is two programs running side by side after `fork`: the parent and the child. A step
is one system call of one of them, an execution is any interleaving. What a system call may do (`open`, `dup2`, `execv` may fail) is
left open: there is a step for each outcome. `fork` and `pipe` failing is the return of `false` (process.hpp:145-152), for which see
`Model/ProcMany.lean`, as for several calls at once. `maxFd`, the upper end of the loop closing the descriptors, is initialised with itself (process.hpp:172) when `sysconf`
succeeds, so its value is indeterminate: here it is any number `m`, a parameter of the execution. `isAlive` follows after that, and
the command line of the Windows version.
-/
namespace Verif.Process

/-- What an open descriptor refers to: the two ends of the pipe of this call, `/dev/null`, anything else. -/
inductive Obj where
  | pipeR | pipeW | null | other
  deriving DecidableEq, Repr

/-- A table of descriptors: the object and the flag FD_CLOEXEC; `none` is closed. -/
abbrev Fds := Nat → Option (Obj × Bool)

/-- Where the parent is (process.hpp:188-201). -/
inductive PPc where
  | closeW
  | read
  /-- `Start` returned -/
  | done (b : Bool)
  deriving DecidableEq, Repr

/-- Where the child is (process.hpp:155-185); `null k`: before `toDevNull(k, ...)`. -/
inductive CPc where
  | closeR
  | null (k : Nat)
  | closeFds
  | exec
  /-- at ERR_EXIT, before `pipe.write` -/
  | err
  | closeW
  | exit
  | exited
  /-- `execv` succeeded: the new program runs -/
  | running
  deriving DecidableEq, Repr

structure St where
  par : Fds
  chd : Fds
  pp : PPc
  cp : CPc
  /-- bytes in the pipe -/
  buf : Nat

/-- The parameters of a call: the two descriptors `pipe` gave, `maxFd`, `closeStdio`. -/
structure Call where
  r : Nat
  w : Nat
  m : Nat
  closeStdio : Bool

/-- The state after `pipe.init()` and `fork` (process.hpp:52-61, 143-149): both processes have the descriptors `fds` of the caller
and the two ends of the pipe. -/
def St.start (c : Call) (fds : Fds) : St :=
  let t : Fds := Handle.upd (Handle.upd fds c.r (some (.pipeR, false))) c.w (some (.pipeW, true))
  ⟨t, t, .closeW, .closeR, 0⟩

/-- What the child does after closing the read end, and after `toDevNull(k, ...)` (process.hpp:165-169). -/
def afterCloseR (c : Call) : CPc := if c.closeStdio then .null 0 else .closeFds
def afterNull (k : Nat) : CPc := if k < 2 then .null (k + 1) else .closeFds

/-- No writer of the pipe is left. -/
def NoWriter (s : St) : Prop := (∀ fd b, s.par fd ≠ some (.pipeW, b)) ∧ ∀ fd b, s.chd fd ≠ some (.pipeW, b)

/-- The steps. -/
inductive Step (c : Call) : St → St → Prop where
  /-- the parent: `pipe.close(Pipe::Write)` (process.hpp:188) -/
  | parentClose {s} : s.pp = .closeW → Step c s { s with par := Handle.upd s.par c.w none, pp := .read }
  /-- the parent: `pipe.read(buf, 1) == 1` (process.hpp:195-198) -/
  | parentRead {s} : s.pp = .read → 0 < s.buf → Step c s { s with buf := s.buf - 1, pp := .done false }
  /-- the parent: the read meets the end of the pipe (process.hpp:195, 200-201) -/
  | parentEof {s} : s.pp = .read → s.buf = 0 → NoWriter s → Step c s { s with pp := .done true }
  /-- the child: `pipe.close(Pipe::Read)` (process.hpp:155) -/
  | closeR {s} : s.cp = .closeR → Step c s { s with chd := Handle.upd s.chd c.r none, cp := afterCloseR c }
  /-- the child: `toDevNull(k, ...)` succeeds: `open` gives a closed descriptor `n`, `dup2` makes `k` another name of it, `n` is
  closed, even if `n` is `k` (process.hpp:84-93) -/
  | null {s k n} : s.cp = .null k → s.chd n = none →
      Step c s { s with chd := Handle.upd (Handle.upd s.chd k (some (.null, false))) n none, cp := afterNull k }
  /-- the child: `open` or `dup2` in `toDevNull` fails (process.hpp:88, 90-92, 166-168) -/
  | nullFails {s k} : s.cp = .null k → Step c s { s with cp := .err }
  /-- the child closes the descriptors from 3 below `maxFd` (process.hpp:173-175) -/
  | closeFds {s} : s.cp = .closeFds →
      Step c s { s with chd := fun fd => if 3 ≤ fd ∧ fd < c.m then none else s.chd fd, cp := .exec }
  /-- the child: `execv` succeeds, the descriptors marked FD_CLOEXEC are closed (process.hpp:178) -/
  | exec {s} : s.cp = .exec →
      Step c s { s with chd := fun fd => (s.chd fd).filter (fun p => !p.2), cp := .running }
  /-- the child: `execv` fails -/
  | execFails {s} : s.cp = .exec → Step c s { s with cp := .err }
  /-- the child: `pipe.write("x", 1)` puts a byte into the pipe if the descriptor is still its write end (process.hpp:183) -/
  | write {s} : s.cp = .err →
      Step c s { s with buf := if s.chd c.w = some (.pipeW, true) then s.buf + 1 else s.buf, cp := .closeW }
  /-- the child: `pipe.close(Pipe::Write)` (process.hpp:184) -/
  | childCloseW {s} : s.cp = .closeW → Step c s { s with chd := Handle.upd s.chd c.w none, cp := .exit }
  /-- the child: `::exit(1)` (process.hpp:185) -/
  | exit {s} : s.cp = .exit → Step c s { s with chd := fun _ => none, cp := .exited }

/-- Executions. -/
inductive Steps (c : Call) : St → St → Prop where
  | refl {s} : Steps c s s
  | tail {s t u} : Steps c s t → Step c t u → Steps c s u

/-! ### `isAlive` -/

/-- How a process ended, and the status `waitpid` stores for it: `WIFEXITED` is "the low 7 bits are 0", `WEXITSTATUS` the second
byte. -/
inductive End where
  | exited (code : Nat)
  | killed (sig : Nat)
  deriving DecidableEq, Repr

def End.status : End → Nat
  | .exited code => code % 256 * 256
  | .killed sig => sig

/-- The child as the kernel sees it: running, ended but not waited for, gone. -/
inductive Kid where
  | running
  | zombie (e : End)
  | gone
  deriving DecidableEq, Repr

/-- `process::IsAlive` after `isAlive` set the code to 0 (process.hpp:222-252, 316-320), `valid` is `isValid()`: the return value,
`*exitCode`, and the kernel's state afterwards. `waitpid(.., WNOHANG)` gives 0 for a running child, the pid and the status of an
ended one, which is gone then, and -1 if there is no such child. -/
def isAlive (valid : Bool) (k : Kid) : Bool × Int × Kid :=
  if valid then
    match k with
    | .running => (true, 0, .running)
    | .zombie e =>
      (false, if e.status % 128 = 0 then ((e.status / 256 % 256 : Nat) : Int) else -1, .gone)
    | .gone => (false, 0, .gone)
  else (false, 0, k)

/-- What happens to the object and the child over time: a call of `isAlive`, or the child ends. -/
inductive Ev where
  | ask
  | ends (e : End)
  deriving DecidableEq, Repr

/-- The answers of the calls. -/
def watch : Kid → List Ev → List (Bool × Int)
  | _, [] => []
  | k, .ask :: es => let a := isAlive true k; (a.1, a.2.1) :: watch a.2.2 es
  | .running, .ends e :: es => watch (.zombie e) es
  | k, .ends _ :: es => watch k es

/-! ### The command line on Windows -/

/-- `escape` (process.hpp:97-109); characters are bytes, 34 is the quotation mark, 92 the backslash. -/
def escape : List UInt8 → List UInt8
  | [] => []
  | c :: cs => if c = 34 then 92 :: 34 :: escape cs else c :: escape cs

/-- The command line `Start` builds (process.hpp:123-127); the final `'\0'` (process.hpp:129) ends it. -/
def cmdLine (exe : List UInt8) (args : List (List UInt8)) : List UInt8 :=
  34 :: exe ++ 34 :: (args.map (fun a => 32 :: 34 :: escape a ++ [34])).flatten

/-- The arguments of the second form of `run` (process.hpp:298-311). -/
def runArgs (ps : List (List UInt8)) : List (List UInt8) := ps.filter (fun p => !p.isEmpty)

end Verif.Process
