import Verif.Model.Process
/-!
# `process::Start` (`include/cybozu/process.hpp:142-201`) called by several threads at once

As in `Verif/Model/Process.lean`, with any number of calls, each in a thread of its own: the threads share the table of descriptors of the
process, every call forks its own child.  A step is one system call; an execution is any interleaving of the steps of all threads and all
children.  `pipe`, `fcntl` and `fork` may fail, a signal may interrupt the `read` of a calling thread.  Simplified: `closeStdio` is `false`
(as in the second form of `run`, process.hpp:310); the destructor of `Pipe` is one step with the system call before it.
-/
namespace Verif.ProcMany
open Verif.Handle (upd)

/-- What an open descriptor refers to: the ends of the pipe of call `i`, anything else. -/
inductive Obj where
  | pipeR (i : Nat) | pipeW (i : Nat) | other
  deriving DecidableEq, Repr

/-- A table of descriptors: the object and the flag FD_CLOEXEC; `none` is closed. -/
abbrev Fds := Nat → Option (Obj × Bool)

/-- Where a calling thread is (process.hpp:143-201). -/
inductive PPc where
  /-- before `::pipe` -/
  | idle
  /-- between `::pipe` and `::fcntl` -/
  | piped
  /-- before `fork` -/
  | ready
  | closeW
  | read
  /-- `Start` returned what it read -/
  | done (b : Bool)
  /-- `Start` returned `false` because `pipe`, `fcntl` or `fork` failed -/
  | refused
  /-- `Start` returned `true` because a signal interrupted `read` -/
  | cut
  deriving DecidableEq, Repr

/-- Where a child is (process.hpp:154-186). -/
inductive CPc where
  | unborn
  | closeR
  | closeFds
  | exec
  /-- at ERR_EXIT, before `pipe.write` -/
  | err
  | closeW
  | exit
  /-- after `::exit(1)` -/
  | exited
  /-- `execv` succeeded: the new program runs -/
  | running
  /-- the new program has ended -/
  | ended
  deriving DecidableEq, Repr

/-- The table of the process and, for every call, where its thread is, `fd_[0]` and `fd_[1]` of its `Pipe` (process.hpp:43), its child and
the bytes in its pipe. -/
structure St where
  par : Fds
  pp : Nat → PPc
  rfd : Nat → Nat
  wfd : Nat → Nat
  chd : Nat → Fds
  cp : Nat → CPc
  buf : Nat → Nat

/-- Before the calls. -/
def St.start (fds : Fds) : St := ⟨fds, fun _ => .idle, fun _ => 0, fun _ => 0, fun _ _ => none, fun _ => .unborn, fun _ => 0⟩

/-- No writer of the pipe of call `i` is left, in any process. -/
def NoWriter (s : St) (i : Nat) : Prop := (∀ fd b, s.par fd ≠ some (.pipeW i, b)) ∧ ∀ j fd b, s.chd j fd ≠ some (.pipeW i, b)

/-- The table after `fcntl(fd, F_SETFD, FD_CLOEXEC)` (process.hpp:57). -/
def setCloexec (t : Fds) (fd : Nat) : Fds := upd t fd ((t fd).map fun p => (p.1, true))

/-- The bytes in the pipes after `write(fd, "x", 1)` (process.hpp:183). -/
def writeTo (buf : Nat → Nat) (o : Option (Obj × Bool)) : Nat → Nat :=
  match o with
  | some (.pipeW k, _) => upd buf k (buf k + 1)
  | _ => buf

/-- The steps; `m i` is `maxFd` of call `i`, which is indeterminate (process.hpp:172). -/
inductive Step (m : Nat → Nat) : St → St → Prop where
  /-- `::pipe` gives two closed descriptors (process.hpp:54) -/
  | pipe {s} (i r w : Nat) : s.pp i = .idle → s.par r = none → s.par w = none → r ≠ w →
      Step m s { s with par := upd (upd s.par r (some (.pipeR i, false))) w (some (.pipeW i, false)), pp := upd s.pp i .piped,
                        rfd := upd s.rfd i r, wfd := upd s.wfd i w }
  /-- `::pipe` fails (process.hpp:54-56, 145-147) -/
  | pipeFails {s} (i : Nat) : s.pp i = .idle → Step m s { s with pp := upd s.pp i .refused }
  /-- `::fcntl` fails (process.hpp:57-59, 145-147), then the destructor of `Pipe` (77-81) -/
  | fcntlFails {s} (i : Nat) : s.pp i = .piped →
      Step m s { s with par := upd (upd s.par (s.rfd i) none) (s.wfd i) none, pp := upd s.pp i .refused }
  /-- `fork` fails (process.hpp:151-152), then the destructor of `Pipe` -/
  | forkFails {s} (i : Nat) : s.pp i = .ready →
      Step m s { s with par := upd (upd s.par (s.rfd i) none) (s.wfd i) none, pp := upd s.pp i .refused }
  /-- `::fcntl` (process.hpp:57) -/
  | fcntl {s} (i : Nat) : s.pp i = .piped → Step m s { s with par := setCloexec s.par (s.wfd i), pp := upd s.pp i .ready }
  /-- `fork` (process.hpp:149): the child has a copy of the table as it is now -/
  | fork {s} (i : Nat) : s.pp i = .ready →
      Step m s { s with pp := upd s.pp i .closeW, chd := upd s.chd i s.par, cp := upd s.cp i .closeR }
  /-- `pipe.close(Pipe::Write)` (process.hpp:188) -/
  | parentClose {s} (i : Nat) : s.pp i = .closeW → Step m s { s with par := upd s.par (s.wfd i) none, pp := upd s.pp i .read }
  /-- `pipe.read(buf, 1) == 1` (process.hpp:195-198), then the destructor of `Pipe` (77-81) -/
  | parentRead {s} (i : Nat) : s.pp i = .read → 0 < s.buf i →
      Step m s { s with par := upd s.par (s.rfd i) none, buf := upd s.buf i (s.buf i - 1), pp := upd s.pp i (.done false) }
  /-- the read meets the end of the pipe (process.hpp:195, 200-201), then the destructor of `Pipe` -/
  | parentEof {s} (i : Nat) : s.pp i = .read → s.buf i = 0 → NoWriter s i →
      Step m s { s with par := upd s.par (s.rfd i) none, pp := upd s.pp i (.done true) }
  /-- `pipe.read` gives -1 because a signal whose handler was installed without `SA_RESTART` came, as `QuitSignalHandler` does
  (quit_signal_handler.hpp:47-53): this is not 1 (process.hpp:195, 200-201), then the destructor of `Pipe` -/
  | interrupted {s} (i : Nat) : s.pp i = .read → Step m s { s with par := upd s.par (s.rfd i) none, pp := upd s.pp i .cut }
  /-- the child: `pipe.close(Pipe::Read)` (process.hpp:155) -/
  | closeR {s} (i : Nat) : s.cp i = .closeR →
      Step m s { s with chd := upd s.chd i (upd (s.chd i) (s.rfd i) none), cp := upd s.cp i .closeFds }
  /-- the child closes the descriptors from 3 below `maxFd` (process.hpp:173-175) -/
  | closeFds {s} (i : Nat) : s.cp i = .closeFds →
      Step m s { s with chd := upd s.chd i (fun fd => if 3 ≤ fd ∧ fd < m i then none else s.chd i fd), cp := upd s.cp i .exec }
  /-- the child: `execv` succeeds, the descriptors marked FD_CLOEXEC are closed (process.hpp:178) -/
  | exec {s} (i : Nat) : s.cp i = .exec →
      Step m s { s with chd := upd s.chd i (fun fd => (s.chd i fd).filter (fun p => !p.2)), cp := upd s.cp i .running }
  /-- the child: `execv` fails -/
  | execFails {s} (i : Nat) : s.cp i = .exec → Step m s { s with cp := upd s.cp i .err }
  /-- the child: `pipe.write("x", 1)` (process.hpp:183) -/
  | write {s} (i : Nat) : s.cp i = .err →
      Step m s { s with buf := writeTo s.buf (s.chd i (s.wfd i)), cp := upd s.cp i .closeW }
  /-- the child: `pipe.write` to a pipe that no one reads any more ends the child with SIGPIPE (process.hpp:183); if the signal is ignored
  the step is `write` -/
  | killed {s} (i : Nat) : s.cp i = .err → s.pp i = .cut → Step m s { s with chd := upd s.chd i (fun _ => none), cp := upd s.cp i .exited }
  /-- the child: `pipe.close(Pipe::Write)` (process.hpp:184) -/
  | childCloseW {s} (i : Nat) : s.cp i = .closeW →
      Step m s { s with chd := upd s.chd i (upd (s.chd i) (s.wfd i) none), cp := upd s.cp i .exit }
  /-- the child: `::exit(1)` (process.hpp:185) -/
  | exit {s} (i : Nat) : s.cp i = .exit → Step m s { s with chd := upd s.chd i (fun _ => none), cp := upd s.cp i .exited }
  /-- the program that was started ends -/
  | ends {s} (i : Nat) : s.cp i = .running → Step m s { s with chd := upd s.chd i (fun _ => none), cp := upd s.cp i .ended }

/-- Executions. -/
inductive Steps (m : Nat → Nat) : St → St → Prop where
  | refl {s} : Steps m s s
  | tail {s t u} : Steps m s t → Step m t u → Steps m s u

end Verif.ProcMany
