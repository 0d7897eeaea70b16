import Verif.Model.PartialIO

/-!
# Model of `SIGPIPE` in programs that include `include/cybozu/socket.hpp` (Linux)

`InstanceIsHere<>::it_` (socket.hpp:196-200) is constructed before `main`, but unordered with the other static objects of the program (it is a
static member of a template); its constructor ignores `SIGPIPE` for the whole process.  A `::write` to a connection whose other end is gone raises
the signal: by default the process is killed; otherwise the call fails with `EPIPE`.  `fork` and `execv` (`include/cybozu/process.hpp:145-178`) keep
an ignored signal ignored and reset a handled one to the default.
-/
namespace Verif.Sigpipe
open Verif.PartialIO (Dev Outcome wrapInt subSize)

/-- What happens on `SIGPIPE`. -/
inductive Disp where
  /-- the process is killed -/
  | dfl
  | ign
  /-- a function of the program -/
  | handler
  deriving DecidableEq

/-- What `::write` is going to do: as `PartialIO.Ans`, or the other end is gone. -/
inductive Ans where
  | move (k : Nat)
  | eintr
  | error
  | gone
  deriving DecidableEq

/-- How `Socket::write` ended. -/
inductive Sent where
  | done
  /-- an exception -/
  | failed
  /-- the process was killed -/
  | killed
  /-- the rounds are used up -/
  | running
  /-- memory outside of the buffer was touched -/
  | ub
  deriving DecidableEq

/-- A connection: the bytes the system has accepted, the answers to come, the number of calls so far. -/
structure Conn where
  out : List UInt8
  ans : Nat → Ans
  calls : Nat

/-- `Socket::write` (socket.hpp:505-530); `p` is an offset into `buf`. -/
def writeLoop (disp : Disp) : (fuel : Nat) → (buf : List UInt8) → (p : Int) → (bufSize : Nat) → Conn → Sent × Conn
  | 0, _, _, _, c => (.running, c)
  | fuel + 1, buf, p, bufSize, c =>
    if bufSize > 0 then
      let size := wrapInt 32 (min 0x7fffffff bufSize)
      if 0 ≤ p ∧ 0 ≤ size ∧ p.toNat + size.toNat ≤ buf.length then
        let bytes := (buf.drop p.toNat).take size.toNat
        match c.ans c.calls with
        | .gone => (if disp = .dfl then .killed else .failed, { c with calls := c.calls + 1 })
        | .error => (.failed, { c with calls := c.calls + 1 })
        | .eintr => writeLoop disp fuel buf p bufSize { c with calls := c.calls + 1 }
        | .move k =>
          let n : Nat := min k bytes.length
          let writeSize := wrapInt 32 n
          let c := { c with out := c.out ++ bytes.take n, calls := c.calls + 1 }
          if writeSize < 0 then (.failed, c) else writeLoop disp fuel buf (p + writeSize) (subSize bufSize writeSize) c
      else (.ub, c)
    else (.done, c)

/-- A process: its disposition of the signal and, as history, how its calls of `Socket::write` ended and the dispositions with which programs were
started; `alive` is false once it was killed. -/
structure Proc where
  disp : Disp
  alive : Bool
  sent : List Sent
  started : List Disp

/-- A process as the system starts it; the disposition is inherited. -/
def Proc.start (d : Disp) : Proc := ⟨d, true, [], []⟩

/-- What the program does with respect to the signal, before or in `main`. -/
inductive Act where
  /-- the constructor of `InitTerm` (socket.hpp:173-185) -/
  | init
  /-- the program calls `signal(SIGPIPE, d)` -/
  | signal (d : Disp)
  /-- `Socket::write` -/
  | write (fuel : Nat) (buf : List UInt8) (c : Conn)
  /-- a program is started (process.hpp:145-178) -/
  | exec

/-- The disposition after `execv` (process.hpp:178). -/
def execDisp : Disp → Disp
  | .ign => .ign
  | _ => .dfl

/-- One action. -/
def step (p : Proc) : Act → Proc
  | .init => { p with disp := .ign }
  | .signal d => { p with disp := d }
  | .write fuel buf c =>
    let r := (writeLoop p.disp fuel buf 0 buf.length c).1
    { p with sent := p.sent ++ [r], alive := decide (r ≠ .killed) }
  | .exec => { p with started := p.started ++ [execDisp p.disp] }

/-- A program; a killed process does nothing more. -/
def run : Proc → List Act → Proc
  | p, [] => p
  | p, a :: as => if p.alive then run (step p a) as else p

end Verif.Sigpipe
