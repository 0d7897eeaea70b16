import Verif.Model.Option
import Verif.Model.SocketSetup

/-!
# Model of `sample/socket_smpl.cpp`: the command line, and how the server begins to listen

The messages, `put`, the loop of the server behind `bind` and the client behind its arguments are left out (see C16, C28 and C80 for the calls
they make).
-/
namespace Verif.SocketSmpl
open Verif.Opt

abbrev Str := List UInt8

/-- The variables (socket_smpl.cpp:12-17). -/
inductive Val where
  | text (s : Str)
  | int (v : Int)
  | flag (b : Bool)
  deriving DecidableEq, Repr

/-- `convert(std::string*)` (option.hpp:114-119). -/
def setText (_ : Val) (s : Str) : Bool × Val := (true, .text s)

/-- `convert(bool*)` (option.hpp:106-112) for "1", the only text `parse` gives to a flag (option.hpp:569). -/
def setFlag (_ : Val) (_ : Str) : Bool × Val := (true, .flag true)

/-- `convert` for `int` and `uint16_t` (option.hpp:172-181) on the text with its terminating zero.  Simplified: a result other than a value is
written as a refusal; `convertInt` has no such result on a terminated text (C35). -/
def setInt (ty : IntTy) (v : Val) (s : Str) : Bool × Val :=
  match v with
  | .int x =>
    match convertInt ty x (s ++ [0]) with
    | .ok (b, y) => (b, .int y)
    | _ => (false, .int x)
  | v => (false, v)

/-- "ip" -/
def sIp : Str := [105, 112]
/-- "cmd" -/
def sCmd : Str := [99, 109, 100]
/-- ":string to send" -/
def sToSend : Str := [58, 115, 116, 114, 105, 110, 103, 32, 116, 111, 32, 115, 101, 110, 100]

/-- `Socket::allowIPv4`, `Socket::allowIPv6` (socket.hpp:574-575). -/
def allowIPv4 : Int := 1
def allowIPv6 : Int := 2

/-- The declarations (socket_smpl.cpp:20-25).  `appendParamOpt(&cmd, "cmd", ":string to send")` has the parameters variable, default
value and name (option.hpp:473-480). -/
def regs (mode : Int) : List (Reg Val) :=
  [.opt (.text []) setText .is1 false sIp,
   .opt (.flag false) setFlag .is0 false [118],
   .opt (.int mode) (setInt (.s Atoi.sint32)) .is1 false [109],
   .opt (.int 50000) (setInt (.u Atoi.uint16)) .is1 false [112],
   .opt (.int 5) (setInt (.s Atoi.sint32)) .is1 false [116],
   .paramOpt (.text sCmd) setText sToSend]

/-- What the program works with behind its command line (socket_smpl.cpp:46). -/
structure Config where
  ip : Str
  verbose : Bool
  mode : Int
  port : Int
  timeoutMsec : Int
  cmd : Str
  deriving DecidableEq, Repr

/-- How the command line ends: `exit(0)` of the help option, `return 1` behind the usage or behind "bad mode", or the work begins. -/
inductive Outcome where
  | help
  | usage
  | badMode
  | run (c : Config)
  deriving DecidableEq, Repr

/-- The `switch` (socket_smpl.cpp:26-39); `none` is `return 1`. -/
def switchMode (mode : Int) : _root_.Option Int :=
  if mode = 0 then some 3
  else if mode = 4 then some allowIPv4
  else if mode = 6 then some allowIPv6
  else none

/-- Assign the variable `mode`, the one of the option number 2, through its name (socket_smpl.cpp:28, 31, 34). -/
def assignMode (o : Opt.Option Val) (mode : Int) : Res (Opt.Option Val) := do
  let info ← at? o.infoVec 2
  return { o with infoVec := o.infoVec.set 2 { info with var := { info.var with st := .int mode } } }

/-- The value of `mode` as the `switch` sees it. -/
def readMode (o : Opt.Option Val) : Res Int := do
  let info ← at? o.infoVec 2
  match info.var.st with
  | .int v => return v
  | _ => .ub

/-- `const int timeoutMsec = timeoutSec * 1000` (socket_smpl.cpp:46): the overflow of `int` is undefined. -/
def toMsec (sec : Int) : Res Int :=
  if -2147483648 ≤ sec * 1000 ∧ sec * 1000 ≤ 2147483647 then .ok (sec * 1000) else .ub

/-- The variables after the parse (socket_smpl.cpp:12-17, 46). -/
def config (o : Opt.Option Val) : Res Config := do
  let ip ← at? o.infoVec 0
  let v ← at? o.infoVec 1
  let m ← at? o.infoVec 2
  let p ← at? o.infoVec 3
  let t ← at? o.infoVec 4
  let c ← at? o.paramVec 0
  match ip.var.st, v.var.st, m.var.st, p.var.st, t.var.st, c.var.st with
  | .text ip, .flag v, .int m, .int p, .int t, .text c => do
    let ms ← toMsec t
    return ⟨ip, v, m, p, ms, c⟩
  | _, _, _, _, _, _ => .ub

/-- The parse and what follows (socket_smpl.cpp:41-46). -/
def parseArgs (o : Opt.Option Val) (argv : List Str) : Res Outcome := do
  let (r, o) ← o.parse argv
  match r with
  | none => return .help
  | some false => return .usage
  | some true => do
    let c ← config o
    return .run c

/-- `main` up to line 46 (socket_smpl.cpp:9-46). -/
def main (argv : List Str) : Res Outcome := do
  let o ← Option.new.regs (regs 0)
  let m ← readMode o
  match switchMode m with
  | none => return .badMode
  | some m => do
    let o ← assignMode o m
    parseArgs o argv

/-- The server up to its loop (socket_smpl.cpp:47-50): whether `bind` returned, `sd_`, the calls.  `mode` goes to `bind` as it is. -/
def serve (c : Config) (a : SocketSetup.Srv) : Bool × _root_.Option Nat × List SocketSetup.Ev :=
  SocketSetup.bind (BitVec.ofInt 16 c.port) (BitVec.ofInt 32 c.mode) a

end Verif.SocketSmpl
