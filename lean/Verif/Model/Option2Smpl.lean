import Verif.Model.Option

/-!
# Model of `sample/option2_smpl.cpp`: common options, a command, options of the command

The conversion of the texts (`convert` for `int`, `std::string`, `double`, `char`) is a parameter, see C35 for `int`.  The messages and
`put` are left out.
-/
namespace Verif.Option2Smpl
open Verif.Opt

abbrev Str := List UInt8

/-- The types of the variables (option2_smpl.cpp:10-18). -/
inductive Kind where
  | int | str | dbl | chr
  deriving DecidableEq, Repr

/-- Values, defaults and conversions. -/
structure Conv (α : Type) where
  dflt : Kind → α
  step : Kind → α → Str → Bool × α

/-- "init" -/
def sInit : Str := [105, 110, 105, 116]
/-- "run" -/
def sRun : Str := [114, 117, 110]
/-- "status" -/
def sStatus : Str := [115, 116, 97, 116, 117, 115]

/-- The declarations of `opt1` (option2_smpl.cpp:23-27); `setUsage` is not modelled. -/
def regs1 {α : Type} (c : Conv α) : List (Reg α) :=
  [.opt (c.dflt .int) (c.step .int) .is1 false [120], .appendDelimiter sInit, .appendDelimiter sRun, .appendDelimiter sStatus,
    .help [104]]

/-- The comparisons of `cmd` (option2_smpl.cpp:34-42): type and name of the option. -/
def command (cmd : Str) : _root_.Option (Kind × Str) :=
  if cmd = sInit then some (.str, [115])
  else if cmd = sRun then some (.dbl, [100])
  else if cmd = sStatus then some (.chr, [99])
  else none

/-- The declarations of `opt2` (option2_smpl.cpp:34-43). -/
def regs2 {α : Type} (c : Conv α) (k : Kind) (name : Str) : List (Reg α) :=
  [.opt (c.dflt k) (c.step k) .is1 false name, .help [104]]

/-- How the program ends: `exit(0)` of a help option, `exit(1)` after the message of `opt1` or `opt2`, or the two variables are
printed. -/
inductive Outcome (α : Type) where
  | help
  | usage (n : Nat)
  | done (k : Kind) (x y : α)

/-- The second parse (option2_smpl.cpp:53-60). -/
def second {α : Type} (c : Conv α) (argv : List Str) (pos : Nat) (x : α) (k : Kind) (name : Str) : Res (Outcome α) := do
  let o ← Option.new.regs (regs2 c k name)
  let (r, o) ← o.parse argv pos
  if r = none then return .help
  if r = some false then return .usage 2
  let y ← at? o.infoVec 0
  return .done k x y.var.st

/-- `parse1` behind its parse (option2_smpl.cpp:31-44). -/
def choose {α : Type} (c : Conv α) (argv : List Str) (o : Opt.Option α) : Res (Outcome α) := do
  if o.nextDelimiter = 0 then return .usage 1
  let x ← at? o.infoVec 0
  let cmd ← at? argv (o.nextDelimiter - 1).toNat
  match command cmd with
  | none => return .usage 1
  | some (k, name) => second c argv o.nextDelimiter.toNat x.var.st k name

/-- `Opt::parse` (option2_smpl.cpp:46-61) with `parse1` (20-45), called by `main` (64-68). -/
def main {α : Type} (c : Conv α) (argv : List Str) : Res (Outcome α) := do
  let o ← Option.new.regs (regs1 c)
  let (r, o) ← o.parse argv
  if r = none then return .help
  if r = some false then return .usage 1
  choose c argv o

end Verif.Option2Smpl
