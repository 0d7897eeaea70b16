import Verif.Model.Option

/-!
# Options whose variables are anywhere in memory (`include/cybozu/option.hpp`)

The same functions as in `Verif/Model/Option.lean`, but a `Var` has the address of its variable and every conversion writes to the memory,
so that two declarations may share a variable.  The memory maps an address to the value of the variable there.  Simplified as there; the vector
of `setDelimiter` is not one of the variables.
-/
namespace Verif.OptShare
open Verif.Config (Str mapFind mapInsert)
open Verif.Opt (Mode ParamMode isOpt End Reg)

/-- The variables. -/
abbrev Mem (α : Type) := Nat → α

/-- `*p = x` -/
def Mem.put {α : Type} (m : Mem α) (p : Nat) (x : α) : Mem α := fun q => if q = p then x else m q

/-- `Var` (option.hpp:250-279) with its `Holder` (198-210, 219-248): the address and `Holder<T>::set`. -/
structure Var (α : Type) where
  addr : Nat
  isSet : Bool
  step : α → Str → Bool × α

/-- `Var::set` (option.hpp:271-275) -/
def Var.set {α : Type} (v : Var α) (m : Mem α) (s : Str) : Bool × Var α × Mem α :=
  ((v.step (m v.addr) s).1, { v with isSet := true }, m.put v.addr (v.step (m v.addr) s).2)

/-- `Option::Info` (option.hpp:294-335) without the help text. -/
structure Info (α : Type) where
  var : Var α
  mode : Mode
  isMust : Bool
  opt : Str

/-- `class Option` (option.hpp:339-352) without the texts for the usage message. -/
structure Opts (α : Type) where
  infoVec : List (Info α)
  paramVec : List (Info α)
  remains : Option (Info α)
  optMap : List (Str × Nat)
  paramMode : ParamMode
  helpOpt : Str
  delimiters : List Str
  remainsAfter : Option (List Str)
  nextDelimiter : Int

/-- `Option::Option` (option.hpp:396-402) -/
def Opts.new {α : Type} : Opts α :=
  { infoVec := [], paramVec := [], remains := none, optMap := [], paramMode := .exact, helpOpt := [], delimiters := [], remainsAfter := none, nextDelimiter := -1 }

/-- A declaration with the address of its variable. -/
structure PReg (α : Type) where
  addr : Nat
  reg : Reg α

/-- The default value is written by `append` (option.hpp:367), `appendBoolOpt` (428) and `appendParamOpt` (477), but not by `appendVec`
(448-452), `appendParam` (459-464) and `appendParamVec` (489-498). -/
def default? {α : Type} : Reg α → Option α
  | .opt st _ mode _ _ => if mode = .any then none else some st
  | .paramOpt st _ _ => some st
  | _ => none

/-- The memory after the default value was written. -/
def initVar {α : Type} (m : Mem α) (r : PReg α) : Mem α :=
  match default? r.reg with
  | some x => m.put r.addr x
  | none => m

/-- `appendSub` (option.hpp:353-363) -/
def Opts.appendSub {α : Type} (o : Opts α) (addr : Nat) (step : α → Str → Bool × α) (mode : Mode) (isMust : Bool) (opt : Str) : Res (Opts α) :=
  let c := opt.headD 0
  if 48 ≤ c ∧ c ≤ 57 then .throw
  else if (mapFind o.optMap opt).isSome then .throw
  else .ok { o with optMap := (mapInsert o.optMap (opt, o.infoVec.length)).1, infoVec := o.infoVec ++ [⟨⟨addr, false, step⟩, mode, isMust, opt⟩] }

/-- One declaration (option.hpp:418-525). -/
def Opts.reg1 {α : Type} (o : Opts α) (addr : Nat) : Reg α → Res (Opts α)
  | .opt _ step mode isMust name => o.appendSub addr step mode isMust name
  | .param _ step name =>
    if o.paramMode ≠ .exact then .throw
    else .ok { o with paramVec := o.paramVec ++ [⟨⟨addr, false, step⟩, .is1, true, name⟩] }
  | .paramOpt _ step name =>
    if o.paramMode ≠ .exact then .throw
    else .ok { o with paramMode := .optional, paramVec := o.paramVec ++ [⟨⟨addr, false, step⟩, .is1, false, name⟩] }
  | .paramVec _ step name =>
    if o.paramMode ≠ .exact then .throw
    else .ok { o with paramMode := .variable, remains := some ⟨⟨addr, false, step⟩, .any, false, name⟩ }
  | .help name => .ok { o with helpOpt := name }
  | .setDelimiter d remain => .ok { o with delimiters := o.delimiters ++ [d], remainsAfter := remain }
  | .appendDelimiter d => .ok { o with delimiters := o.delimiters ++ [d] }
  | .clearDelimiterList => .ok { o with delimiters := [] }

/-- A sequence of declarations: the object and the memory.  Simplified: after an exception the memory is not given. -/
def Opts.regs {α : Type} (o : Opts α) (m : Mem α) : List (PReg α) → Res (Opts α × Mem α)
  | [] => .ok (o, m)
  | r :: rs => do
    let o ← o.reg1 r.addr r.reg
    o.regs (initVar m r) rs

/-- The `while` loop of `N_any` (option.hpp:590-597): whether all values were accepted, the variable, the memory, `j`, and the arguments
left. -/
def anyLoop {α : Type} (v : Var α) (m : Mem α) (j : Nat) : List Str → Bool × Var α × Mem α × Nat × List Str
  | [] => (true, v, m, j, [])
  | a :: rest =>
    if isOpt a then (true, v, m, j, a :: rest)
    else
      let (b, v, m) := v.set m a
      if b then anyLoop v m (j + 1) rest else (false, v, m, j, a :: rest)

/-- The search of a parameter for a value (option.hpp:609-619): `none` if all parameters are set. -/
def paramLoop {α : Type} (m : Mem α) (a : Str) : List (Info α) → Option (Bool × List (Info α) × Mem α)
  | [] => none
  | p :: ps =>
    if !p.var.isSet then
      let (b, v, m) := p.var.set m a
      some (b, { p with var := v } :: ps, m)
    else (paramLoop m a ps).map fun r => (r.1, p :: r.2.1, r.2.2)

/-- The value goes to a parameter or to the rest (option.hpp:607-628). -/
def takeParam {α : Type} (o : Opts α) (m : Mem α) (a : Str) : Res (Bool × Opts α × Mem α) :=
  match paramLoop m a o.paramVec with
  | some (b, ps, m) => .ok (b, { o with paramVec := ps }, m)
  | none =>
    if o.paramMode = .variable then
      match o.remains with
      | some r => .ok (true, { o with remains := some { r with var := (r.var.set m a).2.1 } }, (r.var.set m a).2.2)
      | none => .ub
    else .ok (false, o, m)

/-- Put a changed variable back into `infoVec_[i]`. -/
def Opts.putVar {α : Type} (o : Opts α) (i : Nat) (info : Info α) (v : Var α) : Opts α :=
  { o with infoVec := o.infoVec.set i { info with var := v } }

/-- The argument loop of `parse` (option.hpp:544-629); running out of `fuel` is `.ub`. -/
def argLoop {α : Type} : Nat → Opts α → Mem α → Nat → List Str → Res (End × Opts α × Mem α)
  | 0, _, _, _, _ => .ub
  | _ + 1, o, m, _, [] => .ok (.fin, o, m)
  | fuel + 1, o, m, pos, a :: rest =>
    if a ∈ o.delimiters then .ok (.fin, { o with nextDelimiter := pos + 1, remainsAfter := o.remainsAfter.map (· ++ rest) }, m)
    else if isOpt a then
      let str := a.drop 1
      if o.helpOpt = str then .ok (.exit, o, m)
      else
        match mapFind o.optMap str with
        | none => .ok (.err, o, m)
        | some i => do
          let info ← at? o.infoVec i
          match info.mode with
          | .is0 =>
            let (b, v, m) := info.var.set m [49]
            if b then argLoop fuel (o.putVar i info v) m (pos + 1) rest else .ok (.err, o.putVar i info v, m)
          | .is1 =>
            match rest with
            | [] => .ok (.err, o, m)
            | x :: rest =>
              let (b, v, m) := info.var.set m x
              if b then argLoop fuel (o.putVar i info v) m (pos + 2) rest else .ok (.err, o.putVar i info v, m)
          | .any =>
            let (b, v, m, j, rest') := anyLoop info.var m 0 rest
            if !b then .ok (.err, o.putVar i info v, m)
            else if j > 0 then argLoop fuel (o.putVar i info v) m (pos + 1 + j) rest'
            else .ok (.err, o.putVar i info v, m)
    else do
      let (b, o, m) ← takeParam o m a
      if b then argLoop fuel o m (pos + 1) rest else .ok (.err, o, m)

/-- The checks at the end of `parse` (option.hpp:630-651). -/
def checks {α : Type} (o : Opts α) : Bool :=
  !(o.infoVec.any fun i => i.isMust && !i.var.isSet) &&
  !(o.paramVec.any fun i => i.isMust && !i.var.isSet) &&
  !(decide (o.paramMode = .variable) && o.remains.any fun r => r.isMust && !r.var.isSet)

/-- `parse(argc, argv)` (option.hpp:538-656) with `startPos = 1`; `none` when the program ends by `exit(0)`. -/
def Opts.parse {α : Type} (o : Opts α) (m : Mem α) (argv : List Str) : Res (Option Bool × Opts α × Mem α) :=
  if argv.length < 1 then .ok (some false, o, m)
  else do
    let (e, o, m) ← argLoop (argv.length + 1) { o with nextDelimiter := argv.length } m 1 (argv.drop 1)
    match e with
    | .exit => pure (none, o, m)
    | .err => pure (some false, o, m)
    | .fin => pure (some (checks o), o, m)

/-- `isSet(pvar)` (option.hpp:726-741): the first declaration with that address answers, parameters first, then the rest, then options.
`remains_` that was not declared has a null pointer (277), taken as different from every address asked for. -/
def Opts.isSet {α : Type} (o : Opts α) (p : Nat) : Res Bool :=
  match o.paramVec.find? (fun i => i.var.addr == p), o.remains.filter (fun i => i.var.addr == p), o.infoVec.find? (fun i => i.var.addr == p) with
  | some i, _, _ => .ok i.var.isSet
  | none, some i, _ => .ok i.var.isSet
  | none, none, some i => .ok i.var.isSet
  | none, none, none => .throw

/-- The copy constructor of `Var` (option.hpp:255) in an `Info`: the copy has the same address, `isSet_` is false. -/
def Info.copy {α : Type} (i : Info α) : Info α := { i with var := { i.var with isSet := false } }

/-- The implicit copy constructor of `Option` (option.hpp:283, 339-352); without a declared rest the null pointer is dereferenced (255). -/
def Opts.copy {α : Type} (o : Opts α) : Res (Opts α) :=
  match o.remains with
  | none => .ub
  | some r => .ok { o with infoVec := o.infoVec.map Info.copy, paramVec := o.paramVec.map Info.copy, remains := some r.copy }

end Verif.OptShare
