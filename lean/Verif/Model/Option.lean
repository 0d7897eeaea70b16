import Verif.Model.Atoi
import Verif.Model.Config

/-! # Model of option.hpp -/

namespace Verif.Opt

open Verif.Config (Str mapFind mapInsert)

/-- The integer types `convert` is defined for (option.hpp:175-187), by the row of atoi.hpp that converts them. -/
inductive IntTy where
  | s (ty : Atoi.SInt)
  | u (ty : Atoi.UInt)

/-- `std::numeric_limits<T>::min()` -/
def IntTy.lo : IntTy → Int
  | .s ty => ty.min
  | .u _ => 0

/-- `std::numeric_limits<T>::max()` -/
def IntTy.hi : IntTy → Int
  | .s ty => ty.hi
  | .u ty => ty.hi

/-- `T y = cybozu::atoi(&b, str, len)` (atoi.hpp:130-195). -/
def IntTy.atoi (ty : IntTy) (mem : List UInt8) (len : Nat) : Res (Option Int) :=
  match ty with
  | .s ty => Atoi.convertToInt ty true mem len
  | .u ty => do
    let r ← Atoi.convertToUint ty true mem len
    pure (r.map fun v : Nat => (v : Int))

/-- `T x = cybozu::hextoi(&b, str)` (atoi.hpp:197-237), with the default size. -/
def IntTy.hextoi (ty : IntTy) (mem : List UInt8) : Res (Option Nat) := Atoi.convertHexToInt ty.hi.toNat true mem (2 ^ 64 - 1)

/-- `strlen`; running over the end of the readable memory is `.ub`. -/
def strlen : List UInt8 → Res Nat
  | [] => .ub
  | c :: mem => if c = 0 then .ok 0 else do
    let n ← strlen mem
    pure (n + 1)

/-- The suffix switch (option.hpp:132-140). -/
def factorOf (c : UInt8) : Nat :=
  if c = 107 then 1000
  else if c = 109 then 1000 * 1000
  else if c = 103 then 1000 * 1000 * 1000
  else if c = 75 then 1024
  else if c = 77 then 1024 * 1024
  else if c = 71 then 1024 * 1024 * 1024
  else 1

/-- The factor and the length of the number (option.hpp:129-141). -/
def suffix (mem : List UInt8) (len : Nat) : Res (Nat × Nat) :=
  if len > 1 then do
    let c ← at? mem (len - 1)
    pure (factorOf c, if factorOf c > 1 then len - 1 else len)
  else pure (1, len)

/-- Whether `str` starts with `0x` (option.hpp:124). -/
def isHex (mem : List UInt8) : Res Bool := do
  let c ← at? mem 0
  if c = 48 then do
    let d ← at? mem 1
    pure (d == 120)
  else pure false

/-- The range test and the multiplication (option.hpp:145-154); `/` truncates, and a product outside the type would be an overflow
(signed) or a wrap (unsigned), both `.ub` here. -/
def scale (ty : IntTy) (x y : Int) (factor : Nat) : Res (Bool × Int) :=
  if factor > 1 then
    if ty.lo.tdiv factor ≤ y ∧ y ≤ ty.hi.tdiv factor then
      if ty.lo ≤ y * factor ∧ y * factor ≤ ty.hi then .ok (true, y * factor) else .ub
    else .ok (false, x)
  else .ok (true, y)

/-- `convertInt` (option.hpp:121-156): the result, and `*x` afterwards. -/
def convertInt (ty : IntTy) (x : Int) (mem : List UInt8) : Res (Bool × Int) := do
  let hex ← isHex mem
  if hex then do
    let r ← ty.hextoi (mem.drop 2)
    match r with
    | some v => pure (true, (v : Int))
    | none => pure (false, 0)
  else do
    let len ← strlen mem
    let (factor, len) ← suffix mem len
    let y ← ty.atoi mem len
    match y with
    | none => pure (false, x)
    | some y => scale ty x y factor

/-- `Var` (option.hpp:250-279).  The typed variable behind the pointer is `st`; `step` is `Holder<T>::set` (option.hpp:204, 226-232), i.e.
`convert` for `T` and the assignment or `push_back`.  `step` is a parameter, so the results hold for every type, also for those that
`convert` reads by `istringstream`.  Simplified: no two options share a variable; see `Verif/Model/OptionShare.lean` for those
that do. -/
structure Var (α : Type) where
  st : α
  isSet : Bool
  step : α → Str → Bool × α

/-- `Var::set` (option.hpp:271-275) -/
def Var.set {α : Type} (v : Var α) (s : Str) : Bool × Var α := ((v.step v.st s).1, { v with st := (v.step v.st s).2, isSet := true })

/-- `Option::Mode` (option.hpp:284-288) -/
inductive Mode where
  | is0 | is1 | any
  deriving DecidableEq

/-- `Option::ParamMode` (option.hpp:289-293) -/
inductive ParamMode where
  | exact | optional | variable
  deriving DecidableEq

/-- `Option::Info` (option.hpp:294-335) without the help text. -/
structure Info (α : Type) where
  var : Var α
  mode : Mode
  isMust : Bool
  opt : Str

/-- `class Option` (option.hpp:339-352) without the texts for the usage message.  `remains` is `none` as long as `remains_.var.p_` is the
null pointer; `remainsAfter` is `none` for a null pointer, and otherwise the vector pointed to. -/
structure Option (α : Type) where
  infoVec : List (Info α)
  paramVec : List (Info α)
  remains : _root_.Option (Info α)
  optMap : List (Str × Nat)
  paramMode : ParamMode
  helpOpt : Str
  delimiters : List Str
  remainsAfter : _root_.Option (List Str)
  nextDelimiter : Int

/-- `Option::Option` (option.hpp:396-402) -/
def Option.new {α : Type} : Option α :=
  { infoVec := [], paramVec := [], remains := none, optMap := [], paramMode := .exact, helpOpt := [], delimiters := [], remainsAfter := none, nextDelimiter := -1 }

/-- `appendSub` (option.hpp:353-363); the callers `appendOpt`, `appendBoolOpt`, `appendMust`, `appendVec` (418-452) give the default
value in `st`.  For calls before `parse`: a call after it may forget which options were set, see `Verif.Model.OptionMsg`. -/
def Option.appendSub {α : Type} (o : Option α) (st : α) (step : α → Str → Bool × α) (mode : Mode) (isMust : Bool) (opt : Str) : Res (Option α) :=
  let c := opt.headD 0
  if 48 ≤ c ∧ c ≤ 57 then .throw
  else if (mapFind o.optMap opt).isSome then .throw
  else .ok { o with optMap := (mapInsert o.optMap (opt, o.infoVec.length)).1, infoVec := o.infoVec ++ [{ var := { st, isSet := false, step }, mode, isMust, opt }] }

/-- `appendParam` (option.hpp:459-464) -/
def Option.appendParam {α : Type} (o : Option α) (st : α) (step : α → Str → Bool × α) (opt : Str) : Res (Option α) :=
  if o.paramMode ≠ .exact then .throw
  else .ok { o with paramVec := o.paramVec ++ [{ var := { st, isSet := false, step }, mode := .is1, isMust := true, opt }] }

/-- `appendParamOpt` (option.hpp:473-480) -/
def Option.appendParamOpt {α : Type} (o : Option α) (st : α) (step : α → Str → Bool × α) (opt : Str) : Res (Option α) :=
  if o.paramMode ≠ .exact then .throw
  else .ok { o with paramMode := .optional, paramVec := o.paramVec ++ [{ var := { st, isSet := false, step }, mode := .is1, isMust := false, opt }] }

/-- `appendParamVec` (option.hpp:488-498) -/
def Option.appendParamVec {α : Type} (o : Option α) (st : α) (step : α → Str → Bool × α) (name : Str) : Res (Option α) :=
  if o.paramMode ≠ .exact then .throw
  else .ok { o with paramMode := .variable, remains := some { var := { st, isSet := false, step }, mode := .any, isMust := false, opt := name } }

/-- `appendHelp` (option.hpp:499-503) -/
def Option.appendHelp {α : Type} (o : Option α) (opt : Str) : Option α := { o with helpOpt := opt }

/-- `setDelimiter` (option.hpp:509-513) -/
def Option.setDelimiter {α : Type} (o : Option α) (d : Str) (remain : _root_.Option (List Str)) : Option α :=
  { o with delimiters := o.delimiters ++ [d], remainsAfter := remain }

/-- `appendDelimiter` (option.hpp:518-521) -/
def Option.appendDelimiter {α : Type} (o : Option α) (d : Str) : Option α := { o with delimiters := o.delimiters ++ [d] }

/-- `clearDelimiterList` (option.hpp:525) -/
def Option.clearDelimiterList {α : Type} (o : Option α) : Option α := { o with delimiters := [] }

/-- `isOpt` (option.hpp:374-380); the terminating NUL is character `s.length`. -/
def isOpt (s : Str) : Bool :=
  match s with
  | 45 :: t => let c := t.headD 0; !(48 ≤ c ∧ c ≤ 57)
  | _ => false

/-- How the argument loop ends. -/
inductive End where
  | fin | err | exit
  deriving DecidableEq

/-- The `while` loop of `N_any` (option.hpp:590-597): whether all values were accepted, the variable, `j`, and the arguments left. -/
def anyLoop {α : Type} (v : Var α) (j : Nat) : List Str → Bool × Var α × Nat × List Str
  | [] => (true, v, j, [])
  | a :: rest =>
    if isOpt a then (true, v, j, a :: rest)
    else
      let (b, v) := v.set a
      if b then anyLoop v (j + 1) rest else (false, v, j, a :: rest)

/-- The search of a parameter for a value (option.hpp:609-619): `none` if all parameters are set. -/
def paramLoop {α : Type} (a : Str) : List (Info α) → _root_.Option (Bool × List (Info α))
  | [] => none
  | p :: ps =>
    if !p.var.isSet then
      let (b, v) := p.var.set a
      some (b, { p with var := v } :: ps)
    else (paramLoop a ps).map fun r => (r.1, p :: r.2)

/-- The value goes to a parameter or to the rest (option.hpp:607-628); the result of `remains_.var.set` is ignored. -/
def takeParam {α : Type} (o : Option α) (a : Str) : Res (Bool × Option α) :=
  match paramLoop a o.paramVec with
  | some (b, ps) => .ok (b, { o with paramVec := ps })
  | none =>
    if o.paramMode = .variable then
      match o.remains with
      | some r => .ok (true, { o with remains := some { r with var := (r.var.set a).2 } })
      | none => .ub
    else .ok (false, o)

/-- Put a changed variable back into `infoVec_[i]`. -/
def Option.putVar {α : Type} (o : Option α) (i : Nat) (info : Info α) (v : Var α) : Option α :=
  { o with infoVec := o.infoVec.set i { info with var := v } }

/-- The argument loop of `parse` (option.hpp:544-629).  `pos` is the index of the first argument of the list.  `fuel` bounds the number
of rounds; running out is `.ub`. -/
def argLoop {α : Type} : Nat → Option α → Nat → List Str → Res (End × Option α)
  | 0, _, _, _ => .ub
  | _ + 1, o, _, [] => .ok (.fin, o)
  | fuel + 1, o, pos, a :: rest =>
    if a ∈ o.delimiters then .ok (.fin, { o with nextDelimiter := pos + 1, remainsAfter := o.remainsAfter.map (· ++ rest) })
    else if isOpt a then
      let str := a.drop 1
      if o.helpOpt = str then .ok (.exit, o)
      else
        match mapFind o.optMap str with
        | none => .ok (.err, o)
        | some i => do
          let info ← at? o.infoVec i
          match info.mode with
          | .is0 =>
            let (b, v) := info.var.set [49]
            if b then argLoop fuel (o.putVar i info v) (pos + 1) rest else .ok (.err, o.putVar i info v)
          | .is1 =>
            match rest with
            | [] => .ok (.err, o)
            | x :: rest =>
              let (b, v) := info.var.set x
              if b then argLoop fuel (o.putVar i info v) (pos + 2) rest else .ok (.err, o.putVar i info v)
          | .any =>
            let (b, v, j, rest') := anyLoop info.var 0 rest
            if !b then .ok (.err, o.putVar i info v)
            else if j > 0 then argLoop fuel (o.putVar i info v) (pos + 1 + j) rest'
            else .ok (.err, o.putVar i info v)
    else do
      let (b, o) ← takeParam o a
      if b then argLoop fuel o (pos + 1) rest else .ok (.err, o)

/-- The checks at the end of `parse` (option.hpp:630-651). -/
def checks {α : Type} (o : Option α) : Bool :=
  !(o.infoVec.any fun i => i.isMust && !i.var.isSet) &&
  !(o.paramVec.any fun i => i.isMust && !i.var.isSet) &&
  !(decide (o.paramMode = .variable) && o.remains.any fun r => r.isMust && !r.var.isSet)

/-- `parse` (option.hpp:538-656) with `argc = argv.length`.  The answer is `some` of the returned value, or `none` when the program
ends by `exit(0)`.  `hasName` tells whether `progName` was given: otherwise `argv[startPos - 1]` is read.  Simplified: the program name and the
printed messages are left out, and `startPos` is not negative. -/
def Option.parse {α : Type} (o : Option α) (argv : List Str) (startPos : Nat := 1) (hasName : Bool := false) : Res (_root_.Option Bool × Option α) :=
  if argv.length < 1 ∨ startPos > argv.length then .ok (some false, o)
  else if !hasName ∧ startPos = 0 then .ub
  else do
    let (e, o) ← argLoop (argv.length + 1) { o with nextDelimiter := argv.length } startPos (argv.drop startPos)
    match e with
    | .exit => pure (none, o)
    | .err => pure (some false, o)
    | .fin => pure (some (checks o), o)

/-- The parts of `Option` a user calls before `parse`. -/
inductive Reg (α : Type) where
  | opt (st : α) (step : α → Str → Bool × α) (mode : Mode) (isMust : Bool) (name : Str)
  | param (st : α) (step : α → Str → Bool × α) (name : Str)
  | paramOpt (st : α) (step : α → Str → Bool × α) (name : Str)
  | paramVec (st : α) (step : α → Str → Bool × α) (name : Str)
  | help (name : Str)
  | setDelimiter (d : Str) (remain : _root_.Option (List Str))
  | appendDelimiter (d : Str)
  | clearDelimiterList

/-- One registration call. -/
def Option.reg {α : Type} (o : Option α) : Reg α → Res (Option α)
  | .opt st step mode isMust name => o.appendSub st step mode isMust name
  | .param st step name => o.appendParam st step name
  | .paramOpt st step name => o.appendParamOpt st step name
  | .paramVec st step name => o.appendParamVec st step name
  | .help name => .ok (o.appendHelp name)
  | .setDelimiter d remain => .ok (o.setDelimiter d remain)
  | .appendDelimiter d => .ok (o.appendDelimiter d)
  | .clearDelimiterList => .ok o.clearDelimiterList

/-- A sequence of registration calls; the first exception ends it. -/
def Option.regs {α : Type} (o : Option α) : List (Reg α) → Res (Option α)
  | [] => .ok o
  | r :: rs => do
    let o ← o.reg r
    o.regs rs

end Verif.Opt
