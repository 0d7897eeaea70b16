import Verif.Model.Option
import Verif.Spec.Numeral

/-! # Specification of option values and of command lines -/

namespace Verif.Spec.Opt

open Verif.Spec.Numeral
open Verif.Opt (Mode Reg)

abbrev Str := List UInt8

/-- The units. -/
def unit : UInt8 → Option Nat
  | 107 => some (10 ^ 3)
  | 109 => some (10 ^ 6)
  | 103 => some (10 ^ 9)
  | 75 => some (2 ^ 10)
  | 77 => some (2 ^ 20)
  | 71 => some (2 ^ 30)
  | _ => none

/-- A non-empty decimal numeral, with an optional minus sign for signed types; of any size. -/
def numeral (signed : Bool) (s : Str) : Option Int :=
  if signed = true ∧ s.head? = some 45 then
    if s.tail = [] then none else (value? 10 s.tail).map fun v : Nat => -(v : Int)
  else if s = [] then none else (value? 10 s).map fun v : Nat => (v : Int)

/-- The value meant by a text without `0x`: a number, or a number and a unit.  A single character is never a unit. -/
def meant (signed : Bool) (s : Str) : Option Int :=
  match s.getLast?.bind unit with
  | some f => if s.length > 1 then (numeral signed s.dropLast).map (· * f) else none
  | none => numeral signed s

/-- The value of an option text for a type with the range `[lo, hi]`. -/
def optValue (signed : Bool) (lo hi : Int) (s : Str) : Option Int :=
  if s.take 2 = [48, 120] then
    if s.drop 2 = [] then none else (value? 16 (s.drop 2)).bind fun v : Nat => if (v : Int) ≤ hi then some (v : Int) else none
  else (meant signed s).bind fun v => if lo ≤ v ∧ v ≤ hi then some v else none

/-- A part of a command line. -/
inductive Item where
  | flag (name : Str)
  | one (name value : Str)
  | many (name : Str) (values : List Str)
  | pos (value : Str)

/-- The arguments a part is written with. -/
def Item.render : Item → List Str
  | .flag n => [45 :: n]
  | .one n v => [45 :: n, v]
  | .many n vs => (45 :: n) :: vs
  | .pos v => [v]

/-- The values given to the option called `name`, in order; a flag is given "1". -/
def valuesOf (name : Str) (items : List Item) : List Str :=
  items.flatMap fun
    | .flag n => if n = name then [[49]] else []
    | .one n v => if n = name then [v] else []
    | .many n vs => if n = name then vs else []
    | .pos _ => []

/-- The positional values, in order. -/
def positionals (items : List Item) : List Str :=
  items.flatMap fun
    | .pos v => [v]
    | _ => []

/-- `-` not followed by a digit. -/
def OptText (s : Str) : Prop := ∃ t, s = 45 :: t ∧ ∀ c, t.head? = some c → ¬ (48 ≤ c ∧ c ≤ 57)

/-- A command line, its parts, and what follows the delimiter.  `modeOf` gives the declared options. -/
inductive Cmd (modeOf : Str → Option Mode) (help : Str) (delims : List Str) : List Str → List Item → Option (List Str) → Prop
  | nil : Cmd modeOf help delims [] [] none
  | delim (d : Str) (rest : List Str) (h : d ∈ delims) : Cmd modeOf help delims (d :: rest) [] (some rest)
  | flag (n : Str) (rest items r) (hd : 45 :: n ∉ delims) (ho : OptText (45 :: n)) (hh : n ≠ help) (hm : modeOf n = some .is0)
      (h : Cmd modeOf help delims rest items r) : Cmd modeOf help delims ((45 :: n) :: rest) (.flag n :: items) r
  | one (n v : Str) (rest items r) (hd : 45 :: n ∉ delims) (ho : OptText (45 :: n)) (hh : n ≠ help) (hm : modeOf n = some .is1)
      (h : Cmd modeOf help delims rest items r) : Cmd modeOf help delims ((45 :: n) :: v :: rest) (.one n v :: items) r
  | many (n : Str) (vs : List Str) (rest items r) (hd : 45 :: n ∉ delims) (ho : OptText (45 :: n)) (hh : n ≠ help) (hm : modeOf n = some .any)
      (hv : vs ≠ []) (hvs : ∀ v ∈ vs, ¬ OptText v) (hr : ∀ a, rest.head? = some a → OptText a)
      (h : Cmd modeOf help delims rest items r) : Cmd modeOf help delims ((45 :: n) :: (vs ++ rest)) (.many n vs :: items) r
  | pos (v : Str) (rest items r) (hd : v ∉ delims) (ho : ¬ OptText v)
      (h : Cmd modeOf help delims rest items r) : Cmd modeOf help delims (v :: rest) (.pos v :: items) r

/-- A declared option. -/
structure OptDecl (α : Type) where
  name : Str
  mode : Mode
  must : Bool
  st : α
  step : α → Str → Bool × α

/-- A declared parameter. -/
structure ParamDecl (α : Type) where
  must : Bool
  st : α
  step : α → Str → Bool × α

/-- The options declared by a sequence of calls. -/
def optsOf {α : Type} (rs : List (Reg α)) : List (OptDecl α) :=
  rs.filterMap fun
    | .opt st step mode isMust name => some ⟨name, mode, isMust, st, step⟩
    | _ => none

/-- The parameters declared by a sequence of calls. -/
def paramsOf {α : Type} (rs : List (Reg α)) : List (ParamDecl α) :=
  rs.filterMap fun
    | .param st step _ => some ⟨true, st, step⟩
    | .paramOpt st step _ => some ⟨false, st, step⟩
    | _ => none

/-- The declaration that takes the values left over. -/
def restOf {α : Type} (rs : List (Reg α)) : Option (ParamDecl α) :=
  rs.findSome? fun
    | .paramVec st step _ => some ⟨false, st, step⟩
    | _ => none

/-- The name of the help option. -/
def helpOf {α : Type} (rs : List (Reg α)) : Str :=
  rs.foldl (fun h r => match r with | .help n => n | _ => h) []

/-- The delimiters. -/
def delimsOf {α : Type} (rs : List (Reg α)) : List Str :=
  rs.foldl (fun d r => match r with
    | .setDelimiter x _ => d ++ [x]
    | .appendDelimiter x => d ++ [x]
    | .clearDelimiterList => []
    | _ => d) []

/-- The mode of a declared option. -/
def modeIn {α : Type} (ds : List (OptDecl α)) (n : Str) : Option Mode := (ds.find? fun d => d.name = n).map (·.mode)

/-- Give values to a variable one after the other; `none` as soon as one is refused. -/
def feed {α : Type} (step : α → Str → Bool × α) : α → List Str → Option α
  | st, [] => some st
  | st, v :: vs => if (step st v).1 then feed step (step st v).2 vs else none

/-- The variable of a declared option after the command line `items`. -/
def OptResult {α : Type} (d : OptDecl α) (items : List Item) (st : α) (isSet : Bool) : Prop :=
  feed d.step d.st (valuesOf d.name items) = some st ∧ (isSet = true ↔ valuesOf d.name items ≠ [])

/-- The variable of the parameter number `i`: it has been given the positional value number `i`, if any. -/
def ParamResult {α : Type} (d : ParamDecl α) (i : Nat) (items : List Item) (st : α) (isSet : Bool) : Prop :=
  feed d.step d.st ((positionals items)[i]?).toList = some st ∧ (isSet = true ↔ i < (positionals items).length)

/-- The variable for the values left over, `n` being the number of parameters: refused values change nothing but what the refusing
conversion itself changes. -/
def RestResult {α : Type} (d : ParamDecl α) (n : Nat) (items : List Item) (st : α) (isSet : Bool) : Prop :=
  st = ((positionals items).drop n).foldl (fun st v => (d.step st v).2) d.st ∧ (isSet = true ↔ n < (positionals items).length)

/-- The condition under which the values of a command line are accepted. -/
structure Accepts {α : Type} (rs : List (Reg α)) (items : List Item) : Prop where
  opts : ∀ d ∈ optsOf rs, (feed d.step d.st (valuesOf d.name items)).isSome = true
  params : ∀ (i : Nat) (d : ParamDecl α) (v : List UInt8), (paramsOf rs)[i]? = some d → (positionals items)[i]? = some v → (d.step d.st v).1 = true
  count : restOf rs = none → (positionals items).length ≤ (paramsOf rs).length

/-- Nothing required is missing. -/
def Complete {α : Type} (rs : List (Reg α)) (items : List Item) : Prop :=
  (∀ d ∈ optsOf rs, d.must = true → valuesOf d.name items ≠ []) ∧
  (∀ (i : Nat) (d : ParamDecl α), (paramsOf rs)[i]? = some d → d.must = true → i < (positionals items).length)

/-- A call after which no positional parameter may be declared. -/
def closes {α : Type} : Reg α → Bool
  | .paramOpt .. => true
  | .paramVec .. => true
  | _ => false

/-- The declaration `r` is allowed after the declarations `pre`: the name of an option is new and does not begin with a digit, and a
positional parameter comes after neither an optional one nor the rest. -/
def Fits {α : Type} (pre : List (Reg α)) : Reg α → Prop
  | .opt _ _ _ _ name => (∀ c, name.head? = some c → ¬ (48 ≤ c.toNat ∧ c.toNat ≤ 57)) ∧ ∀ d ∈ optsOf pre, d.name ≠ name
  | .param .. => ∀ r ∈ pre, closes r = false
  | .paramOpt .. => ∀ r ∈ pre, closes r = false
  | .paramVec .. => ∀ r ∈ pre, closes r = false
  | _ => True

/-- All declarations are allowed. -/
def Declarable {α : Type} (rs : List (Reg α)) : Prop := ∀ (i : Nat) (r : Reg α), rs[i]? = some r → Fits (rs.take i) r

/-- The vector for the arguments after the delimiter: the one of the last `setDelimiter`, if that call had one. -/
def remainOf {α : Type} (rs : List (Reg α)) : Option (List Str) :=
  rs.foldl (fun v r => match r with | .setDelimiter _ x => x | _ => v) none

end Verif.Spec.Opt
