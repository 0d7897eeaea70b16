import Verif.Model.Option

/-!
# Model of the rest of `include/cybozu/option.hpp`

`isSet`, `usage`, `operator<<`, the program name, and copies of an `Option`.  Texts are lists of bytes.
-/
namespace Verif.Opt
open Verif.Config (Str)

/-- The text of a literal; the literals are ASCII. -/
def txt (s : String) : Str := s.toList.map fun c => UInt8.ofNat c.toNat

/-- `name.find_last_of("/\\")` (option.hpp:387): the characters after the last separator, if there is one. -/
def afterLast : Str → _root_.Option Str
  | [] => none
  | c :: s =>
    match afterLast s with
    | some r => some r
    | none => if c = 47 ∨ c = 92 then some s else none

/-- `getBaseName` (option.hpp:385-390) -/
def getBaseName (name : Str) : Str :=
  match afterLast name with
  | none => name
  | some r => r

/-- `class Option` (option.hpp:339-352) with the addresses of the variables (`HolderBase::get`, 209, 247), the help texts and the texts
of the usage message.  The null pointer is 0. -/
structure AOpt (α : Type) where
  o : Option α
  optV : List (Nat × Str)
  paramV : List (Nat × Str)
  restV : Nat × Str
  showOptUsage : Bool
  progName : Str
  desc : Str
  help : Str
  usage : Str

/-- `Option::Option` (option.hpp:396-402) -/
def AOpt.new {α : Type} : AOpt α :=
  { o := Option.new, optV := [], paramV := [], restV := (0, []), showOptUsage := true, progName := [], desc := [], help := [], usage := [] }

/-- A registration call, with the address of the variable and the help text. -/
structure AReg (α : Type) where
  reg : Reg α
  addr : Nat
  help : Str

/-- One registration call (option.hpp:353-363, 459-503). -/
def AOpt.reg {α : Type} (a : AOpt α) (r : AReg α) : Res (AOpt α) := do
  let o ← a.o.reg r.reg
  match r.reg with
  | .opt .. => return { a with o, optV := a.optV ++ [(r.addr, r.help)] }
  | .param .. => return { a with o, paramV := a.paramV ++ [(r.addr, r.help)] }
  | .paramOpt .. => return { a with o, paramV := a.paramV ++ [(r.addr, r.help)] }
  | .paramVec .. => return { a with o, restV := (r.addr, r.help) }
  | .help _ => return { a with o, help := r.help }
  | _ => return { a with o }

/-- A sequence of registration calls. -/
def AOpt.regs {α : Type} (a : AOpt α) : List (AReg α) → Res (AOpt α)
  | [] => .ok a
  | r :: rs => do
    let a ← a.reg r
    a.regs rs

/-- `parse` (option.hpp:538-656) with the default `startPos`; the program name is set first (541). -/
def AOpt.parse {α : Type} (a : AOpt α) (argv : List Str) : Res (_root_.Option Bool × AOpt α) := do
  let (b, o) ← a.o.parse argv
  return (b, { a with o, progName := if argv.length < 1 then a.progName else getBaseName (argv.headD []) })

/-- `setDescription` (option.hpp:660-663) -/
def AOpt.setDescription {α : Type} (a : AOpt α) (desc : Str) : AOpt α := { a with desc }

/-- `setUsage` (option.hpp:668-672) -/
def AOpt.setUsage {α : Type} (a : AOpt α) (usage : Str) (showOptUsage : Bool) : AOpt α := { a with usage, showOptUsage }

/-- A loop of `isSet` (option.hpp:728-731, 733-736) -/
def findVar {α : Type} (p : Nat) : List (Info α) → List (Nat × Str) → _root_.Option Bool
  | i :: is, v :: vs => if v.1 = p then some i.var.isSet else findVar p is vs
  | _, _ => none

/-- `isSet(pvar)` (option.hpp:724-738) -/
def AOpt.isSet {α : Type} (a : AOpt α) (p : Nat) : Res Bool :=
  match findVar p a.o.paramVec a.paramV with
  | some b => .ok b
  | none =>
    if a.restV.1 = p then .ok (match a.o.remains with | some r => r.var.isSet | none => false)
    else
      match findVar p a.o.infoVec a.optV with
      | some b => .ok b
      | none => .throw

/-- `Info::usage` (option.hpp:326-329) -/
def Info.usage {α : Type} (i : Info α) (help : Str) : Str :=
  txt "  -" ++ i.opt ++ txt " " ++ help ++ (if i.isMust then txt " (must)" else []) ++ txt "\n"

/-- `Info::shortUsage` (option.hpp:330-333) -/
def Info.shortUsage {α : Type} (i : Info α) : Str :=
  txt " -" ++ i.opt ++ txt " " ++ (match i.mode with | .is0 => [] | .is1 => txt "para" | .any => txt "para...")

/-- The first line of `usage` (option.hpp:677-687) -/
def AOpt.synopsis {α : Type} (a : AOpt α) : Str :=
  txt "usage:" ++ a.progName ++ (if a.o.infoVec.isEmpty then [] else txt " [opt]") ++
  (a.o.infoVec.flatMap fun i => if i.isMust then i.shortUsage else []) ++
  (a.o.paramVec.flatMap fun i => txt " " ++ i.opt) ++
  (if a.o.paramMode = .variable then txt " " ++ (match a.o.remains with | some r => r.opt | none => []) else []) ++ txt "\n"

/-- The lines of the options and parameters (option.hpp:692-702) -/
def AOpt.details {α : Type} (a : AOpt α) : Str :=
  ((a.o.paramVec.zip a.paramV).flatMap fun x => if x.2.2.isEmpty then [] else txt "  " ++ x.1.opt ++ txt " " ++ x.2.2 ++ txt "\n") ++
  (if a.restV.2.isEmpty then [] else txt "  " ++ (match a.o.remains with | some r => r.opt | none => []) ++ txt " " ++ a.restV.2 ++ txt "\n") ++
  (if a.o.helpOpt.isEmpty then [] else txt "  -" ++ a.o.helpOpt ++ txt " " ++ a.help ++ txt "\n") ++
  ((a.o.infoVec.zip a.optV).flatMap fun x => x.1.usage x.2.2)

/-- `usage()` (option.hpp:673-704): the bytes printed.  Simplified: texts do not contain a NUL (`printf` would stop there). -/
def AOpt.usageText {α : Type} (a : AOpt α) : Str :=
  (if a.desc.isEmpty then [] else a.desc ++ txt "\n") ++
  (if a.usage.isEmpty then a.synopsis ++ a.details
    else a.usage ++ txt "\n" ++ (if a.showOptUsage then a.details else []))

/-- `operator<<` of `Info` (option.hpp:312-321); `shown` is `toStr`. -/
def Info.dump {α : Type} (shown : α → Str) (i : Info α) : Str :=
  i.opt ++ txt "=" ++ shown i.var.st ++ (if i.var.isSet then txt " (set)" else txt " (default)")

/-- `operator<<` of `Option` (option.hpp:705-718) -/
def AOpt.dump {α : Type} (shown : α → Str) (a : AOpt α) : Str :=
  (a.o.paramVec.flatMap fun i => i.opt ++ txt "=" ++ shown i.var.st ++ txt "\n") ++
  (if a.o.paramMode = .variable then txt "remains=" ++ (match a.o.remains with | some r => shown r.var.st | none => []) ++ txt "\n" else []) ++
  (a.o.infoVec.flatMap fun i => i.dump shown ++ txt "\n")

/-- The copy constructor of `Var` (option.hpp:255) in an `Info`: `isSet_` is false in the copy. -/
def Info.copy {α : Type} (i : Info α) : Info α := { i with var := { i.var with isSet := false } }

/-- The implicit copy constructor of `Option` (option.hpp:283, 339-352).  `remains_.var` is copied too, and `rhs.p_->clone()` (255)
dereferences its pointer.  Simplified: that the copy and the original write to the same variables is in
`Verif/Model/OptionShare.lean`. -/
def AOpt.copy {α : Type} (a : AOpt α) : Res (AOpt α) :=
  match a.o.remains with
  | none => .ub
  | some r => .ok { a with o := { a.o with infoVec := a.o.infoVec.map Info.copy, paramVec := a.o.paramVec.map Info.copy, remains := some r.copy } }

/-- `infoVec_.push_back(..)` (option.hpp:362) when the vector has room for `cap` elements: a full vector moves, and as `Var` has no move
constructor (option.hpp:254-257), all elements are copied. -/
def pushInfo {α : Type} (cap : Nat) (v : List (Info α)) (x : Info α) : List (Info α) :=
  if v.length = cap then v.map Info.copy ++ [x] else v ++ [x]

end Verif.Opt
