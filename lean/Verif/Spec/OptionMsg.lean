import Verif.Spec.Option
import Verif.Model.OptionMsg

/-!
# Specification of `isSet`, of the program name and of the usage message
-/
namespace Verif.Spec.Opt
open Verif.Opt (AReg Reg Mode)

/-- What a user declared of an option. -/
structure ODecl where
  name : Str
  mode : Mode
  must : Bool
  addr : Nat
  help : Str

/-- What a user declared of a parameter. -/
structure PDecl where
  name : Str
  addr : Nat
  help : Str

/-- The options declared, in order. -/
def odecls {α : Type} (rs : List (AReg α)) : List ODecl :=
  rs.filterMap fun r => match r.reg with
    | .opt _ _ mode must name => some ⟨name, mode, must, r.addr, r.help⟩
    | _ => none

/-- The parameters declared, in order. -/
def pdecls {α : Type} (rs : List (AReg α)) : List PDecl :=
  rs.filterMap fun r => match r.reg with
    | .param _ _ name => some ⟨name, r.addr, r.help⟩
    | .paramOpt _ _ name => some ⟨name, r.addr, r.help⟩
    | _ => none

/-- The declaration for the values left over. -/
def rdecl {α : Type} (rs : List (AReg α)) : Option PDecl :=
  (rs.filterMap fun r => match r.reg with
    | .paramVec _ _ name => some (⟨name, r.addr, r.help⟩ : PDecl)
    | _ => none).getLast?

/-- All variables have different addresses, and none is at the null address. -/
def Separate {α : Type} (rs : List (AReg α)) : Prop :=
  ((pdecls rs).map (·.addr) ++ (rdecl rs).toList.map (·.addr) ++ (odecls rs).map (·.addr)).Nodup ∧
  0 ∉ (pdecls rs).map (·.addr) ++ (rdecl rs).toList.map (·.addr) ++ (odecls rs).map (·.addr)

/-- `r` is the last component of the path `name`. -/
def LastPart (name r : Str) : Prop :=
  47 ∉ r ∧ 92 ∉ r ∧ (r = name ∨ ∃ dir sep, (sep = 47 ∨ sep = 92) ∧ name = dir ++ sep :: r)

end Verif.Spec.Opt
