import Verif.Spec.Numeral
import Verif.Model.Common

/-!
# What a typed query answers

The text of the value is looked at up to its first NUL.
-/
namespace Verif.Spec.ConfigGet
open Verif.Spec.Numeral

/-- The answer for a value text (`none`: the key is missing): the number if the text is a decimal numeral of the type, an
exception if it is not or if there is none and no default. -/
def answerNat (hi : Nat) (dflt : Option Nat) : Option (List UInt8) → Res Nat
  | none => match dflt with
    | some d => .ok d
    | none => .throw
  | some v => match parseNat 10 hi (upToNul v) with
    | some n => .ok n
    | none => .throw

/-- The same for a signed type with the range `[-W, W-1]`. -/
def answerInt (W : Nat) (dflt : Option Int) : Option (List UInt8) → Res Int
  | none => match dflt with
    | some d => .ok d
    | none => .throw
  | some v => match parseInt W (W - 1) (upToNul v) with
    | some n => .ok n
    | none => .throw

end Verif.Spec.ConfigGet
