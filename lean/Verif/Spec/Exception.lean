import Verif.Spec.Numeral

/-!
# Specification: texts of errors and stack traces
-/
namespace Verif.Spec.Exception
open Verif.Spec.Numeral


/-- The text of an error: the name and every part, separated by colons. -/
def joined : List (List UInt8) → List UInt8
  | [] => []
  | [x] => x
  | x :: l => x ++ [58] ++ joined l

/-- `%d` writes the decimal numeral. -/
def WritesInt (f : Int → List UInt8) : Prop := ∀ x, CanonicalInt (f x) x

/-- `%llx` writes the hexadecimal numeral. -/
def WritesHex (f : Nat → List UInt8) : Prop := ∀ x, Canonical 16 (f x) x

/-- `%04x` of a 16-bit number writes four hexadecimal digits. -/
def WritesHex4 (f : Nat → List UInt8) : Prop := ∀ x < 65536, (f x).length = 4 ∧ value? 16 (f x) = some x

/-- A symbol as `backtrace_symbols` prints it, `object(function+offset...`; the object has no opening parenthesis, the function
no plus sign. -/
def IsSymbol (s obj func rest : List UInt8) : Prop := s = obj ++ [40] ++ func ++ [43] ++ rest ∧ (40 : UInt8) ∉ obj ∧ (43 : UInt8) ∉ func

end Verif.Spec.Exception
