import Verif.Spec.Numeral

/-! The texts that denote times (the comment at time.hpp:85-92). -/
namespace Verif.Spec.Time

open Verif.Spec.Numeral

/-- A numeric field: `n` characters that stand for `v`, which is between `lo` and `hi`. -/
abbrev FieldRel := (n lo hi : Nat) → (text : List UInt8) → (v : Nat) → Prop

/-- The intended reading of a field: exactly `n` decimal digits. -/
def Digits : FieldRel := fun n lo hi text v => text.length = n ∧ value? 10 text = some v ∧ lo ≤ v ∧ v ≤ hi

/-- The reading of the program: what stands before a NUL character, possibly with a minus sign. -/
def Loose : FieldRel := fun n lo hi text v =>
  text.length = n ∧ parseInt 2147483648 2147483647 (upToNul text) = some (v : Int) ∧ lo ≤ v ∧ v ≤ hi

/-- The English month names. -/
def monthNames : List (List UInt8) :=
  [[74, 97, 110], [70, 101, 98], [77, 97, 114], [65, 112, 114], [77, 97, 121], [74, 117, 110],
   [74, 117, 108], [65, 117, 103], [83, 101, 112], [79, 99, 116], [78, 111, 118], [68, 101, 99]]

/-- The text `s` has the form `Y-M-D h:m:s`, with the given values (month from 0). -/
inductive Shape (F : FieldRel) : List UInt8 → (y mon d h m sec ms : Nat) → Prop where
  | mk (ty tm td th tmi ts tail : List UInt8) (sep dsep : UInt8) (y mon d h m sec ms : Nat) :
    F 4 1970 3000 ty y → (sep = 45 ∨ sep = 47) → ((monthNames[mon]? = some tm) ∨ F 2 1 12 tm (mon + 1)) → F 2 1 31 td d → (dsep = 32 ∨ dsep = 84) →
    F 2 0 23 th h → F 2 0 59 tmi m → F 2 0 59 ts sec →
    ((tail = [] ∧ ms = 0) ∨ (tail = [90] ∧ ms = 0) ∨ (∃ t, (tail = 46 :: t ∨ tail = 46 :: (t ++ [90])) ∧ F 3 0 999 t ms)) →
    Shape F (ty ++ [sep] ++ tm ++ [sep] ++ td ++ [dsep] ++ th ++ [58] ++ tmi ++ [58] ++ ts ++ tail) y mon d h m sec ms

end Verif.Spec.Time
