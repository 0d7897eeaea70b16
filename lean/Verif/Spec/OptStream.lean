/-!
# Decimal numerals, for C152

Written as a grammar, without reading anything from left to right.
-/
namespace Verif.Spec.OptStream

/-- A white-space character. -/
def Space (c : UInt8) : Prop := c = 32 ∨ c = 9 ∨ c = 10 ∨ c = 11 ∨ c = 12 ∨ c = 13

/-- A digit. -/
def Digit (c : UInt8) : Prop := 48 ≤ c.toNat ∧ c.toNat ≤ 57

/-- An optional sign. -/
def Sign (s : List UInt8) : Prop := s = [] ∨ s = [43] ∨ s = [45]

/-- The number the digits denote, the last one counting once. -/
def value : List UInt8 → Nat
  | [] => 0
  | d :: ds => (d.toNat - 48) * 10 ^ ds.length + value ds

/-- An exponent: the letter, the sign, the digits. -/
structure Expo where
  letter : UInt8
  sign : List UInt8
  digits : List UInt8

/-- The parts of a numeral.  Without a point `frac` is `none`. -/
structure Numeral where
  sign : List UInt8
  int : List UInt8
  frac : Option (List UInt8)
  expo : Option Expo

/-- How the exponent is written. -/
def Expo.text (e : Expo) : List UInt8 := e.letter :: (e.sign ++ e.digits)

/-- Its value. -/
def Expo.value (e : Expo) : Int := if e.sign = [45] then -(OptStream.value e.digits : Int) else OptStream.value e.digits

/-- An exponent that is one. -/
def Expo.Ok (e : Expo) : Prop := (e.letter = 101 ∨ e.letter = 69) ∧ Sign e.sign ∧ e.digits ≠ [] ∧ ∀ c ∈ e.digits, Digit c

/-- The text of the fraction. -/
def fracText (f : Option (List UInt8)) : List UInt8 := f.elim [] (46 :: ·)

/-- The text of a numeral. -/
def Numeral.text (n : Numeral) : List UInt8 := n.sign ++ n.int ++ fracText n.frac ++ n.expo.elim [] Expo.text

/-- The parts form a numeral: an optional sign, digits before or after the point, an optional exponent. -/
def Numeral.Ok (n : Numeral) : Prop :=
  Sign n.sign ∧ (∀ c ∈ n.int, Digit c) ∧ (∀ f ∈ n.frac, ∀ c ∈ f, Digit c) ∧ (n.int ≠ [] ∨ ∃ f, n.frac = some f ∧ f ≠ []) ∧ ∀ e ∈ n.expo, e.Ok

/-- Whether it has a minus sign, its digits as one number, and the power of ten. -/
def Numeral.exact (n : Numeral) : Bool × Nat × Int :=
  (decide (n.sign = [45]), value (n.int ++ n.frac.getD []), (n.expo.elim 0 Expo.value) - (n.frac.getD []).length)

/-- `t` does not go on with the numeral: no digit, no exponent unless there is one, no point unless there is one or an exponent. -/
def Numeral.Ends (n : Numeral) (t : List UInt8) : Prop :=
  ∀ c ∈ t.head?, ¬ Digit c ∧ (n.expo = none → c ≠ 101 ∧ c ≠ 69 ∧ (n.frac = none → c ≠ 46))

end Verif.Spec.OptStream
