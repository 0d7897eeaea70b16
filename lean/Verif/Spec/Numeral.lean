/-!
# Specification: positional numerals
-/
namespace Verif.Spec.Numeral

/-- Value of one digit character (0-9, A-F, a-f). -/
def digit? (c : UInt8) : Option Nat :=
  if 48 ≤ c ∧ c ≤ 57 then some (c.toNat - 48)
  else if 65 ≤ c ∧ c ≤ 70 then some (c.toNat - 55)
  else if 97 ≤ c ∧ c ≤ 102 then some (c.toNat - 87)
  else none

/-- Value of a digit string in base `b`, most significant digit first; `none` if some character is
not a digit of that base. -/
def value? (b : Nat) (s : List UInt8) : Option Nat :=
  s.foldl (fun acc c =>
    match acc, digit? c with
    | some v, some d => if d < b then some (v * b + d) else none
    | _, _ => none) (some 0)

/-- `s` is the canonical numeral of `x` in base `b`: non-empty, right value, no leading zero. -/
def Canonical (b : Nat) (s : List UInt8) (x : Nat) : Prop :=
  s ≠ [] ∧ value? b s = some x ∧ (s.head? = some 48 → s.length = 1)

/-- Canonical decimal text of an integer: a minus sign exactly for negative values. -/
def CanonicalInt (s : List UInt8) (x : Int) : Prop :=
  if x < 0 then ∃ t, s = 45 :: t ∧ Canonical 10 t (-x).toNat
  else Canonical 10 s x.toNat

/-- Characters before the first NUL. -/
def upToNul (s : List UInt8) : List UInt8 := s.takeWhile (· ≠ 0)

/-- A non-empty digit string with value at most `hi`. -/
def parseNat (b hi : Nat) (s : List UInt8) : Option Nat :=
  if s = [] then none
  else match value? b s with
    | some v => if v ≤ hi then some v else none
    | none => none

/-- An optional minus sign followed by a non-empty decimal digit string, with value in
`[-lo, hi]`. -/
def parseInt (lo hi : Nat) (s : List UInt8) : Option Int :=
  match s with
  | 45 :: t => (parseNat 10 lo t).map (fun v : Nat => -(v : Int))
  | _ => (parseNat 10 hi s).map (fun v : Nat => (v : Int))

/-- A text that starts with a minus sign and a numeral of `W` (leading zeros allowed) and then goes
on with at least one more character. -/
def MinThenMore (W : Nat) (t : List UInt8) : Prop :=
  ∃ k d c r, t = 45 :: (List.replicate k 48 ++ d ++ c :: r) ∧ Canonical 10 d W

end Verif.Spec.Numeral
