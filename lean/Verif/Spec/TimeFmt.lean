import Verif.Spec.Numeral

/-!
# Specification for formatted times
-/
namespace Verif.TimeFmtSpec
open Verif.Spec.Numeral

/-- The day of the week of a day, counted from Thursday, the 1st of January 1970. -/
def weekday : Nat → Nat
  | 0 => 4
  | n + 1 => if weekday n = 6 then 0 else weekday n + 1

/-- `txt` is `v` in `n` decimal digits. -/
def Dec (n : Nat) (txt : List UInt8) (v : Nat) : Prop := txt.length = n ∧ value? 10 txt = some v

/-- A date with the time of day, the number of the day since 1970 and in the year (both from 0). -/
structure When where
  year : Nat
  mon : Nat
  mday : Nat
  hour : Nat
  min : Nat
  sec : Nat
  day : Nat
  yday : Nat

/-- Bytes of an ASCII text. -/
def ascii (s : String) : List UInt8 := s.toList.map fun c => UInt8.ofNat c.toNat

def days : List String := ["Sunday", "Monday", "Tuesday", "Wednesday", "Thursday", "Friday", "Saturday"]
def months : List String :=
  ["January", "February", "March", "April", "May", "June", "July", "August", "September", "October", "November", "December"]

/-- What a conversion may print. -/
inductive Means (w : When) : Char → List UInt8 → Prop where
  | Y (x) : (w.year < 10000 → Dec 4 x w.year) → (10000 ≤ w.year → Canonical 10 x w.year) → Means w 'Y' x
  | y (x) : Dec 2 x (w.year % 100) → Means w 'y' x
  | m (x) : Dec 2 x (w.mon + 1) → Means w 'm' x
  | b (s) : months[w.mon]? = some s → Means w 'b' ((ascii s).take 3)
  | h (s) : months[w.mon]? = some s → Means w 'h' ((ascii s).take 3)
  | B (s) : months[w.mon]? = some s → Means w 'B' (ascii s)
  | d (x) : Dec 2 x w.mday → Means w 'd' x
  | e1 (x) : w.mday < 10 → Dec 1 x w.mday → Means w 'e' (32 :: x)
  | e2 (x) : 10 ≤ w.mday → Dec 2 x w.mday → Means w 'e' x
  | H (x) : Dec 2 x w.hour → Means w 'H' x
  | I (x v) : Dec 2 x v → 1 ≤ v → v ≤ 12 → v % 12 = w.hour % 12 → Means w 'I' x
  | am : w.hour < 12 → Means w 'p' (ascii "AM")
  | pm : 12 ≤ w.hour → Means w 'p' (ascii "PM")
  | M (x) : Dec 2 x w.min → Means w 'M' x
  | S (x) : Dec 2 x w.sec → Means w 'S' x
  | a (s) : days[weekday w.day]? = some s → Means w 'a' ((ascii s).take 3)
  | A (s) : days[weekday w.day]? = some s → Means w 'A' (ascii s)
  | j (x) : Dec 3 x (w.yday + 1) → Means w 'j' x
  | w (x) : Dec 1 x (weekday w.day) → Means w 'w' x
  | u (x v) : Dec 1 x v → 1 ≤ v → v ≤ 7 → v % 7 = weekday w.day → Means w 'u' x
  | percent : Means w '%' (ascii "%")
  | n : Means w 'n' (ascii "\n")
  | t : Means w 't' (ascii "\t")

/-- Conversions that stand for formats. -/
def stands : Char → _root_.Option String
  | 'F' => some "%Y-%m-%d"
  | 'T' => some "%H:%M:%S"
  | 'R' => some "%H:%M"
  | 'D' => some "%m/%d/%y"
  | _ => none

/-- The text `x` is what the format stands for. -/
inductive Text (w : When) : List UInt8 → List UInt8 → Prop where
  | nil : Text w [] []
  | lit (c : UInt8) (fmt x) : c ≠ 37 → Text w fmt x → Text w (c :: fmt) (c :: x)
  | dir (c : Char) (fmt x y) : Means w c y → Text w fmt x → Text w (37 :: UInt8.ofNat c.toNat :: fmt) (y ++ x)
  | comp (c : Char) (s : String) (fmt x y) : stands c = some s → Text w (ascii s) y → Text w fmt x →
      Text w (37 :: UInt8.ofNat c.toNat :: fmt) (y ++ x)

/-- The format uses only conversions of the list, and does not end in the middle of one. -/
inductive Known : List UInt8 → Prop where
  | nil : Known []
  | lit (c : UInt8) (fmt) : c ≠ 37 → Known fmt → Known (c :: fmt)
  | dir (c : UInt8) (fmt) : c ∈ ascii "YymbhBdeHIpMSaAjwu%ntFTRD" → Known fmt → Known (37 :: c :: fmt)

/-- Leap years of the Gregorian calendar. -/
def leap (y : Nat) : Prop := y % 400 = 0 ∨ (y % 4 = 0 ∧ y % 100 ≠ 0)
instance (y : Nat) : Decidable (leap y) := by unfold leap; infer_instance

/-- The lengths of the months. -/
def lengths (y : Nat) : List Nat := [31, if leap y then 29 else 28, 31, 30, 31, 30, 31, 31, 30, 31, 30, 31]

/-- The days from 1970 to the beginning of the year. -/
def daysTo (y : Nat) : Nat := ((List.range (y - 1970)).map fun i => (lengths (1970 + i)).sum).sum

/-- The date of a number of seconds since 1970. -/
def IsDate (t : Nat) (w : When) : Prop :=
  1970 ≤ w.year ∧ (∃ n, (lengths w.year)[w.mon]? = some n ∧ 1 ≤ w.mday ∧ w.mday ≤ n) ∧ w.hour < 24 ∧ w.min < 60 ∧ w.sec < 60 ∧
  w.yday = ((lengths w.year).take w.mon).sum + (w.mday - 1) ∧ w.day = daysTo w.year + w.yday ∧
  t = ((w.day * 24 + w.hour) * 60 + w.min) * 60 + w.sec

end Verif.TimeFmtSpec
