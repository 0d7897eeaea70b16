import Verif.Model.Atoi
import Verif.Model.Itoa

/-!
# Model of `include/cybozu/time.hpp`

`time_t` is a 64-bit signed integer.  The C library functions are modelled by their documented meaning (they are not part of
the repository): `timegm` and `gmtime_r` by the proleptic Gregorian calendar from 1970 on, `strftime` for the one format
`toString` uses.  `setCurrentTime` and `toString` with other formats are in `Verif/Model/TimeFmt.lean`; `getTimeSec` (floating point) is not modelled.
-/
namespace Verif.Time

/-- `Time` (time.hpp:24-27). -/
structure Time where
  time : Int
  msec : Int
  deriving DecidableEq, Repr

/-- `epochBias` (time.hpp:25). -/
def epochBias : UInt64 := 116444736000000000

/-- `setByFILETIME` (time.hpp:52-57); assigning to `time_t` and `int` keeps the values, which are small. -/
def setByFILETIME (low high : UInt32) : Time :=
  let fileTime := (((high.toUInt64 <<< 32) ||| low.toUInt64) - epochBias) / 10000
  { time := (fileTime / 1000).toNat, msec := (fileTime % 1000).toNat }

/-- A signed 64-bit result; overflow is undefined. -/
def int64 (x : Int) : Res Int := if -2 ^ 63 ≤ x ∧ x < 2 ^ 63 then .ok x else .ub

/-- `getFILETIME` with a 32-bit `dword` (time.hpp:62-67). -/
def getFILETIME (t : Time) : Res (UInt32 × UInt32) := do
  let a ← int64 (t.time * 1000)
  let b ← int64 (a + t.msec)
  let c ← int64 (b * 10000)
  let fileTime := UInt64.ofInt c + epochBias
  return (fileTime.toUInt32, (fileTime >>> 32).toUInt32)

/-- `operator<` (time.hpp:80). -/
def lt (a b : Time) : Bool := decide (a.time < b.time) || (decide (a.time = b.time) && decide (a.msec < b.msec))

/-- `operator==` (time.hpp:83). -/
def eq (a b : Time) : Bool := decide (a.time = b.time) && decide (a.msec = b.msec)

/-- `addSec` (time.hpp:79). -/
def addSec (t : Time) (sec : Int) : Res Time := do
  let s ← int64 (t.time + sec)
  return { t with time := s }

/-! ## The calendar of the C library -/

/-- Leap years of the Gregorian calendar. -/
def isLeap (y : Nat) : Bool := (y % 4 = 0 && y % 100 ≠ 0) || y % 400 = 0
/-- Days of a year. -/
def yearLen (y : Nat) : Nat := if isLeap y then 366 else 365
/-- Days of a month (0 = January). -/
def monthLen (y m : Nat) : Nat := if m = 1 then (if isLeap y then 29 else 28) else if m = 3 ∨ m = 5 ∨ m = 8 ∨ m = 10 then 30 else 31
/-- Days from 1970-01-01 to the first day of the year `1970 + n`. -/
def daysBeforeYear : Nat → Nat
  | 0 => 0
  | n + 1 => daysBeforeYear n + yearLen (1970 + n)
/-- Days of a year before the month. -/
def daysBeforeMonth (y : Nat) : Nat → Nat
  | 0 => 0
  | m + 1 => daysBeforeMonth y m + monthLen y m

/-- `timegm` for the fields `fromString` sets (time.hpp:151): year, month from 0, day from 1, hour, minute, second.  A day beyond the
end of the month counts on into the next. -/
def timegm (y mon mday hour min sec : Nat) : Nat :=
  (((daysBeforeYear (y - 1970) + daysBeforeMonth y mon + (mday - 1)) * 24 + hour) * 60 + min) * 60 + sec

/-- The year that contains a day, and the day in it. -/
def findYear : (fuel n d : Nat) → Nat × Nat
  | 0, n, d => (n, d)
  | fuel + 1, n, d => if d < yearLen (1970 + n) then (n, d) else findYear fuel (n + 1) (d - yearLen (1970 + n))
/-- The month that contains a day of the year, and the day in it. -/
def findMonth (y : Nat) : (fuel m d : Nat) → Nat × Nat
  | 0, m, d => (m, d)
  | fuel + 1, m, d => if d < monthLen y m then (m, d) else findMonth y fuel (m + 1) (d - monthLen y m)

/-- `struct tm` (the fields used). -/
structure Tm where
  year : Nat
  mon : Nat
  mday : Nat
  hour : Nat
  min : Nat
  sec : Nat

/-- `gmtime_r` for times from 1970 on (time.hpp:183). -/
def gmtime (t : Nat) : Tm :=
  let d := t / 86400
  let (n, r) := findYear d 0 d
  let (m, r) := findMonth (1970 + n) 11 0 r
  { year := 1970 + n, mon := m, mday := r + 1, hour := t % 86400 / 3600, min := t % 3600 / 60, sec := t % 60 }

/-! ## Text -/

/-- Two decimal digits. -/
def dig2 (x : Nat) : List UInt8 := [UInt8.ofNat (48 + x / 10), UInt8.ofNat (48 + x % 10)]
/-- `%Y` for years of four digits. -/
def dig4 (x : Nat) : List UInt8 := dig2 (x / 100) ++ dig2 (x % 100)

/-- `strftime` with the format `"%Y-%m-%d %H:%M:%S"`, followed by '.' if milliseconds follow (time.hpp:190, 208). -/
def strftime (tm : Tm) : List UInt8 :=
  dig4 tm.year ++ [45] ++ dig2 (tm.mon + 1) ++ [45] ++ dig2 tm.mday ++ [32] ++ dig2 tm.hour ++ [58] ++ dig2 tm.min ++ [58] ++ dig2 tm.sec

/-- `toString` (time.hpp:175-211) for times from 1970 to 9999; `buf` is the local buffer of `itoaWithZero`. -/
def toString (buf : List UInt8) (t : Time) (appendMsec : Bool) : Res (List UInt8) :=
  let s := strftime (gmtime t.time.toNat)
  if appendMsec then do
    let m ← Itoa.itoaWithZero buf t.msec 3 48
    return s ++ [46] ++ m
  else .ok s

/-- `getNum` (time.hpp:232-241) at offset `p`; `none` is `*b = false`. -/
def getNum (mem : List UInt8) (p len : Nat) (min max : Int) : Res (Option Int) := do
  let r ← Atoi.convertToInt Atoi.sint32 true (mem.drop p) len
  match r with
  | some ret => return if min ≤ ret ∧ ret ≤ max then some ret else none
  | none => return none

/-- `monthTbl` (time.hpp:251-253). -/
def monthTbl : List (List UInt8) :=
  [[74, 97, 110], [70, 101, 98], [77, 97, 114], [65, 112, 114], [77, 97, 121], [74, 117, 110],
   [74, 117, 108], [65, 117, 103], [83, 101, 112], [79, 99, 116], [78, 111, 118], [68, 101, 99]]

/-- The loop of `getMonth` (time.hpp:255-260). -/
def findName (mem : List UInt8) (p : Nat) : (i : Nat) → List (List UInt8) → Res (Option Nat)
  | _, [] => .ok none
  | i, name :: names => do
    let b ← Atoi.memEq name (mem.drop p)
    if b then return some i else findName mem p (i + 1) names

/-- `getMonth` (time.hpp:249-268): month from 0, and the next position. -/
def getMonth (mem : List UInt8) (p : Nat) : Res (Option (Int × Nat)) := do
  let r ← findName mem p 0 monthTbl
  match r with
  | some i => return some (i, p + 3)
  | none => do
    let n ← getNum mem p 2 1 12
    match n with
    | some n => return some (n - 1, p + 2)
    | none => return none

/-- A two digit field followed by a character of the set `sep` (time.hpp:115-129). -/
def field (mem : List UInt8) (p : Nat) (min max : Int) (sep : List UInt8) : Res (Option Int) := do
  let n ← getNum mem p 2 min max
  match n with
  | none => return none
  | some n => do
    let c ← at? mem (p + 2)
    return if c ∈ sep then some n else none

/-- The date and the time of day (time.hpp:104-133): the fields and the position after them. -/
def parseDate (mem : List UInt8) : Res (Option (Int × Int × Int × Nat)) := do
  let y ← getNum mem 0 4 1970 3000
  match y with
  | none => return none
  | some y => do
    let sep ← at? mem 4
    if sep ≠ 45 ∧ sep ≠ 47 then return none
    else do
      let m ← getMonth mem 5
      match m with
      | none => return none
      | some (mon, p) => do
        let c ← at? mem p
        if c ≠ sep then return none
        else do
          let d ← field mem (p + 1) 1 31 [32, 84]
          match d with
          | none => return none
          | some d => return some (y, mon, d, p + 4)

/-- Hour, minute and second (time.hpp:121-133). -/
def parseClock (mem : List UInt8) (p : Nat) : Res (Option (Int × Int × Int × Nat)) := do
  let h ← field mem p 0 23 [58]
  match h with
  | none => return none
  | some h => do
    let m ← field mem (p + 3) 0 59 [58]
    match m with
    | none => return none
    | some m => do
      let s ← getNum mem (p + 6) 2 0 59
      match s with
      | none => return none
      | some s => return some (h, m, s, p + 8)

/-- The rest (time.hpp:135-146): `none` is `goto ERR` without a change of `msec_`, `some m` is `msec_ = m`, and the flag tells whether all is well.
Comparisons of pointers are comparisons of offsets (forming a pointer beyond the end is not counted as undefined). -/
def parseRest (mem : List UInt8) (len p : Nat) : Res (Option Int × Bool) :=
  if p = len then .ok (some 0, true)
  else do
    let c ← at? mem p
    if p + 1 = len ∧ c = 90 then return (some 0, true)
    else if c = 46 then
      if p + 4 = len then do
        let m ← getNum mem (p + 1) 3 0 999
        match m with
        | some m => return (some m, true)
        | none => return (some 0, false)
      else if p + 5 = len then do
        let z ← at? mem (p + 4)
        if z = 90 then do
          let m ← getNum mem (p + 1) 3 0 999
          match m with
          | some m => return (some m, true)
          | none => return (some 0, false)
        else return (none, false)
      else return (none, false)
    else return (none, false)

/-- The label `ERR` (time.hpp:158-163): without the flag the text of the exception is made from 24 characters. -/
def err (flag : Bool) (t : Time) (mem : List UInt8) : Res (Bool × Time) :=
  if flag then .ok (false, t) else if 24 ≤ mem.length then .throw else .ub

/-- `fromString` (time.hpp:96-164) of the characters `[begin, begin + len)`; `mem` is what can be read from `begin` on. -/
def fromString (flag : Bool) (t : Time) (mem : List UInt8) (len : Nat) : Res (Bool × Time) :=
  if len ≥ 19 then do
    let d ← parseDate mem
    match d with
    | none => err flag t mem
    | some (y, mon, mday, p) => do
      let c ← parseClock mem p
      match c with
      | none => err flag t mem
      | some (h, mi, s, p) => do
        let (m, b) ← parseRest mem len p
        let t : Time := match m with | some m => { t with msec := m } | none => t
        if b then return (true, { t with time := timegm y.toNat mon.toNat mday.toNat h.toNat mi.toNat s.toNat }) else err flag t mem
  else err flag t mem

end Verif.Time
