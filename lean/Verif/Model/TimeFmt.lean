import Verif.Model.Time

/-!
# Model of `Time::toString` with a format and of `Time::setCurrentTime` (`include/cybozu/time.hpp:166-228`)

`strftime` is modelled from the C standard (C locale) for the conversions listed in `directive` and `composite`; the others (`%c`, `%x`,
`%U`, `%Z`, modifiers ...) are not modelled and make the result `.ub`.  A format is a C string without its terminating zero.
-/
namespace Verif.TimeFmt
open Verif.Time

/-- `struct tm` with the day of the week (0 is Sunday) and the day of the year (from 0) (time.hpp:179). -/
structure Day where
  tm : Tm
  wday : Nat
  yday : Nat

/-- `gmtime_r` with all fields, for times from 1970 on (time.hpp:183). -/
def gmtimeAll (t : Nat) : Day :=
  let tm := gmtime t
  ⟨tm, (t / 86400 + 4) % 7, t / 86400 - daysBeforeYear (tm.year - 1970)⟩

/-- English names of the days in the C locale (`strftime`, time.hpp:190). -/
def dayNames : List (List UInt8) :=
  [[83, 117, 110, 100, 97, 121], [77, 111, 110, 100, 97, 121], [84, 117, 101, 115, 100, 97, 121],
   [87, 101, 100, 110, 101, 115, 100, 97, 121], [84, 104, 117, 114, 115, 100, 97, 121], [70, 114, 105, 100, 97, 121],
   [83, 97, 116, 117, 114, 100, 97, 121]]

/-- English names of the months in the C locale (`strftime`, time.hpp:190). -/
def fullMonths : List (List UInt8) :=
  [[74, 97, 110, 117, 97, 114, 121], [70, 101, 98, 114, 117, 97, 114, 121], [77, 97, 114, 99, 104], [65, 112, 114, 105, 108],
   [77, 97, 121], [74, 117, 110, 101], [74, 117, 108, 121], [65, 117, 103, 117, 115, 116],
   [83, 101, 112, 116, 101, 109, 98, 101, 114], [79, 99, 116, 111, 98, 101, 114], [78, 111, 118, 101, 109, 98, 101, 114],
   [68, 101, 99, 101, 109, 98, 101, 114]]

/-- Decimal digits without leading zeros (`%Y` from the year 10000 on; `strftime`, time.hpp:190). -/
def decText (x : Nat) : List UInt8 :=
  if x < 10 then [UInt8.ofNat (48 + x)] else decText (x / 10) ++ [UInt8.ofNat (48 + x % 10)]

/-- A conversion of `strftime` that is not made of others (the call at time.hpp:190; C standard 7.27.3.5). -/
def directive (d : Day) (c : UInt8) : _root_.Option (List UInt8) :=
  if c = 89 then some (if d.tm.year < 10000 then dig4 d.tm.year else decText d.tm.year)         -- Y
  else if c = 121 then some (dig2 (d.tm.year % 100))                                            -- y
  else if c = 109 then some (dig2 (d.tm.mon + 1))                                               -- m
  else if c = 98 ∨ c = 104 then some ((fullMonths.getD d.tm.mon []).take 3)                     -- b h
  else if c = 66 then some (fullMonths.getD d.tm.mon [])                                        -- B
  else if c = 100 then some (dig2 d.tm.mday)                                                    -- d
  else if c = 101 then some (if d.tm.mday < 10 then [32, UInt8.ofNat (48 + d.tm.mday)] else dig2 d.tm.mday) -- e
  else if c = 72 then some (dig2 d.tm.hour)                                                     -- H
  else if c = 73 then some (dig2 ((d.tm.hour + 11) % 12 + 1))                                   -- I
  else if c = 112 then some (if d.tm.hour < 12 then [65, 77] else [80, 77])                     -- p
  else if c = 77 then some (dig2 d.tm.min)                                                      -- M
  else if c = 83 then some (dig2 d.tm.sec)                                                      -- S
  else if c = 97 then some ((dayNames.getD d.wday []).take 3)                                   -- a
  else if c = 65 then some (dayNames.getD d.wday [])                                            -- A
  else if c = 106 then some (UInt8.ofNat (48 + (d.yday + 1) / 100) :: dig2 ((d.yday + 1) % 100)) -- j
  else if c = 119 then some [UInt8.ofNat (48 + d.wday)]                                         -- w
  else if c = 117 then some [UInt8.ofNat (48 + if d.wday = 0 then 7 else d.wday)]               -- u
  else if c = 37 then some [37]                                                                 -- %
  else if c = 110 then some [10]                                                                -- n
  else if c = 116 then some [9]                                                                 -- t
  else none

/-- A conversion that stands for a format: `%F`, `%T`, `%R`, `%D` (the call at time.hpp:190; C standard 7.27.3.5). -/
def composite (c : UInt8) : _root_.Option (List UInt8) :=
  if c = 70 then some [37, 89, 45, 37, 109, 45, 37, 100]
  else if c = 84 then some [37, 72, 58, 37, 77, 58, 37, 83]
  else if c = 82 then some [37, 72, 58, 37, 77]
  else if c = 68 then some [37, 109, 47, 37, 100, 47, 37, 121]
  else none

/-- The text a format without composite conversions stands for (`strftime`, time.hpp:190). -/
def expandSimple (d : Day) : List UInt8 → _root_.Option (List UInt8)
  | [] => some []
  | c :: fmt =>
    if c ≠ 37 then (expandSimple d fmt).map (c :: ·)
    else match fmt with
      | [] => none
      | k :: fmt => match directive d k, expandSimple d fmt with
        | some x, some t => some (x ++ t)
        | _, _ => none

/-- Any conversion (`strftime`, time.hpp:190). -/
def conv (d : Day) (k : UInt8) : _root_.Option (List UInt8) :=
  match composite k with
  | some sub => expandSimple d sub
  | none => directive d k

/-- The text a format stands for (`strftime`, time.hpp:190). -/
def expand (d : Day) : List UInt8 → _root_.Option (List UInt8)
  | [] => some []
  | c :: fmt =>
    if c ≠ 37 then (expand d fmt).map (c :: ·)
    else match fmt with
      | [] => none
      | k :: fmt => match conv d k, expand d fmt with
        | some x, some t => some (x ++ t)
        | _, _ => none

/-- `toString(out, format, appendMsec, doClear)` (time.hpp:175-202): whether it returned, and `out`.  `strftime` writes at most 127
characters and a zero, and returns 0 if there are more (or none).  `gmtime_r` fails if the year does not fit an `int`.  `buf` is the
local buffer of `itoaWithZero`. -/
def toStringFmt (buf out fmt : List UInt8) (t : Time) (app clear : Bool) : Res (Bool × List UInt8) :=
  let out := if clear then [] else out
  let d := gmtimeAll t.time.toNat
  if d.tm.year - 1900 > 2147483647 then .ok (false, out)
  else match expand d fmt with
    | none => .ub
    | some s =>
      if s.length = 0 ∨ 128 ≤ s.length then .ok (false, out)
      else if app then do
        let m ← Itoa.itoaWithZero buf t.msec 3 48
        return (true, out ++ s ++ m)
      else .ok (true, out ++ s)

/-- The format of the other `toString` (time.hpp:208). -/
def defaultFmt (app : Bool) : List UInt8 :=
  if app then [37, 89, 45, 37, 109, 45, 37, 100, 32, 37, 72, 58, 37, 77, 58, 37, 83, 46]
  else [37, 89, 45, 37, 109, 45, 37, 100, 32, 37, 72, 58, 37, 77, 58, 37, 83]

/-- `setCurrentTime` (time.hpp:215-228): what `gettimeofday` says. The Windows branch (time.hpp:217-221) takes
seconds and milliseconds as they are. -/
def setCurrentTime (sec usec : Nat) : Time := ⟨sec, usec / 1000⟩

end Verif.TimeFmt
