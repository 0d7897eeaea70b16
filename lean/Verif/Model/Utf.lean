import Verif.Model.StringOp

/-!
# Model of the UTF-8/UTF-16 conversions of `include/cybozu/string.hpp`

`char` is a byte 0..255, `Char16` (`unsigned short`) a number below 2^16, `Char` (`wchar_t`, signed 32 bits on
Linux) an `Int`.  An iterator range is the list of what is left to read.
-/
namespace Verif.Utf
open Verif.StringOp (toUnsigned)

/-- `string_local::in` (string.hpp:71-75). -/
def within (c : Nat) (min max : Int) : Bool := decide (toUnsigned ((c : Int) - min) ≤ toUnsigned (max - min))

/-- `GetCharSize` (string.hpp:114-122). -/
def getCharSize (c : Int) : Nat :=
  if c ≤ 0x7f then 1
  else if c ≤ 0x7ff then 2
  else if c ≤ 0xd7ff then 3
  else if c ≤ 0xdfff ∨ c > 0x10ffff then 0
  else if c ≤ 0xffff then 3
  else 4

/-- `IsValidChar` (string.hpp:125-128). -/
def isValidCode (c : Int) : Bool := decide (getCharSize c ≠ 0)

/-- The two-byte branch of `GetCharFromUtf8` (string.hpp:144-150). -/
def decode2 (c0 : Nat) : List Nat → Option (Int × List Nat)
  | c1 :: s =>
    if within c1 0x80 0xbf then some (((c0 <<< 6 ||| (c1 &&& 0x3f) : Nat) : Int) - 0x3000, s) else none
  | [] => none

/-- The three-byte branch of `GetCharFromUtf8` (string.hpp:152-166). -/
def decode3 (c0 : Nat) : List Nat → Option (Int × List Nat)
  | c1 :: c2 :: s =>
    if within c2 0x80 0xbf then
      if (c0 == 0xe0 && within c1 0xa0 0xbf)
          || (within c0 0xe1 0xec && within c1 0x80 0xbf)
          || (c0 == 0xed && within c1 0x80 0x9f)
          || (within c0 0xee 0xef && within c1 0x80 0xbf) then
        some (((c0 <<< 12 ||| ((c1 &&& 0x3f) <<< 6) ||| (c2 &&& 0x3f) : Nat) : Int) - 0xe0000, s)
      else none
    else none
  | _ => none

/-- The four-byte branch of `GetCharFromUtf8` (string.hpp:168-184). -/
def decode4 (c0 : Nat) : List Nat → Option (Int × List Nat)
  | c1 :: c2 :: c3 :: s =>
    if within c2 0x80 0xbf && within c3 0x80 0xbf then
      if (c0 == 0xf0 && within c1 0x90 0xbf)
          || (within c0 0xf1 0xf3 && within c1 0x80 0xbf)
          || (c0 == 0xf4 && within c1 0x80 0x8f) then
        some (((c0 <<< 18 ||| ((c1 &&& 0x3f) <<< 12) ||| ((c2 &&& 0x3f) <<< 6) ||| (c3 &&& 0x3f) : Nat) : Int) - 0x3c00000, s)
      else none
    else none
  | _ => none

/-- `GetCharFromUtf8` (string.hpp:136-187): the character and the new `begin`; `none` is `false` (the position
is then unspecified).  An empty range is read outside. -/
def getCharFromUtf8 : List Nat → Res (Option (Int × List Nat))
  | [] => .ub
  | c0 :: s =>
    if c0 ≤ 0x7f then .ok (some ((c0 : Int), s))
    else if within c0 0xc2 0xdf then .ok (decode2 c0 s)
    else if c0 ≤ 0xef then .ok (decode3 c0 s)
    else if within c0 0xf0 0xf4 then .ok (decode4 c0 s)
    else .ok none

/-- `isLead` (string.hpp:198). -/
def isLead (c : Nat) : Bool := decide (c &&& 0xfffffc00 = 0xd800)

/-- `isTrail` (string.hpp:199). -/
def isTrail (c : Nat) : Bool := decide (c &&& 0xfffffc00 = 0xdc00)

/-- The second half of `GetCharFromUtf16` (string.hpp:206-214). -/
def decodePair (c0 : Nat) : List Nat → Option (Int × List Nat)
  | c1 :: s =>
    if isTrail c1 then some (((c0 <<< 10 : Nat) : Int) + c1 - ((0xd800 <<< 10 : Nat) + 0xdc00 - 0x10000), s) else none
  | [] => none

/-- `GetCharFromUtf16` (string.hpp:195-215). -/
def getCharFromUtf16 : List Nat → Res (Option (Int × List Nat))
  | [] => .ub
  | c0 :: s => if !isLead c0 then .ok (some ((c0 : Int), s)) else .ok (decodePair c0 s)

/-- `static_cast<char>` as a byte. -/
def byte (x : Int) : Nat := (x % 256).toNat

/-- `toUtf8` (string.hpp:217-242): the bytes written, `[]` for the result 0.  Past the first test `c` is
positive, so its shifts are those of a natural number. -/
def toUtf8 (c : Int) : List Nat :=
  let n := c.toNat
  if c ≤ 0x7f then [byte c]
  else if c ≤ 0x7ff then [byte ((n >>> 6) ||| 0xc0 : Nat), byte ((n &&& 0x3f) ||| 0x80 : Nat)]
  else if c ≤ 0xffff then
    if 0xd7ff < c ∧ c ≤ 0xdfff then []
    else [byte ((n >>> 12) ||| 0xe0 : Nat), byte (((n >>> 6) &&& 0x3f) ||| 0x80 : Nat), byte ((n &&& 0x3f) ||| 0x80 : Nat)]
  else if c ≤ 0x10ffff then
    [byte ((n >>> 18) ||| 0xf0 : Nat), byte (((n >>> 12) &&& 0x3f) ||| 0x80 : Nat),
      byte (((n >>> 6) &&& 0x3f) ||| 0x80 : Nat), byte ((n &&& 0x3f) ||| 0x80 : Nat)]
  else []

/-- `static_cast<Char16>`. -/
def unit16 (x : Int) : Nat := (x % 2 ^ 16).toNat

/-- `toUtf16` (string.hpp:244-255). -/
def toUtf16 (c : Int) : List Nat :=
  let n := c.toNat
  if c ≤ 0xffff then [unit16 c]
  else if c ≤ 0x10ffff then [unit16 ((n >>> 10) + 0xd7c0 : Nat), unit16 ((n &&& 0x3ff) ||| 0xdc00 : Nat)]
  else []

/-- `AppendUtf8` (string.hpp:257-266). -/
def appendUtf8 (out : List Nat) (c : Int) : Option (List Nat) :=
  let buf := toUtf8 c
  if buf.length > 0 then some (out ++ buf) else none

/-- `AppendUtf16` (string.hpp:268-277). -/
def appendUtf16 (out : List Nat) (c : Int) : Option (List Nat) :=
  let buf := toUtf16 c
  if buf.length > 0 then some (out ++ buf) else none

/-- `StringT::append(begin, end)` of UTF-8 `char`s (string.hpp:555-563 with getOneCharSub 1535-1542);
`fuel` bounds the number of rounds. -/
def appendFromUtf8 : (fuel : Nat) → List Int → List Nat → Res (List Int)
  | 0, _, _ => .ub
  | fuel + 1, str, s =>
    if s.isEmpty then .ok str
    else do
      match ← getCharFromUtf8 s with
      | none => .throw
      | some (c, s) => appendFromUtf8 fuel (str ++ [c]) s

/-- `StringT::append(const Char16*, const Char16*)` (string.hpp:588-598). -/
def appendFromUtf16 : (fuel : Nat) → List Int → List Nat → Res (List Int)
  | 0, _, _ => .ub
  | fuel + 1, str, s =>
    if s.isEmpty then .ok str
    else do
      match ← getCharFromUtf16 s with
      | none => .throw
      | some (c, s) => appendFromUtf16 fuel (str ++ [c]) s

/-- `StringT::toUtf8` (string.hpp:1439-1446). -/
def stringToUtf8 : List Nat → List Int → Res (List Nat)
  | out, [] => .ok out
  | out, c :: cs =>
    match appendUtf8 out c with
    | none => .throw
    | some out => stringToUtf8 out cs

/-- `StringT::toUtf16` (string.hpp:1456-1463). -/
def stringToUtf16 : List Nat → List Int → Res (List Nat)
  | out, [] => .ok out
  | out, c :: cs =>
    match appendUtf16 out c with
    | none => .throw
    | some out => stringToUtf16 out cs

/-- The loop of `ConvertUtf16ToUtf8` (string.hpp:1617-1622): the returned flag and `*out`. -/
def convert16to8Loop : (fuel : Nat) → (out s : List Nat) → Res (Bool × List Nat)
  | 0, _, _ => .ub
  | fuel + 1, out, s =>
    if s.isEmpty then .ok (true, out)
    else do
      match ← getCharFromUtf16 s with
      | none => return (false, out)
      | some (c, s) =>
        match appendUtf8 out c with
        | none => return (false, out)
        | some out => convert16to8Loop fuel out s

/-- `ConvertUtf16ToUtf8` (string.hpp:1612-1623). -/
def convertUtf16ToUtf8 (fuel : Nat) (s : List Nat) : Res (Bool × List Nat) := convert16to8Loop fuel [] s

/-- The loop of `ConvertUtf8ToUtf16` (string.hpp:1634-1639). -/
def convert8to16Loop : (fuel : Nat) → (out s : List Nat) → Res (Bool × List Nat)
  | 0, _, _ => .ub
  | fuel + 1, out, s =>
    if s.isEmpty then .ok (true, out)
    else do
      match ← getCharFromUtf8 s with
      | none => return (false, out)
      | some (c, s) =>
        match appendUtf16 out c with
        | none => return (false, out)
        | some out => convert8to16Loop fuel out s

/-- `ConvertUtf8ToUtf16` (string.hpp:1629-1640). -/
def convertUtf8ToUtf16 (fuel : Nat) (s : List Nat) : Res (Bool × List Nat) := convert8to16Loop fuel [] s

/-- `ToUtf16` (string.hpp:1647-1652). -/
def toUtf16Str (fuel : Nat) (s : List Nat) : Res (List Nat) := do
  let (ok, out) ← convertUtf8ToUtf16 fuel s
  if ok then return out else .throw

/-- `ToUtf8` (string.hpp:1654-1659). -/
def toUtf8Str (fuel : Nat) (s : List Nat) : Res (List Nat) := do
  let (ok, out) ← convertUtf16ToUtf8 fuel s
  if ok then return out else .throw

end Verif.Utf
