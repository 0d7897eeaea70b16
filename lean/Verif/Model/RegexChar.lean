import Verif.Model.Common

/-!
# Model of the character functions of `include/cybozu/regex.hpp` (the Windows branch, lines 50-308)

`cybozu::Char` is `int` on Windows (string.hpp:42): `BitVec 32`, compared as a signed number.  `char` is
signed and is represented by its byte.  `mask` is a 16-bit number.  The regular expression engine itself
(Boost or the Visual C++ library) is not modelled.
-/
namespace Verif.RegexChar

/-- `regex_local::in` (regex.hpp:53-57): the differences wrap around as `unsigned int`. -/
def inRange (c : BitVec 32) (min max : BitVec 8) : Bool := (c - min.signExtend 32).toNat ≤ (max.signExtend 32 - min.signExtend 32).toNat

/-- `maskTbl` (regex.hpp:70-87). -/
def maskTbl : List (BitVec 16) :=
  [0x20, 0x20, 0x20, 0x20, 0x20, 0x20, 0x20, 0x20, 0x20, 0x28, 0x28, 0x28, 0x28, 0x28, 0x20, 0x20,
   0x20, 0x20, 0x20, 0x20, 0x20, 0x20, 0x20, 0x20, 0x20, 0x20, 0x20, 0x20, 0x20, 0x20, 0x20, 0x20,
   0x48, 0x10, 0x10, 0x10, 0x10, 0x10, 0x10, 0x10, 0x10, 0x10, 0x10, 0x10, 0x10, 0x10, 0x10, 0x10,
   0x84, 0x84, 0x84, 0x84, 0x84, 0x84, 0x84, 0x84, 0x84, 0x84, 0x10, 0x10, 0x10, 0x10, 0x10, 0x10,
   0x10, 0x81, 0x81, 0x81, 0x81, 0x81, 0x81, 0x01, 0x01, 0x01, 0x01, 0x01, 0x01, 0x01, 0x01, 0x01,
   0x01, 0x01, 0x01, 0x01, 0x01, 0x01, 0x01, 0x01, 0x01, 0x01, 0x01, 0x10, 0x10, 0x10, 0x10, 0x10,
   0x10, 0x82, 0x82, 0x82, 0x82, 0x82, 0x82, 0x02, 0x02, 0x02, 0x02, 0x02, 0x02, 0x02, 0x02, 0x02,
   0x02, 0x02, 0x02, 0x02, 0x02, 0x02, 0x02, 0x02, 0x02, 0x02, 0x02, 0x10, 0x10, 0x10, 0x10, 0x20] ++
  List.replicate 128 0

/-- `getMaskTbl()[i]` (regex.hpp:68-89). -/
def mask (i : BitVec 8) : Res (BitVec 16) := at? maskTbl i.toNat

/-- `is(mask m, Char c)` (regex.hpp:105-126). -/
def is (m : BitVec 16) (c : BitVec 32) : Res Bool :=
  if c &&& ~~~0xFF#32 ≠ 0 then .ok false
  else do
    let t ← mask (c.setWidth 8)
    return t &&& m ≠ 0

/-- `narrow(Char c, char dflt)` (regex.hpp:183-187). -/
def narrow (c : BitVec 32) (dflt : BitVec 8) : BitVec 8 :=
  if (0 ≤ c.toInt ∧ c.toInt < 256) ∨ c = -1 then c.setWidth 8 else dflt

/-- `widen(char c)` (regex.hpp:172-175). -/
def widen (c : BitVec 8) : BitVec 32 := c.signExtend 32

/-- `is(begin, end, mask *dest)` (regex.hpp:127-135): the masks stored. -/
def isAll : List (BitVec 32) → Res (List (BitVec 16))
  | [] => .ok []
  | c :: cs => do
    let t ← mask (narrow c 0)
    let ts ← isAll cs
    return t :: ts

/-- `scan_is` (regex.hpp:136-140): how many characters are skipped. -/
def scanIs (m : BitVec 16) : List (BitVec 32) → Res Nat
  | [] => .ok 0
  | c :: cs => do
    let b ← is m c
    if b then return 0
    let n ← scanIs m cs
    return n + 1

/-- `scan_not` (regex.hpp:141-145): how many characters are skipped. -/
def scanNot (m : BitVec 16) : List (BitVec 32) → Res Nat
  | [] => .ok 0
  | c :: cs => do
    let b ← is m c
    if b then
      let n ← scanNot m cs
      return n + 1
    return 0

/-- `tolower(Char c)` (regex.hpp:146-150). -/
def tolower (c : BitVec 32) : BitVec 32 := if 65 ≤ c.toInt ∧ c.toInt ≤ 90 then c - 65 + 97 else c

/-- `toupper(Char c)` (regex.hpp:159-163). -/
def toupper (c : BitVec 32) : BitVec 32 := if 97 ≤ c.toInt ∧ c.toInt ≤ 122 then c - 97 + 65 else c

/-- `tolower(begin, end)` (regex.hpp:151-158). -/
def tolowerAll (cs : List (BitVec 32)) : List (BitVec 32) := cs.map tolower
/-- `toupper(begin, end)` (regex.hpp:164-171). -/
def toupperAll (cs : List (BitVec 32)) : List (BitVec 32) := cs.map toupper
/-- `widen(begin, end, to)` (regex.hpp:176-182). -/
def widenAll (cs : List (BitVec 8)) : List (BitVec 32) := cs.map widen
/-- `narrow(begin, end, dflt, to)` (regex.hpp:188-194). -/
def narrowAll (cs : List (BitVec 32)) (dflt : BitVec 8) : List (BitVec 8) := cs.map (narrow · dflt)

/-- `regex_traits<Char>::value(ch, base)` (regex.hpp:256-263). -/
def value (ch : BitVec 32) (base : Int) : Int :=
  if (base ≠ 8 ∧ 48 ≤ ch.toInt ∧ ch.toInt ≤ 57) ∨ (base = 8 ∧ 48 ≤ ch.toInt ∧ ch.toInt ≤ 55) then ch.toInt - 48
  else if base ≠ 16 then -1
  else if 97 ≤ ch.toInt ∧ ch.toInt ≤ 102 then ch.toInt - 97 + 10
  else if 65 ≤ ch.toInt ∧ ch.toInt ≤ 70 then ch.toInt - 65 + 10
  else -1

/-- The values of the `ctype_base` constants, as noted in regex.hpp:110-118. -/
def upper : BitVec 16 := 0x001
/-- `ctype_base::lower`, regex.hpp:111. -/
def lower : BitVec 16 := 0x002
/-- `ctype_base::digit`, regex.hpp:112. -/
def digit : BitVec 16 := 0x004
/-- `ctype_base::punct`, regex.hpp:113. -/
def punct : BitVec 16 := 0x010
/-- `ctype_base::cntrl`, regex.hpp:114. -/
def cntrl : BitVec 16 := 0x020
/-- `ctype_base::xdigit`, regex.hpp:115. -/
def xdigit : BitVec 16 := 0x080
/-- `ctype_base::space`, regex.hpp:116. -/
def space : BitVec 16 := 0x048
/-- `ctype_base::print`, regex.hpp:117. -/
def print : BitVec 16 := 0x1d7
/-- `ctype_base::alpha`, regex.hpp:118. -/
def alpha : BitVec 16 := 0x103
/-- `_Ch_alnum` of the Visual C++ library: letters and digits (not defined in regex.hpp, used in line 289). -/
def alnum : BitVec 16 := 0x107

/-- The class names and their masks, `_Names` (regex.hpp:270-304).  `_Ch_blank` and `_Ch_graph` are constants of the
Visual C++ library whose values regex.hpp does not tell: parameters. -/
def names (blank graph : BitVec 16) : List (String × BitVec 16) :=
  [("alpha", alnum), ("blank", blank), ("cntrl", cntrl), ("d", digit), ("digit", digit), ("graph", graph),
   ("lower", lower), ("print", print), ("punct", punct), ("space", space), ("s", space), ("upper", upper),
   ("w", -1), ("xdigit", xdigit)]

end Verif.RegexChar
