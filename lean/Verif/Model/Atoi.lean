import Verif.Model.Common

/-!
# Model of `include/cybozu/atoi.hpp`

`mem` is the readable memory starting at the pointer `p`; reading past it is UB.  A `std::string s`
is `mem = s ++ [0]`, `size = s.length`; a C string `s` passed without a size is `mem = s ++ [0]`,
`size = 2^64 - 1`.  Pointer arithmetic `p[i]`, `i++` is replaced by walking along `mem` together
with the number `size - i` of characters left.

The result `.ok (some v)` is "`*b = true`, return `v`"; `.ok none` is "`*b = false`, return 0"
(when a flag `b` was passed), `.throw` is the exception (when it was not).
-/
namespace Verif.Atoi

/-- The non-type arguments of `convertToInt` for one signed type (`atoi.hpp:157-184`):
`max` (without its NUL), `min`, `overflow1`, `overflow2`; and the largest value of `T`, only used to
detect signed overflow. -/
structure SInt where
  max : List UInt8
  min : Int
  overflow1 : Int
  overflow2 : UInt8
  hi : Int

/-- `atoi.hpp:159` -/
def sint8 : SInt := ⟨"128".toUTF8.data.toList, -128, 12, 56, 127⟩
/-- `atoi.hpp:167` -/
def sint16 : SInt := ⟨"32768".toUTF8.data.toList, -32768, 3276, 56, 32767⟩
/-- `atoi.hpp:175` -/
def sint32 : SInt := ⟨"2147483648".toUTF8.data.toList, -2147483648, 214748364, 56, 2147483647⟩
/-- `atoi.hpp:183` -/
def sint64 : SInt :=
  ⟨"9223372036854775808".toUTF8.data.toList, -9223372036854775808, 922337203685477580, 56,
    9223372036854775807⟩

/-- Arguments of `convertToUint` for one unsigned type (`atoi.hpp:163,171,179,187`) and the largest
value of the type. -/
structure UInt where
  overflow1 : Nat
  overflow2 : UInt8
  hi : Nat

/-- `atoi.hpp:163` -/
def uint8 : UInt := ⟨25, 54, 255⟩
/-- `atoi.hpp:171` -/
def uint16 : UInt := ⟨6553, 54, 65535⟩
/-- `atoi.hpp:179` -/
def uint32 : UInt := ⟨429496729, 54, 4294967295⟩
/-- `atoi.hpp:187` -/
def uint64 : UInt := ⟨1844674407370955161, 54, 18446744073709551615⟩

/-- `atoi.hpp:51-56`, `81-86`, `116-121`  the failure exit.  Without a flag the exception text is
built by `std::string(str, min(size, 16))` (`exception.hpp:64-67`), which reads that many bytes. -/
def fail {α : Type} (hasFlag : Bool) (mem : List UInt8) (size : Nat) : Res (Option α) :=
  if hasFlag then .ok none
  else if min size 16 ≤ mem.length then .throw else .ub

/-- `atoi.hpp:29`, `65`  `while (i < size && p[i] == '0') i++`; returns characters left and memory
from `p + i`. -/
def skipZero (left : Nat) (mem : List UInt8) : Res (Nat × List UInt8) :=
  match left, mem with
  | 0, mem => .ok (0, mem)
  | _ + 1, [] => .ub
  | left + 1, c :: mem => if c = 48 then skipZero left mem else .ok (left + 1, c :: mem)
  termination_by structural mem

/-- `memcmp(a, p, n) == 0` with `n = a.length`; the whole range must be readable. -/
def memEq (a mem : List UInt8) : Res Bool :=
  if a.length ≤ mem.length then .ok (mem.take a.length == a) else .ub

/-- `unsigned int y = c - '0'` (`atoi.hpp:42`, `73`): wraps modulo 2^32 for `c < '0'`. -/
def digitOf (c : UInt8) : Nat := (c.toUInt32 - 48).toNat

/-- Result of a scanning loop: the number, or "leave the loop by `break`". -/
abbrev Scan (α : Type) := Option α

/-- `atoi.hpp:36-48`  the scanning loop of `convertToInt`. -/
def scanInt (ty : SInt) (isMinus : Bool) (x : Int) (left : Nat) (mem : List UInt8) :
    Res (Scan Int) :=
  match left, mem with
  | 0, _ => .ok (some (if isMinus then -x else x))
  | _ + 1, [] => .ub
  | left + 1, c :: mem =>
    if c = 0 then .ok (some (if isMinus then -x else x))
    else
      let y := digitOf c
      if y > 9 ∨ x > ty.overflow1 ∨ (x = ty.overflow1 ∧ c ≥ ty.overflow2) then .ok none
      else
        let x := x * 10 + y
        if x > ty.hi then .ub else scanInt ty isMinus x left mem
  termination_by structural mem

/-- `atoi.hpp:17-57`  `convertToInt`. -/
def convertToInt (ty : SInt) (hasFlag : Bool) (mem : List UInt8) (size : Nat) :
    Res (Option Int) :=
  if size = 0 then fail hasFlag mem size
  else do
    let c0 ← at? mem 0
    if c0 = 0 then fail hasFlag mem size
    else
      let isMinus := c0 == 45
      let i := if isMinus then 1 else 0
      let ok ← if i < size then do
          let c ← at? mem i
          pure (c != 0)
        else pure false
      if ok then do
        let (left, rest) ← skipZero (size - i) (mem.drop i)
        let isMin ← if isMinus ∧ left ≥ ty.max.length then memEq ty.max rest else pure false
        if isMin then pure (some ty.min)
        else do
          let r ← scanInt ty isMinus 0 left rest
          match r with
          | some v => pure (some v)
          | none => fail hasFlag mem size
      else fail hasFlag mem size

/-- `atoi.hpp:67-79`  the scanning loop of `convertToUint`.  The guard keeps `x * 10 + y` within the
type; if it did not, `T` arithmetic would wrap. -/
def scanUint (ty : UInt) (x : Nat) (left : Nat) (mem : List UInt8) : Res (Scan Nat) :=
  match left, mem with
  | 0, _ => .ok (some x)
  | _ + 1, [] => .ub
  | left + 1, c :: mem =>
    if c = 0 then .ok (some x)
    else
      let y := digitOf c
      if y > 9 ∨ x > ty.overflow1 ∨ (x = ty.overflow1 ∧ c ≥ ty.overflow2) then .ok none
      else scanUint ty ((x * 10 + y) % (ty.hi + 1)) left mem
  termination_by structural mem

/-- `atoi.hpp:59-87`  `convertToUint`. -/
def convertToUint (ty : UInt) (hasFlag : Bool) (mem : List UInt8) (size : Nat) :
    Res (Option Nat) :=
  if size = 0 then fail hasFlag mem size
  else do
    let c0 ← at? mem 0
    if c0 = 0 then fail hasFlag mem size
    else do
      let (left, rest) ← skipZero size mem
      let r ← scanUint ty 0 left rest
      match r with
      | some v => pure (some v)
      | none => fail hasFlag mem size

/-- `atoi.hpp:101-109`  value of a hexadecimal digit; the differences are `unsigned int`, i.e.
modulo 2^32. -/
def hexDigit (c : UInt8) : Option Nat :=
  let c : UInt32 := c.toUInt32
  if c - 65 ≤ 5 then some (c - 65 + 10).toNat
  else if c - 97 ≤ 5 then some (c - 97 + 10).toNat
  else if c - 48 ≤ 9 then some (c - 48).toNat
  else none

/-- `atoi.hpp:95-114`  the scanning loop of `convertHexToInt`; `hi` is `numeric_limits<T>::max()`. -/
def scanHex (hi : Nat) (x : Nat) (left : Nat) (mem : List UInt8) : Res (Scan Nat) :=
  match left, mem with
  | 0, _ => .ok (some x)
  | _ + 1, [] => .ub
  | left + 1, c :: mem =>
    if c = 0 then .ok (some x)
    else match hexDigit c with
      | none => .ok none
      | some d =>
        if x > hi / 16 then .ok none
        else
          let x := x * 16 + d
          if x > hi then .ub else scanHex hi x left mem
  termination_by structural mem

/-- `atoi.hpp:89-122`  `convertHexToInt`. -/
def convertHexToInt (hi : Nat) (hasFlag : Bool) (mem : List UInt8) (size : Nat) :
    Res (Option Nat) :=
  if size = 0 then fail hasFlag mem size
  else do
    let c0 ← at? mem 0
    if c0 = 0 then fail hasFlag mem size
    else do
      let r ← scanHex hi 0 size mem
      match r with
      | some v => pure (some v)
      | none => fail hasFlag mem size

/-- `atoi(bool*, const std::string&)`, `atoi.hpp:149-156`: the string's characters followed by its
terminating NUL are readable. -/
def atoiS (ty : SInt) (hasFlag : Bool) (s : List UInt8) : Res (Option Int) :=
  convertToInt ty hasFlag (s ++ [0]) s.length
/-- As `atoiS` for unsigned types. -/
def atoiU (ty : UInt) (hasFlag : Bool) (s : List UInt8) : Res (Option Nat) :=
  convertToUint ty hasFlag (s ++ [0]) s.length
/-- `hextoi(bool*, const std::string&)`, `atoi.hpp:217-224`. -/
def hextoiS (hi : Nat) (hasFlag : Bool) (s : List UInt8) : Res (Option Nat) :=
  convertHexToInt hi hasFlag (s ++ [0]) s.length

/-- `atoi(const char *p, size_t size = -1)`, `atoi.hpp:141-148`, on a NUL-terminated string with the
default size. -/
def atoiC (ty : SInt) (hasFlag : Bool) (s : List UInt8) : Res (Option Int) :=
  convertToInt ty hasFlag (s ++ [0]) (2 ^ 64 - 1)

end Verif.Atoi
