import Verif.Model.Utf

/-!
# Model of `Utf8refT` and of the editing and comparing members of `StringT` (`include/cybozu/string.hpp`)

Characters and text are represented as in `Model/Utf`.  Here what is left behind when an exception is thrown
is kept, so an exception is a value and not `Res.throw`.  Objects of type `String` live in a list, so that an
argument may be the object itself.
-/
namespace Verif.UString
open Verif.Utf

/-- `GetCharFromUtf8` (string.hpp:136-187) with the position it leaves also if it answers `false`. -/
def seek8 : List Nat → Res (Option Int × List Nat)
  | [] => .ub
  | c0 :: s =>
    if c0 ≤ 0x7f then .ok (some (c0 : Int), s)
    else if within c0 0xc2 0xdf then
      match s with
      | c1 :: s =>
        if within c1 0x80 0xbf then .ok (some (((c0 <<< 6 ||| (c1 &&& 0x3f) : Nat) : Int) - 0x3000), s)
        else .ok (none, s)
      | [] => .ok (none, [])
    else if c0 ≤ 0xef then
      match s with
      | c1 :: c2 :: s =>
        if within c2 0x80 0xbf then
          if (c0 == 0xe0 && within c1 0xa0 0xbf)
              || (within c0 0xe1 0xec && within c1 0x80 0xbf)
              || (c0 == 0xed && within c1 0x80 0x9f)
              || (within c0 0xee 0xef && within c1 0x80 0xbf) then
            .ok (some (((c0 <<< 12 ||| ((c1 &&& 0x3f) <<< 6) ||| (c2 &&& 0x3f) : Nat) : Int) - 0xe0000), s)
          else .ok (none, s)
        else .ok (none, s)
      | _ => .ok (none, [])
    else if within c0 0xf0 0xf4 then
      match s with
      | c1 :: c2 :: c3 :: s =>
        if within c2 0x80 0xbf && within c3 0x80 0xbf then
          if (c0 == 0xf0 && within c1 0x90 0xbf)
              || (within c0 0xf1 0xf3 && within c1 0x80 0xbf)
              || (c0 == 0xf4 && within c1 0x80 0x8f) then
            .ok (some (((c0 <<< 18 ||| ((c1 &&& 0x3f) <<< 12) ||| ((c2 &&& 0x3f) <<< 6) ||| (c3 &&& 0x3f) : Nat) : Int)
              - 0x3c00000), s)
          else .ok (none, s)
        else .ok (none, s)
      | _ => .ok (none, [])
    else .ok (none, s)

/-- What `Utf8refT::next` does: deliver a character, return `false`, throw. -/
inductive Ans where
  | char (c : Int)
  | stop
  | bad
  deriving DecidableEq, Repr

/-- `Utf8refT::next` (string.hpp:1676-1684) with the bytes from `begin_` to `end_`; `fuel` bounds the rounds of
`RETRY`. -/
def next (ignore : Bool) : (fuel : Nat) → List Nat → Res (Ans × List Nat)
  | 0, _ => .ub
  | fuel + 1, s =>
    if s.isEmpty then .ok (.stop, s)
    else do
      let (c, r) ← seek8 s
      match c with
      | some c => return (.char c, r)
      | none => if ignore then next ignore fuel r else return (.bad, r)

/-- The loop `while (ref.next(&c)) ...` of a user: the characters delivered, how it ended, the bytes left. -/
def all (ignore : Bool) : (fuel : Nat) → List Nat → Res (List Int × Ans × List Nat)
  | 0, _ => .ub
  | fuel + 1, s => do
    match ← next ignore (s.length + 1) s with
    | (.char c, r) => do
      let (cs, a, r) ← all ignore fuel r
      return (c :: cs, a, r)
    | (a, r) => return ([], a, r)

/-- `StringT::append(begin, end)` of UTF-8 `char`s (string.hpp:554-563 with getOneCharSub 1534-1542): whether it
throws, and the string left. -/
def append8 : (fuel : Nat) → List Int → List Nat → Res (Bool × List Int)
  | 0, _, _ => .ub
  | fuel + 1, str, s =>
    if s.isEmpty then .ok (false, str)
    else do
      match ← getCharFromUtf8 s with
      | none => return (true, str)
      | some (c, s) => append8 fuel (str ++ [c]) s

/-- `StringT::assign(const std::string&)` (string.hpp:704-707); `operator=`, `getline` and `>>` use it. -/
def assign8 (fuel : Nat) (_old : List Int) (s : List Nat) : Res (Bool × List Int) := append8 fuel [] s

/-- The objects of a program, by number. -/
abbrev Store := List (List Int)

/-- Writing one object. -/
def Store.put (st : Store) (i : Nat) (v : List Int) : Store := st.set i v

/-- `append(const StringT&)` (string.hpp:504-507): `std::basic_string::append`, which allows its own object. -/
def append (st : Store) (i j : Nat) : Res Store := do
  let a ← at? st i
  let b ← at? st j
  return st.put i (a ++ b)

/-- `clear` (string.hpp:833). -/
def clear (st : Store) (i : Nat) : Res Store := do
  let _ ← at? st i
  return st.put i []

/-- `assign(const StringT&)` (string.hpp:616-619), also `operator=` (433-436). -/
def assign (st : Store) (i j : Nat) : Res Store := do
  let st ← clear st i
  append st i j

/-- `append(str, off, count)` (string.hpp:515-518): throws if `off` is behind the end. -/
def appendSub (st : Store) (i j off count : Nat) : Res Store := do
  let a ← at? st i
  let b ← at? st j
  if off > b.length then .throw
  else return st.put i (a ++ (b.drop off).take count)

/-- `assign(str, off, count)` (string.hpp:627-630). -/
def assignSub (st : Store) (i j off count : Nat) : Res Store := do
  let st ← clear st i
  appendSub st i j off count

/-- `insert(off, str)` (string.hpp:714-717). -/
def insert (st : Store) (i off j : Nat) : Res Store := do
  let a ← at? st i
  let b ← at? st j
  if off > a.length then .throw
  else return st.put i (a.take off ++ b ++ a.drop off)

/-- `replace(off, n, rhs)` (string.hpp:841-844). -/
def replace (st : Store) (i off n j : Nat) : Res Store := do
  let a ← at? st i
  let b ← at? st j
  if off > a.length then .throw
  else return st.put i (a.take off ++ b ++ a.drop (off + n))

/-- `operator+` into a new object (string.hpp:1607): a copy of `lhs`, then `+=`. -/
def plus (st : Store) (i j : Nat) : Res (List Int) := do
  let a ← at? st i
  let b ← at? st j
  return a ++ b

/-- `pop_back` (string.hpp:1502): `erase(size() - 1, 1)`; on an empty string the offset is 2^64 - 1. -/
def popBack (a : List Int) : Res (List Int) :=
  let off := (a.length + 2 ^ 64 - 1) % 2 ^ 64
  if off > a.length then .throw else .ok (a.take off ++ a.drop (off + 1))

/-- `char_traits<wchar_t>::compare` on the common length, then the lengths: `basic_string::compare`, used by
`StringT::compare` (string.hpp:1371-1374).  Only the sign of the result is kept. -/
def compare : List Int → List Int → Int
  | [], [] => 0
  | [], _ :: _ => -1
  | _ :: _, [] => 1
  | a :: as, b :: bs => if a < b then -1 else if b < a then 1 else compare as bs

/-- `operator==` (string.hpp:1516). -/
def eq (a b : List Int) : Bool := decide (compare a b = 0)
/-- `operator!=` (string.hpp:1517). -/
def ne (a b : List Int) : Bool := decide (compare a b ≠ 0)
/-- `operator<=` (string.hpp:1518). -/
def le (a b : List Int) : Bool := decide (compare a b ≤ 0)
/-- `operator>=` (string.hpp:1519). -/
def ge (a b : List Int) : Bool := decide (compare a b ≥ 0)
/-- `operator<` (string.hpp:1520). -/
def lt (a b : List Int) : Bool := decide (compare a b < 0)
/-- `operator>` (string.hpp:1521). -/
def gt (a b : List Int) : Bool := decide (compare a b > 0)

/-- A member operator with a `std::string` on the right: it is converted to a `String` for the parameter of `compare`
(string.hpp:1516-1521 with 403-406). -/
def onText (op : List Int → List Int → Bool) (fuel : Nat) (a : List Int) (s : List Nat) : Res Bool := do
  match ← append8 fuel [] s with
  | (true, _) => .throw
  | (false, b) => return op a b

/-- The free operators with a `std::string` on the left (string.hpp:1583-1588), in the order
`==, !=, <=, >=, <, >`. -/
def textOps (fuel : Nat) (s : List Nat) (a : List Int) : List (Res Bool) :=
  [onText eq fuel a s, onText ne fuel a s, onText ge fuel a s, onText le fuel a s, onText gt fuel a s, onText lt fuel a s]

end Verif.UString
