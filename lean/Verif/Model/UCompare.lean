import Verif.Model.UString
import Verif.Model.UFind
import Verif.Model.Hash

/-!
# Model of the comparisons of parts, the moves and the hash of `String` (`include/cybozu/string.hpp`)

Characters as in `Verif.Model.UString`.  The functions of `std::basic_string` are written as the standard describes them.
Left out: the comparison with a `Char16*` (string.hpp:1408-1412), which converts first (C38).
-/
namespace Verif.UCompare
open Verif.UString (Store compare)

/-- `compare(off, n, rhs)` (string.hpp:1382-1385). -/
def compareSub (a : List Int) (off n : Nat) (b : List Int) : Res Int :=
  if off > a.length then .throw else .ok (compare ((a.drop off).take n) b)

/-- `compare(off, n, rhs, rhsOff, count)` (string.hpp:1395-1398). -/
def compareSub2 (a : List Int) (off n : Nat) (b : List Int) (rhsOff count : Nat) : Res Int :=
  if off > a.length then .throw
  else if rhsOff > b.length then .throw
  else .ok (compare ((a.drop off).take n) ((b.drop rhsOff).take count))

/-- The characters up to the NUL; `none`: there is none in the memory. -/
def cstr : List Int → Option (List Int)
  | [] => none
  | c :: m => if c = 0 then some [] else (cstr m).map (c :: ·)

/-- `compare(str)` (string.hpp:1404-1407), `mem` is the memory from `str` on. -/
def comparePtr (a mem : List Int) : Res Int :=
  match cstr mem with
  | none => .ub
  | some b => .ok (compare a b)

/-- `compare(off, n, str)` (string.hpp:1420-1423): the position is checked before `str` is looked at. -/
def compareSubPtr (a : List Int) (off n : Nat) (mem : List Int) : Res Int :=
  if off > a.length then .throw else comparePtr ((a.drop off).take n) mem

/-- `compare(off, n, str, count)` (string.hpp:1432-1435); the `count` characters are only read as far as the comparison needs them, but
the standard asks for all of them. -/
def compareSubRange (a : List Int) (off n : Nat) (mem : List Int) (count : Nat) : Res Int :=
  if off > a.length then .throw
  else if count > mem.length then .ub
  else .ok (compare ((a.drop off).take n) (mem.take count))

/-- The move assignment and `assign(StringT&&)` (string.hpp:1487-1496) for two objects: what is left in the source is `rest`, any string.  (For
one object and itself the standard does not say what it holds afterwards.) -/
def moveAssign (st : Store) (i j : Nat) (rest : List Int) : Res Store := do
  let b ← at? st j
  let _ ← at? st i
  return (st.put i b).put j rest

/-- The move constructor (string.hpp:1483-1486): the new object is the last one. -/
def moveConstruct (st : Store) (j : Nat) (rest : List Int) : Res Store := do
  let b ← at? st j
  return st.put j rest ++ [b]

/-- `operator+(String&& lhs, const String& rhs)` (string.hpp:1609): `lhs` gets `rhs` appended and is moved from. -/
def plusMove (st : Store) (i j : Nat) (rest : List Int) : Res (List Int × Store) := do
  let st ← UString.append st i j
  let r ← at? st i
  return (r, st.put i rest)

/-- `hash<String>` (string.hpp:1711-1718, 1731-1738): `hash64` of the characters; a character is sign-extended. -/
def hashString (a : List Int) : BitVec 64 := Hash.hash64 (fun c => BitVec.ofInt 64 c) a 0

end Verif.UCompare
