import Verif.Model.Common

/-!
# Model of the searches of `String` (`include/cybozu/string.hpp`)

`find` and `rfind` call `std::basic_string`, whose functions are written after libstdc++ (`bits/basic_string.tcc`).  The overloads
with a pointer or a single character search for the string they denote.  `std::string` has the same functions for bytes; `none` is
`npos`.
-/
namespace Verif.UFind

/-- The loop of `basic_string::find`: `s` is the part from position `p` on. -/
def findLoop (key : List Nat) : List Nat → Nat → Option Nat
  | [], p => if key.isEmpty then some p else none
  | c :: s, p => if key.isPrefixOf (c :: s) then some p else findLoop key s (p + 1)

/-- `find(rhs, off)` (string.hpp:1118-1121; with a pointer 1129-1142, with a character 1149-1152). -/
def find (s key : List Nat) (off : Nat) : Option Nat := if s.length < off then none else findLoop key (s.drop off) off

/-- The loop of `basic_string::rfind`. -/
def rfindLoop (s key : List Nat) : Nat → Option Nat
  | 0 => if key.isPrefixOf s then some 0 else none
  | p + 1 => if key.isPrefixOf (s.drop (p + 1)) then some (p + 1) else rfindLoop s key p

/-- `rfind(rhs, off)` (string.hpp:1159-1162; with a pointer 1170-1183, with a character 1190-1193). -/
def rfind (s key : List Nat) (off : Nat) : Option Nat :=
  if s.length < key.length then none else rfindLoop s key (min (s.length - key.length) off)

/-- The loop of the four searches for one character: the first `i` at or behind `p` that `test` accepts. -/
def scan (test : Nat → Bool) : List Nat → Nat → Option Nat
  | [], _ => none
  | c :: s, p => if test c then some p else scan test s (p + 1)

/-- `find_first_of(rhs, off)` (string.hpp:1200-1203; 1211-1234). -/
def findFirstOf (s set : List Nat) (off : Nat) : Option Nat := scan (fun c => set.contains c) (s.drop off) off

/-- `find_first_not_of(rhs, off)` (string.hpp:1282-1285; 1293-1316). -/
def findFirstNotOf (s set : List Nat) (off : Nat) : Option Nat := scan (fun c => !set.contains c) (s.drop off) off

/-- The loop from `n - 1` down. -/
def scanDown (test : Nat → Bool) (s : List Nat) : Nat → Option Nat
  | 0 => none
  | n + 1 => if (s[n]?.map test).getD false then some n else scanDown test s n

/-- `find_last_of(rhs, off)` (string.hpp:1241-1244; 1252-1275). -/
def findLastOf (s set : List Nat) (off : Nat) : Option Nat := scanDown (fun c => set.contains c) s (min s.length (off + 1))

/-- `find_last_not_of(rhs, off)` (string.hpp:1323-1326; 1334-1357). -/
def findLastNotOf (s set : List Nat) (off : Nat) : Option Nat := scanDown (fun c => !set.contains c) s (min s.length (off + 1))

/-- `substr(off, count)` (string.hpp:1363-1366). -/
def substr (s : List Nat) (off count : Nat) : Res (List Nat) :=
  if s.length < off then .throw else .ok ((s.drop off).take count)

/-- `erase(off, count)` (string.hpp:806-809). -/
def erase (s : List Nat) (off count : Nat) : Res (List Nat) :=
  if s.length < off then .throw else .ok (s.take off ++ (s.drop off).drop count)

end Verif.UFind
