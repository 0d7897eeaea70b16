import Verif.Model.UString

/-!
# Model of `String` on standard streams (`include/cybozu/string.hpp`)

`isValid`, `getline`, `>>` and `<<`.  The standard streams themselves are given: what `std::getline` and `>>` into a `std::string`
do is written after the C++ standard ([string.io]), in the "C" locale, with `width() == 0` and without `exceptions()`.
-/
namespace Verif.UStream
open Verif.Utf Verif.UString

/-- A `std::istream`: the bytes not yet read, `eofbit`, `failbit`. -/
structure IS where
  rest : List Nat
  eof : Bool
  fail : Bool
  deriving DecidableEq, Repr

/-- `std::getline(is, tmp, delim)` on an empty `tmp` (used in string.hpp:1551). -/
def stdGetline (delim : Nat) (s : IS) : List Nat × IS :=
  if s.eof || s.fail then ([], { s with fail := true })
  else if delim ∈ s.rest then
    (s.rest.takeWhile (· ≠ delim), { s with rest := (s.rest.dropWhile (· ≠ delim)).drop 1 })
  else (s.rest, { rest := [], eof := true, fail := s.rest.isEmpty })

/-- `std::isspace` in the "C" locale. -/
def isSpace (b : Nat) : Bool := b == 32 || (decide (9 ≤ b) && decide (b ≤ 13))

/-- `is >> tmp` on an empty `tmp` (used in string.hpp:1559). -/
def stdWord (s : IS) : List Nat × IS :=
  if s.eof || s.fail then ([], { s with fail := true })
  else
    let r := s.rest.dropWhile isSpace
    if r.isEmpty then ([], { rest := [], eof := true, fail := true })
    else
      let w := r.takeWhile (fun b => !isSpace b)
      let t := r.dropWhile (fun b => !isSpace b)
      (w, { rest := t, eof := t.isEmpty, fail := false })

/-- `getline(is, str, delim)` (string.hpp:1548-1554): whether it throws, `str`, the stream. -/
def getline (delim : Nat) (s : IS) (str : List Int) : Res (Bool × List Int × IS) := do
  let t := stdGetline delim s
  let r ← assign8 (t.1.length + 1) str t.1
  return (r.1, r.2, t.2)

/-- `operator>>` (string.hpp:1556-1562). -/
def extract (s : IS) (str : List Int) : Res (Bool × List Int × IS) := do
  let t := stdWord s
  let r ← assign8 (t.1.length + 1) str t.1
  return (r.1, r.2, t.2)

/-- `operator<<` (string.hpp:1564-1567) on a stream that takes everything: the bytes it has then. -/
def insertTo (os : List Nat) (str : List Int) : Res (List Nat) := do
  let t ← stringToUtf8 [] str
  return os ++ t

/-- `isValid` (string.hpp:1475-1481). -/
def isValid : List Int → Bool
  | [] => true
  | c :: cs => if !isValidCode c then false else isValid cs

/-- How a loop of a user ends. -/
inductive End where
  | stream
  | exception
  deriving DecidableEq, Repr

/-- The loop `while (getline(is, str, delim)) v.push_back(str);` of a user: what it has collected, how it ended, the stream then. -/
def lineLoop (delim : Nat) : (fuel : Nat) → IS → List Int → Res (List (List Int) × End × IS)
  | 0, _, _ => .ub
  | fuel + 1, s, str => do
    let r ← getline delim s str
    if r.1 then return ([], .exception, r.2.2)
    else if r.2.2.fail then return ([], .stream, r.2.2)
    else do
      let q ← lineLoop delim fuel r.2.2 r.2.1
      return (r.2.1 :: q.1, q.2)

/-- The loop `while (is >> str) v.push_back(str);` of a user. -/
def wordLoop : (fuel : Nat) → IS → List Int → Res (List (List Int) × End × IS)
  | 0, _, _ => .ub
  | fuel + 1, s, str => do
    let r ← extract s str
    if r.1 then return ([], .exception, r.2.2)
    else if r.2.2.fail then return ([], .stream, r.2.2)
    else do
      let q ← wordLoop fuel r.2.2 r.2.1
      return (r.2.1 :: q.1, q.2)

/-- A user's loop `for (s in ss) os << s << delim;`. -/
def writeLines (delim : Nat) : List Nat → List (List Int) → Res (List Nat)
  | os, [] => .ok os
  | os, s :: ss => do
    let os ← insertTo os s
    writeLines delim (os ++ [delim]) ss

end Verif.UStream
