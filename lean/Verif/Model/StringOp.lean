import Verif.Model.BitVector

/-!
# Model of `include/cybozu/string_operation.hpp`

Strings are lists of characters, pointers into them positions.  `char` and `cybozu::Char` values are `Int`
(both signed on Linux).
-/
namespace Verif.StringOp
open Verif.BitVector (setAt?)

section
variable {α : Type}

/-- `SkipSpace` (string_operation.hpp:96-104). -/
def skipSpace (isSpace : α → Bool) (s : List α) (b e : Nat) : Res Nat :=
  if _h : b < e then do
    let c ← at? s b
    if !isSpace c then return b
    else skipSpace isSpace s (b + 1) e
  else .ok b
termination_by e - b

/-- The loop of `GetTrimPosition` (string_operation.hpp:119-122); returns `end`. -/
def trimEnd (isSpace : α → Bool) (s : List α) (b e : Nat) : Res Nat :=
  if _h : b < e then do
    let c ← at? s (e - 1)
    if !isSpace c then return e
    else trimEnd isSpace s b (e - 1)
  else .ok e
termination_by e - b

/-- `GetTrimPosition` (string_operation.hpp:115-124): the new `begin` and `end`. -/
def getTrimPosition (isSpace : α → Bool) (s : List α) (b e : Nat) : Res (Nat × Nat) := do
  let b ← skipSpace isSpace s b e
  let e ← trimEnd isSpace s b e
  return (b, e)

/-- The copying loop of `Trim` (string_operation.hpp:153-155) for `k` more characters. -/
def moveLoop : (k : Nat) → List α → (dst src : Nat) → Res (List α)
  | 0, s, _, _ => .ok s
  | k + 1, s, dst, src => do
    let c ← at? s src
    let s ← setAt? s dst c
    moveLoop k s (dst + 1) (src + 1)

/-- Lines 152-156. -/
def moveIf (s : List α) (b size : Nat) : Res (List α) :=
  if 0 ≠ b then moveLoop size s 0 b else .ok s

/-- `Trim` (string_operation.hpp:143-158).  The final `resize` only shortens. -/
def trim (isSpace : α → Bool) (s : List α) : Res (List α) :=
  if s.isEmpty then .ok s
  else do
    let (b, e) ← getTrimPosition isSpace s 0 s.length
    let s ← moveIf s b (e - b)
    return s.take (e - b)

/-- `TrimCopy` (string_operation.hpp:160-169). -/
def trimCopy (isSpace : α → Bool) (s : List α) : Res (List α) :=
  if s.isEmpty then .ok []
  else do
    let (b, e) ← getTrimPosition isSpace s 0 s.length
    return (s.take e).drop b

/-- `find_first_of(splitChar, cur)`: `s` is the string from `cur` on. -/
def findFrom [DecidableEq α] (sep : α) : List α → Nat → Option Nat
  | [], _ => none
  | c :: cs, cur => if c = sep then some cur else findFrom sep cs (cur + 1)

/-- The loop of `Split` (string_operation.hpp:339-349), at most `fuel` rounds; `maxNum1` is
`maxNum - 1` as `size_t`. -/
def splitLoop [DecidableEq α] (sep : α) (s : List α) (maxNum1 : Nat) :
    (fuel cur splitNum : Nat) → List (List α) → Res (List (List α) × Nat)
  | 0, _, _, _ => .ub
  | fuel + 1, cur, splitNum, out =>
    match findFrom sep (s.drop cur) cur with
    | none => .ok (out ++ [s.drop cur], splitNum + 1)
    | some pos =>
      if splitNum = maxNum1 then .ok (out ++ [s.drop cur], splitNum + 1)
      else splitLoop sep s maxNum1 fuel (pos + 1) (splitNum + 1) (out ++ [(s.take pos).drop cur])

/-- `Split` (string_operation.hpp:333-351).  The loop runs at most once more than there are characters. -/
def split [DecidableEq α] (out : List (List α)) (s : List α) (sep : α) (maxNum : Nat) (doClear : Bool) :
    Res (List (List α) × Nat) :=
  splitLoop sep s ((maxNum + 2 ^ 64 - 1) % 2 ^ 64) (s.length + 1) 0 0 (if doClear then [] else out)

end

/-- `IsSpace(char)` (string_operation.hpp:83-88). -/
def isSpaceChar (c : Int) : Bool := if c = 32 ∨ c = 9 then true else false

/-- A difference as `unsigned`. -/
def toUnsigned (x : Int) : Int := x % 2 ^ 32

/-- `IsSpace(cybozu::Char)` (string_operation.hpp:66-78). -/
def isSpaceWide (c : Int) : Bool :=
  if c = 0x20 ∨ c = 0x3000 then true
  else if toUnsigned (c - 0x09) ≤ 0x0d - 0x09 then true
  else if c = 0x85 ∨ c = 0xa0 then true
  else if c < 0x1680 then false
  else if c = 0x1680 ∨ c = 0x180e then true
  else if toUnsigned (c - 0x2000) ≤ 0x200a - 0x2000 then true
  else if toUnsigned (c - 0x2028) ≤ 0x2029 - 0x2028 then true
  else if c = 0x202f ∨ c = 0x205f ∨ c = 0xfeff then true
  else false

/-- The loop of `Strip` (string_operation.hpp:199-206). -/
def stripLoop (s : List Int) : (size : Nat) → Res Nat
  | 0 => .ok 0
  | size + 1 => do
    let c ← at? s size
    if c = 10 ∨ c = 13 then stripLoop s size
    else return size + 1

/-- `Strip` (string_operation.hpp:195-208). -/
def strip (s : List Int) : Res (List Int) := do
  let size ← stripLoop s s.length
  return s.take size

/-- `tolower` (string.hpp:57-60). -/
def tolower (c : Int) : Int := if 65 ≤ c ∧ c ≤ 90 then c - 65 + 97 else c

/-- `toupper` (string.hpp:63-66). -/
def toupper (c : Int) : Int := if 97 ≤ c ∧ c ≤ 122 then c - 97 + 65 else c

/-- `str.resize(n)`. -/
def resize (s : List Int) (n : Nat) : List Int := s.take n ++ List.replicate (n - s.length) 0

/-- `std::transform(in.begin(), in.end(), out.begin() + i, f)` (string_operation.hpp:131) for two strings. -/
def transform (f : Int → Int) : List Int → List Int → Nat → Res (List Int)
  | [], out, _ => .ok out
  | c :: cs, out, i => do
    let out ← setAt? out i (f c)
    transform f cs out (i + 1)

/-- `ChangeCase` (string_operation.hpp:126-132) for two strings. -/
def changeCase (f : Int → Int) (out inp : List Int) (doAppend : Bool) : Res (List Int) :=
  let offset := if doAppend then out.length else 0
  transform f inp (resize out (offset + inp.length)) offset

/-- `std::transform` when `in` and `out` are the same string: `cnt` characters from `i` on, to `offset` further on. -/
def transformSelf (f : Int → Int) (offset : Nat) : (cnt i : Nat) → List Int → Res (List Int)
  | 0, _, s => .ok s
  | cnt + 1, i, s => do
    let c ← at? s i
    let s ← setAt? s (offset + i) (f c)
    transformSelf f offset cnt (i + 1) s

/-- `ChangeCase` when `in` and `out` are the same string: `in.size()` and `in.end()` change with `resize`. -/
def changeCaseSelf (f : Int → Int) (s : List Int) (doAppend : Bool) : Res (List Int) :=
  let offset := if doAppend then s.length else 0
  let s := resize s (offset + s.length)
  transformSelf f offset s.length 0 s

/-- `ToLower(out, in, doAppend)` (string_operation.hpp:171-175). -/
def toLowerStr := changeCase tolower
/-- `ToUpper(out, in, doAppend)` (string_operation.hpp:177-181). -/
def toUpperStr := changeCase toupper
/-- `ToLower(str)` (string_operation.hpp:183-187). -/
def toLowerSelf (s : List Int) : Res (List Int) := changeCaseSelf tolower s false
/-- `ToUpper(str)` (string_operation.hpp:189-193). -/
def toUpperSelf (s : List Int) : Res (List Int) := changeCaseSelf toupper s false

/-- The loop of `CaseCompare` (string_operation.hpp:217-222). -/
def caseLoop : List Int → List Int → Option Int
  | a :: as, b :: bs =>
    if tolower a < tolower b then some (-1)
    else if tolower a > tolower b then some 1
    else caseLoop as bs
  | _, _ => none

/-- `CaseCompare` (string_operation.hpp:213-226). -/
def caseCompare (lhs rhs : List Int) : Int :=
  match caseLoop lhs rhs with
  | some r => r
  | none => if lhs.length < rhs.length then -1 else if lhs.length > rhs.length then 1 else 0

/-- The loop of `CaseEqual` (string_operation.hpp:232-236). -/
def equalLoop : List Int → List Int → Bool
  | a :: as, b :: bs => if tolower a ≠ tolower b then false else equalLoop as bs
  | _, _ => true

/-- `CaseEqual` (string_operation.hpp:228-238). -/
def caseEqual (lhs rhs : List Int) : Bool :=
  if lhs.length ≠ rhs.length then false else equalLoop lhs rhs

/-- `CaseEqualStartWith` (string_operation.hpp:318-323); `rhs` is the literal without its NUL. -/
def caseEqualStartWith (lhs rhs : List Int) : Bool :=
  if lhs.length < rhs.length then false else caseEqual (lhs.take rhs.length) rhs

/-- `t[i]` for the (lower-cased) target string: the terminating NUL may be read. -/
def charAt (t : List Int) (i : Nat) : Res Int :=
  if i < t.length then at? t i else if i = t.length then .ok 0 else .ub

/-- The inner loop of `CaseFind` (string_operation.hpp:287-293): does the target match at `b`?  `k` more
characters, `i = n - k`. -/
def matchLoop (s t : List Int) (b : Nat) : (k i : Nat) → Res Bool
  | 0, _ => .ok true
  | k + 1, i => do
    let x ← at? s (b + i)
    let y ← charAt t i
    if tolower x ≠ y then return false else matchLoop s t b k (i + 1)

/-- The outer loop of `CaseFind` (string_operation.hpp:286-297). -/
def findLoop (s t : List Int) (n b : Nat) : Res (Option Nat) :=
  if _h : b + n ≤ s.length then do
    let found ← matchLoop s t b n 0
    if found then return some b
    else findLoop s t n (b + 1)
  else .ok none
termination_by s.length + 1 - b

/-- `CaseFind` on a range (string_operation.hpp:280-298).  `target` is the target in the character type of
the string, `n` the number of `char`s it was given in. -/
def caseFind (s target : List Int) (n : Nat) : Res (Option Nat) := findLoop s (target.map tolower) n 0

/-- `CaseFind` on a string (string_operation.hpp:300-310); `none` is `npos`. -/
def caseFindStr (s target : List Int) (n : Nat) : Res (Option Nat) :=
  if !s.isEmpty then caseFind s target n else .ok none

end Verif.StringOp
