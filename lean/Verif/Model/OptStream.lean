import Verif.Model.Common

/-!
# Options of a type that `convert` reads by `std::istringstream` (`include/cybozu/option.hpp:106-112`)

The types without an own `convert` (option.hpp:114-187): `double`, `float`, `char`, `bool`.  `is >> *x` is that of libstdc++ in the "C"
locale with the flags of a new stream (`skipws`, `dec`).  A text is the bytes before the terminator of `str`.

Simplified: how a decimal number is rounded to a floating point number is a parameter, which also says what is too large.
-/
namespace Verif.OptStream

/-- `isspace` in the "C" locale: what `skipws` skips (option.hpp:110). -/
def isSpace (c : UInt8) : Bool := c == 32 || (9 ≤ c && c ≤ 13)

/-- A digit. -/
def isDigit (c : UInt8) : Bool := 48 ≤ c && c ≤ 57

/-- The sign in front of a number (option.hpp:110; num_get): the sign and what follows. -/
def sign : List UInt8 → List UInt8 × List UInt8
  | [] => ([], [])
  | c :: s => if c = 43 ∨ c = 45 then ([c], s) else ([], c :: s)

/-- Leading zeros (option.hpp:110; num_get): only the first one is kept. -/
def zeros : List UInt8 → (found : Bool) → (xtrc : List UInt8) → List UInt8 × Bool × List UInt8
  | [], found, xtrc => ([], found, xtrc)
  | c :: s, found, xtrc =>
    if c = 48 then zeros s true (if found then xtrc else xtrc ++ [48]) else (c :: s, found, xtrc)

/-- The loop over the digits, the point and the exponent (option.hpp:110; num_get): what is left, and the characters taken. -/
def digitsLoop : List UInt8 → (found dec sci : Bool) → (xtrc : List UInt8) → List UInt8 × List UInt8
  | [], _, _, _, xtrc => ([], xtrc)
  | c :: s, found, dec, sci, xtrc =>
    if isDigit c then digitsLoop s true dec sci (xtrc ++ [c])
    else if c = 46 ∧ dec = false ∧ sci = false then digitsLoop s found true sci (xtrc ++ [46])
    else if (c = 101 ∨ c = 69) ∧ sci = false ∧ found = true then
      match s with
      | [] => ([], xtrc ++ [101])
      | d :: s' =>
        if d = 43 ∨ d = 45 then digitsLoop s' found dec true (xtrc ++ [101, d]) else digitsLoop (d :: s') found dec true (xtrc ++ [101])
    else (c :: s, xtrc)

/-- The characters of the number at the beginning of a text, as they are given to `strtod` (option.hpp:110; num_get). -/
def extractFloat (s : List UInt8) : List UInt8 :=
  let (sg, s) := sign s
  let (s, found, xtrc) := zeros s false sg
  (digitsLoop s found false false xtrc).2

/-- The value of digits. -/
def natOf (ds : List UInt8) : Nat := ds.foldl (fun v d => v * 10 + (d.toNat - 48)) 0

/-- An exact decimal number: minus sign, digits, exponent of ten. -/
structure Dec where
  neg : Bool
  digits : Nat
  exp : Int
  deriving DecidableEq, Repr

/-- `strtod` (option.hpp:110; num_get): the number at the beginning of the text and what follows; `none` if there is none.  Texts such as
"inf" or "0x1" do not come here. -/
def strtod (s : List UInt8) : Option (Dec × List UInt8) :=
  let (sg, s) := sign s
  let i := s.takeWhile isDigit
  let s := s.dropWhile isDigit
  let (f, s) := match s with
    | [] => ([], [])
    | c :: r => if c = 46 then (r.takeWhile isDigit, r.dropWhile isDigit) else ([], c :: r)
  if i = [] ∧ f = [] then none
  else
    let base : Dec := ⟨decide (sg = [45]), natOf (i ++ f), -(f.length : Int)⟩
    match s with
    | [] => some (base, [])
    | c :: r =>
      if c = 101 then
        let (es, r) := sign r
        let e := r.takeWhile isDigit
        if e = [] then some (base, s)
        else some ({ base with exp := base.exp + (if es = [45] then -(natOf e : Int) else natOf e) }, r.dropWhile isDigit)
      else some (base, s)

/-- A floating point type: zero, and how an exact number is rounded; the flag says that the number was too large and the value is the
largest one. -/
structure Fl where
  T : Type
  zero : T
  round : Dec → T × Bool

/-- `is >> *x` for a floating point type (option.hpp:110): whether the stream is good afterwards, and `*x`. -/
def convertFloat (fl : Fl) (x : fl.T) (str : List UInt8) : Bool × fl.T :=
  let s := str.dropWhile isSpace
  if s = [] then (false, x)
  else match strtod (extractFloat s) with
    | none => (false, fl.zero)
    | some (d, rest) => if rest ≠ [] then (false, fl.zero) else (!(fl.round d).2, (fl.round d).1)

/-- `is >> *x` for a `char` (option.hpp:110). -/
def convertChar (x : UInt8) (str : List UInt8) : Bool × UInt8 :=
  match str.dropWhile isSpace with
  | [] => (false, x)
  | c :: _ => (true, c)

/-- `is >> *x` for a `bool` (option.hpp:110): the text is read as a `long`, which must be 0 or 1.  A number that does not fit a `long` is
not 0 or 1 either. -/
def convertBool (x : Bool) (str : List UInt8) : Bool × Bool :=
  let s := str.dropWhile isSpace
  if s = [] then (false, x)
  else
    let (sg, s) := sign s
    let ds := s.takeWhile isDigit
    if ds = [] then (false, false)
    else if natOf ds = 0 then (true, false)
    else if natOf ds = 1 ∧ sg ≠ [45] then (true, true)
    else (false, true)

end Verif.OptStream
