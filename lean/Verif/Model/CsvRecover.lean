import Verif.Model.Csv

/-!
# Model of `CsvReaderT::read` for programs that catch its exceptions and go on reading (`include/cybozu/csv.hpp`)

C24 (`Model/Csv`) ends with the first exception.  Here the state of the reader after an exception is kept.  The input is the list of bytes that were not
taken by `my_getchar` yet; how they come through the buffer is C24.
-/
namespace Verif.CsvRecover
open Verif.Csv (State sext toChar)

/-- Why an exception was thrown. -/
inductive Why where
  /-- the input ends inside quotes (csv.hpp:99) -/
  | noQuote
  /-- something else than a separator or a quote after a quote (csv.hpp:119) -/
  | badChar
  /-- the line is too long (csv.hpp:144) -/
  | tooLarge
  deriving DecidableEq

/-- What one round of the loop does. -/
inductive Step where
  | ret (b : Bool) (out : List (List UInt8))
  | go (st : State) (str : List UInt8) (out : List (List UInt8)) (lineSize : Nat)
  | threw (why : Why) (out : List (List UInt8)) (lineSize : Nat)
  deriving DecidableEq

/-- `addChar(str, c)`, then go on in state `st` (csv.hpp:139-146). -/
def addChar (max : Nat) (st : State) (str : List UInt8) (out : List (List UInt8)) (lineSize : Nat) (c : Int) : Step :=
  let lineSize := lineSize + 1
  if lineSize = max then .threw .tooLarge out lineSize else .go st (str ++ [toChar c]) out lineSize

/-- The body of the loop after `my_getchar` (csv.hpp:78-135). -/
def body (max : Nat) (sep : UInt8) (st : State) (str : List UInt8) (out : List (List UInt8)) (lineSize : Nat) (c : Int) : Step :=
  if c = -1 ∧ str = [] then .ret false out
  else if c = 13 then .go st str out lineSize
  else match st with
  | .top =>
    if c = -1 ∨ c = 10 then .ret true (if str ≠ [] then out ++ [str] else out)
    else if c = 34 then .go .inQuote str out lineSize
    else if c = sext sep then .go .top [] (out ++ [str]) lineSize
    else addChar max .searchSep str out lineSize c
  | .inQuote =>
    if c = -1 then .threw .noQuote out lineSize
    else if c = 34 then .go .needSepOrQuote str out lineSize
    else addChar max .inQuote str out lineSize c
  | .needSepOrQuote =>
    if c = -1 ∨ c = 10 then .ret true (out ++ [str])
    else if c = 34 then addChar max .inQuote str out lineSize 34
    else if c = sext sep then .go .top [] (out ++ [str]) lineSize
    else .threw .badChar out lineSize
  | .searchSep =>
    if c = -1 ∨ c = 10 then .ret true (out ++ [str])
    else if c = sext sep then .go .top [] (out ++ [str]) lineSize
    else addChar max .searchSep str out lineSize c

/-- How `read` ended. -/
inductive End where
  | ret (b : Bool)
  | threw (why : Why)
  /-- the loop goes on although the input has ended -/
  | endless
  deriving DecidableEq

/-- A reader: what is left of the input, `lineSize_` and `eof_` (csv.hpp:168-175). -/
structure Reader where
  rest : List UInt8
  lineSize : Nat
  eof : Bool
  deriving DecidableEq

/-- The loop of `read` (csv.hpp:76-136): the end, what is in the container, the reader. -/
def readLoop (max : Nat) (sep : UInt8) : (rest : List UInt8) → State → (str : List UInt8) → (out : List (List UInt8)) → (lineSize : Nat) →
    End × List (List UInt8) × Reader
  | [], st, str, out, lineSize =>
    match body max sep st str out lineSize (-1) with
    | .ret b out => (.ret b, out, ⟨[], lineSize, true⟩)
    | .threw why out lineSize => (.threw why, out, ⟨[], lineSize, true⟩)
    | .go _ _ out lineSize => (.endless, out, ⟨[], lineSize, true⟩)
  | b :: rest, st, str, out, lineSize =>
    match body max sep st str out lineSize (sext b) with
    | .ret b out => (.ret b, out, ⟨rest, lineSize, false⟩)
    | .threw why out lineSize => (.threw why, out, ⟨rest, lineSize, false⟩)
    | .go st str out lineSize => readLoop max sep rest st str out lineSize

/-- `read` (csv.hpp:59-137). -/
def readRow (max : Nat) (sep : UInt8) (old : List (List UInt8)) (r : Reader) : End × List (List UInt8) × Reader :=
  if r.eof then (.ret false, old, r) else readLoop max sep r.rest .top [] [] r.lineSize

/-- A program that reads `n` times and goes on after exceptions: the ends of the calls, the reader. -/
def reads (max : Nat) (sep : UInt8) : (n : Nat) → Reader → List End × Reader
  | 0, r => ([], r)
  | n + 1, r =>
    let x := readRow max sep [] r
    let y := reads max sep n x.2.2
    (x.1 :: y.1, y.2)

end Verif.CsvRecover
