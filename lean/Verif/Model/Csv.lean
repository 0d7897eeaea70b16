import Verif.Model.Stream

/-!
# Model of `include/cybozu/csv.hpp`

`char` is signed (as on x86 Linux): a byte read from the buffer becomes an `int` between -128 and 127, and `EOF` is -1.
`max` is the template argument `MAX_LINE_SIZE`.
-/
namespace Verif.Csv
open Verif.Stream

/-- A `char` as an `int`. -/
def sext (b : UInt8) : Int := if b.toNat < 128 then b.toNat else b.toNat - 256

/-- `static_cast<char>(c)`. -/
def toChar (c : Int) : UInt8 := UInt8.ofNat (c % 256).toNat

/-- `CsvReaderT` (csv.hpp:168-175). -/
structure Reader where
  src : Src
  line : Nat
  lineSize : Nat
  buf : List UInt8
  pos : Nat
  bufSize : Nat
  eof : Bool

/-- `isValidSeparator` (csv.hpp:18-21). -/
def isValidSeparator (c : UInt8) : Bool := c = 44 || c = 9 || c = 59 || c = 32

/-- The constructor (csv.hpp:38-50); `junk` is the uninitialised buffer. -/
def create (src : Src) (sep : UInt8) (junk : List UInt8) : Res Reader :=
  if !isValidSeparator sep then .throw
  else .ok { src, line := 0, lineSize := 0, buf := junk, pos := 0, bufSize := 0, eof := false }

/-- `my_getchar` (csv.hpp:153-167). -/
def getchar (r : Reader) : Res (Int × Reader) :=
  if r.pos < r.bufSize then do
    let b ← at? r.buf r.pos
    return (sext b, { r with pos := r.pos + 1 })
  else do
    let (buf, n, src) ← readSome r.buf 0 r.buf.length r.src
    if n > 0 then do
      let b ← at? buf 0
      return (sext b, { r with buf, src, bufSize := n, pos := 1 })
    else return (-1, { r with buf, src, bufSize := n, pos := 0, eof := true })

/-- The states of the reader (csv.hpp:64-69). -/
inductive State where
  | top
  | inQuote
  | searchSep
  | needSepOrQuote
  deriving DecidableEq

/-- What one round of the loop does: return or go on. -/
inductive Step where
  | ret (b : Bool) (out : List (List UInt8))
  | go (st : State) (str : List UInt8) (out : List (List UInt8)) (lineSize : Nat)
  deriving DecidableEq

/-- `addChar(str, c)`, then go on in state `st` (csv.hpp:139-146). -/
def addChar (max : Nat) (st : State) (str : List UInt8) (out : List (List UInt8)) (lineSize : Nat) (c : Int) : Res Step :=
  let lineSize := lineSize + 1
  if lineSize = max then .throw else .ok (.go st (str ++ [toChar c]) out lineSize)

/-- The body of the loop after `my_getchar` (csv.hpp:78-135). -/
def body (max : Nat) (sep : UInt8) (st : State) (str : List UInt8) (out : List (List UInt8)) (lineSize : Nat) (c : Int) :
    Res Step :=
  if c = -1 ∧ str = [] then .ok (.ret false out)
  else if c = 13 then .ok (.go st str out lineSize)
  else match st with
  | .top =>
    if c = -1 ∨ c = 10 then .ok (.ret true (if str ≠ [] then out ++ [str] else out))
    else if c = 34 then .ok (.go .inQuote str out lineSize)
    else if c = sext sep then .ok (.go .top [] (out ++ [str]) lineSize)
    else addChar max .searchSep str out lineSize c
  | .inQuote =>
    if c = -1 then .throw
    else if c = 34 then .ok (.go .needSepOrQuote str out lineSize)
    else addChar max .inQuote str out lineSize c
  | .needSepOrQuote =>
    if c = -1 ∨ c = 10 then .ok (.ret true (out ++ [str]))
    else if c = 34 then addChar max .inQuote str out lineSize 34
    else if c = sext sep then .ok (.go .top [] (out ++ [str]) lineSize)
    else .throw
  | .searchSep =>
    if c = -1 ∨ c = 10 then .ok (.ret true (out ++ [str]))
    else if c = sext sep then .ok (.go .top [] (out ++ [str]) lineSize)
    else addChar max .searchSep str out lineSize c

/-- The loop of `read` (csv.hpp:76-136), at most `fuel` rounds. -/
def readLoop (max : Nat) (sep : UInt8) : (fuel : Nat) → State → (str : List UInt8) → (out : List (List UInt8)) → Reader →
    Res (Bool × List (List UInt8) × Reader)
  | 0, _, _, _, _ => .ub
  | fuel + 1, st, str, out, r => do
    let (c, r) ← getchar r
    let x ← body max sep st str out r.lineSize c
    match x with
    | .ret b out => return (b, out, r)
    | .go st str out lineSize => readLoop max sep fuel st str out { r with lineSize }

/-- `read` (csv.hpp:59-137): the answer, the row, the reader. -/
def read (max : Nat) (sep : UInt8) (fuel : Nat) (old : List (List UInt8)) (r : Reader) : Res (Bool × List (List UInt8) × Reader) :=
  if r.eof then .ok (false, old, r)
  else readLoop max sep fuel .top [] [] { r with line := r.line + 1 }

/-- Reading rows until `read` says false, at most `n`. -/
def readAll (max : Nat) (sep : UInt8) (fuel : Nat) : (n : Nat) → Reader → Res (List (List (List UInt8)))
  | 0, _ => .ub
  | n + 1, r => do
    let (b, row, r) ← read max sep fuel [] r
    if b then do
      let rows ← readAll max sep fuel n r
      return row :: rows
    else return []

/-- The loop of `append` (csv.hpp:224-230). -/
def appendLoop (out : List UInt8) : List UInt8 → List UInt8
  | [] => out
  | c :: str => appendLoop ((if c = 34 then out ++ [34] else out) ++ [c]) str

/-- `append` (csv.hpp:221-233): the bytes written. -/
def append (str : List UInt8) : List UInt8 := appendLoop [34] str ++ [34]

/-- The loop of `write` (csv.hpp:209-217). -/
def writeLoop (sep : UInt8) (isFirst : Bool) : List (List UInt8) → List UInt8
  | [] => []
  | f :: fs => (if isFirst then [] else [sep]) ++ append f ++ writeLoop sep false fs

/-- `write` (csv.hpp:205-219): the bytes written. -/
def write (sep : UInt8) (row : List (List UInt8)) : List UInt8 := writeLoop sep true row ++ [13, 10]

end Verif.Csv
