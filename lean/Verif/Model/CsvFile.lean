import Verif.Model.Csv
/-!
# Model of the classes `CsvWriter` and `CsvReader` on files (`include/cybozu/csv.hpp`)

A file is its bytes; the device takes `room` more bytes.  `std::ofstream` keeps bytes back: which writes empty its buffer is a parameter.
A write that fails sets `badbit`, after which all writes fail.  What did not fit stays in the buffer.
-/
namespace Verif.CsvFile
open Verif.Csv Verif.Stream

/-- `std::ofstream`: neither `failbit` nor `badbit`, the buffer, the file, what the device still takes, and whether the `k`-th write
empties the buffer. -/
structure OFile where
  good : Bool
  buf : List UInt8
  file : List UInt8
  room : Nat
  flush : Nat → Bool
  calls : Nat

/-- The constructor of `std::ofstream` with `std::ios::binary` (csv.hpp:278): the file is cut to nothing if it can be opened, otherwise
`failbit` is set. -/
def openOut (canOpen : Bool) (old : List UInt8) (room : Nat) (flush : Nat → Bool) : OFile :=
  if canOpen then ⟨true, [], [], room, flush, 0⟩ else ⟨false, [], old, room, flush, 0⟩

/-- `CsvWriter(name, sep)` (csv.hpp:277-281, 192-199): whether it throws, and the file. -/
def createWriter (canOpen : Bool) (old : List UInt8) (room : Nat) (flush : Nat → Bool) (sep : UInt8) : Bool × OFile :=
  (!isValidSeparator sep, openOut canOpen old room flush)

/-- The buffer and `bs` go to the device as far as it takes them. -/
def transfer (o : OFile) (bs : List UInt8) : Bool × OFile :=
  let all := o.buf ++ bs
  if all.length ≤ o.room then
    (true, { o with buf := [], file := o.file ++ all, room := o.room - all.length, calls := o.calls + 1 })
  else (false, { o with good := false, buf := all.drop o.room, file := o.file ++ all.take o.room, room := 0, calls := o.calls + 1 })

/-- `writeSub` for `std::ostream` (stream.hpp:66-70) with `std::ostream::write`: `false` is the exception. -/
def put (o : OFile) (bs : List UInt8) : Bool × OFile :=
  if !o.good then (false, { o with calls := o.calls + 1 })
  else if o.flush o.calls then transfer o bs
  else (true, { o with buf := o.buf ++ bs, calls := o.calls + 1 })

/-- `put`, then `k` unless it threw. -/
def andThen (r : Bool × OFile) (k : OFile → Bool × OFile) : Bool × OFile := if r.1 then k r.2 else r

/-- `CsvWriterT::write` with `append`, `appendSeparator`, `appendEndLine`, `writeToStream` (csv.hpp:205-245), from the middle of the row
on: `false` is an exception. -/
def writeLoop (sep : UInt8) (isFirst : Bool) : List (List UInt8) → OFile → Bool × OFile
  | [], o => put o [13, 10]
  | f :: fs, o =>
    andThen (if isFirst then (true, o) else put o [sep]) fun o =>
      andThen (put o (append f)) (writeLoop sep false fs)

/-- `CsvWriter::write` (csv.hpp:287-291). -/
def write (sep : UInt8) (row : List (List UInt8)) (o : OFile) : Bool × OFile := writeLoop sep true row o

/-- The rows one after the other, also after an exception: which of them were written without, and the stream. -/
def writeAll (sep : UInt8) : List (List (List UInt8)) → OFile → List Bool × OFile
  | [], o => ([], o)
  | row :: rows, o =>
    let r := write sep row o
    let s := writeAll sep rows r.2
    (r.1 :: s.1, s.2)

/-- `~CsvWriter` with the destructor of `std::ofstream`: the rest of the buffer goes to the device; nobody learns if it fails.  The file. -/
def close (o : OFile) : List UInt8 := o.file ++ o.buf.take o.room

/-- `std::ifstream` with `std::ios::binary` (csv.hpp:255) as `readSome_inner` sees it (stream.hpp:40-48): nothing if the file could not
be opened; only `upto` bytes if reading fails there. -/
def openIn (content : Option (List UInt8)) (upto : Nat) : Src := ⟨(content.getD []).take upto, fun _ => 0x7ffffffe, 0⟩

/-- `CsvReader(name, sep)` (csv.hpp:254-258) and `read` (266-270) until it says false. -/
def readFile (max : Nat) (sep : UInt8) (content : Option (List UInt8)) (upto : Nat) (junk : List UInt8) (fuel n : Nat) :
    Res (List (List (List UInt8))) := do
  let r ← create (openIn content upto) sep junk
  readAll max sep fuel n r

end Verif.CsvFile
