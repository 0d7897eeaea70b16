import Verif.Model.Stream
import Verif.Model.BitVector

/-!
# Model of `include/cybozu/line_stream.hpp`

The reader is a stream of unknown fragmentation (`Verif.Stream.Src`).  Pointers into the buffer are offsets.  Because the
object can be used after an exception, an exception is one of the outcomes (`Out.throw`) and not an end of the computation.
-/
namespace Verif.LineStream
open Verif.Stream
open Verif.BitVector (setAt?)

/-- `LineStreamT` (line_stream.hpp:42-48). -/
structure LS where
  reader : Src
  maxLineSize : Nat
  buf : List UInt8
  bufSize : Nat
  next : Nat
  eof : Bool

/-- Outcome of `next`: a line given by its begin and end in the buffer, false, or an exception. -/
inductive Out where
  | line (b e : Nat)
  | none
  | throw
  deriving DecidableEq

/-- The constructor (line_stream.hpp:58-66). -/
def create (reader : Src) (maxLineSize : Nat) : LS :=
  { reader, maxLineSize, buf := List.replicate (maxLineSize * 2) 0, bufSize := 0, next := 0, eof := false }

/-- `memchr(buf + p, c, n)`. -/
def memchr (buf : List UInt8) (c : UInt8) : (n p : Nat) → Res (Option Nat)
  | 0, _ => .ok none
  | n + 1, p => do
    let x ← at? buf p
    if x = c then return some p else memchr buf c n (p + 1)

/-- The loop moving the rest to the top of the buffer (line_stream.hpp:93-95). -/
def moveLoop (next : Nat) : (cnt i : Nat) → List UInt8 → Res (List UInt8)
  | 0, _, buf => .ok buf
  | cnt + 1, i, buf => do
    let x ← at? buf (next + i)
    let buf ← setAt? buf i x
    moveLoop next cnt (i + 1) buf

/-- A line end was found at `endl` (line_stream.hpp:82-90). -/
def found (s : LS) (endl : Nat) : Res (Out × LS) := do
  let e ← (if endl > s.next then do
      let c ← at? s.buf (endl - 1)
      return if c = 13 then endl - 1 else endl
    else .ok endl : Res Nat)
  if e - s.next > s.maxLineSize then return (.throw, s)
  else return (.line s.next e, { s with next := endl + 1 })

/-- Moving the rest to the top of the buffer (line_stream.hpp:92-100). -/
def compact (s : LS) : Res LS :=
  let remainSize := s.bufSize - s.next
  if remainSize > 0 then do
    let buf ← moveLoop s.next remainSize 0 s.buf
    return { s with buf, bufSize := remainSize, next := 0 }
  else .ok { s with bufSize := 0, next := 0 }

/-- The reader is at its end, or the buffer is full (line_stream.hpp:103-112).  `verifySize` checks the same again. -/
def atEnd (s : LS) : Out × LS :=
  let s := { s with eof := true }
  if s.bufSize = 0 then (.none, s)
  else if s.bufSize > s.maxLineSize then (.throw, s)
  else (.line 0 s.bufSize, s)

/-- The loop of `next` (line_stream.hpp:77-115), at most `fuel` rounds. -/
def nextLoop : (fuel : Nat) → LS → Res (Out × LS)
  | 0, _ => .ub
  | fuel + 1, s => do
    let endl ← memchr s.buf 10 (s.bufSize - s.next) s.next
    match endl with
    | some endl => found s endl
    | Option.none => do
      let s ← compact s
      let (buf, readSize, reader) ← readSome s.buf s.bufSize (s.buf.length - s.bufSize) s.reader
      let s := { s with buf, reader }
      if readSize = 0 then return atEnd s
      else nextLoop fuel { s with bufSize := s.bufSize + readSize }

/-- `next(begin, end)` (line_stream.hpp:74-116). -/
def next (fuel : Nat) (s : LS) : Res (Out × LS) :=
  if s.eof then .ok (.none, s) else nextLoop fuel s

/-- The bytes from `b` to `e`. -/
def slice (buf : List UInt8) (b e : Nat) : List UInt8 := (buf.drop b).take (e - b)

/-- What a user of `next(std::string&)` sees (line_stream.hpp:120-129). -/
inductive Answer where
  | line (l : List UInt8)
  | none
  | throw
  deriving DecidableEq

/-- `next(std::string&)` (line_stream.hpp:120-129). -/
def nextStr (fuel : Nat) (s : LS) : Res (Answer × LS) := do
  let (o, s) ← next fuel s
  match o with
  | .line b e => if b ≤ e ∧ e ≤ s.buf.length then return (.line (slice s.buf b e), s) else .ub
  | .none => return (.none, s)
  | .throw => return (.throw, s)

/-- `getRemain` (line_stream.hpp:133-140). -/
def getRemain (s : LS) : List UInt8 := if s.eof then [] else slice s.buf s.next s.bufSize

/-- The loop of the usage note (line_stream.hpp:33-39): `next` until it says false, at most `n` times; the lines. -/
def readAll (fuel : Nat) : (n : Nat) → LS → Res (List (List UInt8))
  | 0, _ => .ub
  | n + 1, s => do
    let (a, s) ← nextStr fuel s
    match a with
    | .line l => do
      let ls ← readAll fuel n s
      return l :: ls
    | .none => return []
    | .throw => .throw

end Verif.LineStream
