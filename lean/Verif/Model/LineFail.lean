import Verif.Model.LineStream

/-!
# Model of `LineStreamT::next` with a reader that throws (`include/cybozu/line_stream.hpp:74-116`)

`Model/LineStream` has readers that always answer.  Here a call of `readSome` may throw, for example a socket whose time limit is over; it has then not
taken anything from the stream.
-/
namespace Verif.LineFail
open Verif.Stream Verif.LineStream

/-- The loop of `next` (line_stream.hpp:77-115), at most `fuel` rounds; `fails i` tells whether the `i`-th call of `readSome` throws.  The outcome is
`none` if an exception of the reader left the loop (101). -/
def nextLoop (fails : Nat → Bool) : (fuel : Nat) → LS → Res (Option Out × LS)
  | 0, _ => .ub
  | fuel + 1, s => do
    let endl ← memchr s.buf 10 (s.bufSize - s.next) s.next
    match endl with
    | some endl => do
      let (o, s) ← found s endl
      return (some o, s)
    | Option.none => do
      let s ← compact s
      if fails s.reader.calls then return (none, { s with reader := { s.reader with calls := s.reader.calls + 1 } })
      else do
        let (buf, readSize, reader) ← readSome s.buf s.bufSize (s.buf.length - s.bufSize) s.reader
        let s := { s with buf, reader }
        if readSize = 0 then return (some (atEnd s).1, (atEnd s).2)
        else nextLoop fails fuel { s with bufSize := s.bufSize + readSize }

/-- `next(begin, end)` (line_stream.hpp:74-116). -/
def next (fails : Nat → Bool) (fuel : Nat) (s : LS) : Res (Option Out × LS) :=
  if s.eof then .ok (some .none, s) else nextLoop fails fuel s

end Verif.LineFail
