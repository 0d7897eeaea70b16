import Verif.Model.Stream

/-!
# Model of the adaptors for `std::istream` and `std::ostream` (`include/cybozu/stream.hpp`) with their state flags

`istream::read`, `ostream::write`, `clear` and `exceptions` are written as the standard describes them (`rdbuf` is not null).  An exception does
not undo anything, so a call gives whether it threw together with the stream it leaves.
-/
namespace Verif.StdStream

/-- `eofbit`, `failbit`, `badbit`. -/
structure Bits where
  eof : Bool
  fail : Bool
  bad : Bool
  deriving DecidableEq, Repr

/-- `goodbit`. -/
def Bits.none : Bits := ⟨false, false, false⟩
/-- `good()`. -/
def Bits.good (b : Bits) : Bool := !b.eof && !b.fail && !b.bad
/-- `a & b` is not 0. -/
def Bits.meets (a b : Bits) : Bool := (a.eof && b.eof) || (a.fail && b.fail) || (a.bad && b.bad)

/-- An `std::istream`: what its buffer can still deliver, the flags, the mask of `exceptions`, and the answers of the buffer: the `i`-th
`sgetn` either delivers all that is asked for and there, or throws after it has taken `k` bytes. -/
structure IS where
  rest : List UInt8
  st : Bits
  mask : Bits
  dev : Nat → Option Nat
  calls : Nat

/-- What a call leaves behind. -/
structure Got where
  threw : Bool
  /-- the bytes stored in the buffer of the caller, from its begin on -/
  wrote : List UInt8
  /-- `gcount()`, later the return value -/
  count : Nat
  is : IS

/-- `is.read(buf, n)`, called at stream.hpp:43. -/
def IS.read (s : IS) (n : Nat) : Got :=
  if s.st.good then
    match s.dev s.calls with
    | some k =>
      let s := { s with rest := s.rest.drop (min k n), st := { s.st with bad := true }, calls := s.calls + 1 }
      { threw := s.mask.bad, wrote := [], count := 0, is := s }
    | none =>
      let m := min n s.rest.length
      let short := decide (m < n)
      let wrote := s.rest.take m
      let s := { s with rest := s.rest.drop m, st := { s.st with eof := short, fail := short }, calls := s.calls + 1 }
      { threw := s.st.meets s.mask, wrote, count := m, is := s }
  else
    let s := { s with st := { s.st with fail := true } }
    { threw := s.st.meets s.mask, wrote := [], count := 0, is := s }

/-- `readSome_inner` for `std::istream` (stream.hpp:40-48).  `gcount()` is never negative. -/
def readSome (s : IS) (size : Nat) : Got :=
  let size := if size > 0x7fffffff then 0x7fffffff else size
  let g := s.read size
  if g.threw then g
  else if size = 1 ∧ g.count = 0 then { g with is := { g.is with st := Bits.none } }
  else g

/-- The loop of `read` (stream.hpp:229-238): whether it threw, the flag, all bytes stored so far, the stream.  Running out of `fuel` counts as
throwing. -/
def readLoop : (fuel : Nat) → (acc : List UInt8) → (size : Nat) → IS → Bool × Bool × List UInt8 × IS
  | 0, acc, _, s => (true, false, acc, s)
  | fuel + 1, acc, size, s =>
    if size > 0 then
      let g := readSome s size
      if g.threw then (true, false, acc ++ g.wrote, g.is)
      else if g.count = 0 then (false, false, acc, g.is)
      else readLoop fuel (acc ++ g.wrote) (size - g.count) g.is
    else (false, true, acc, s)

/-- `read(bool *pb, void *buf, size_t size, is)` (stream.hpp:225-239). -/
def readFlag (size : Nat) (s : IS) : Bool × Bool × List UInt8 × IS := readLoop (size + 1) [] size s

/-- `readChar` (stream.hpp:251-255): the answer (`none`: it threw), the byte, the stream. -/
def readChar (s : IS) : Option Bool × List UInt8 × IS :=
  let g := readSome s 1
  (if g.threw then none else some (decide (g.count = 1)), g.wrote, g.is)

/-- What happens to a stream: a request, or the file behind it grows. -/
inductive Op where
  | ask (size : Nat)
  | grow (l : List UInt8)

/-- A history of `readSome` calls (a program that ignores exceptions): the bytes of each call. -/
def run : IS → List Op → List (List UInt8) × IS
  | s, [] => ([], s)
  | s, .ask n :: ops =>
    let g := readSome s n
    let r := run g.is ops
    (g.wrote :: r.1, r.2)
  | s, .grow l :: ops => run { s with rest := s.rest ++ l } ops

/-- An `std::ostream`: what its buffer has taken, the flags, the mask; the `i`-th `sputn` takes at most `room i` bytes (`none`: all).
`marks`: whether the sentry sets `failbit` when the stream is in such a state (the standard: "may"). -/
structure OS where
  out : List UInt8
  st : Bits
  mask : Bits
  marks : Bits → Bool
  room : Nat → Option Nat
  calls : Nat

/-- How many of `n` bytes the buffer takes. -/
def OS.taken (s : OS) (n : Nat) : Nat :=
  match s.room s.calls with
  | none => n
  | some k => min k n

/-- `os.write(buf, size)`, called at stream.hpp:68, 83: whether it threw, the stream. -/
def OS.write (s : OS) (buf : List UInt8) : Bool × OS :=
  if s.st.good then
    let k := s.taken buf.length
    let short := decide (k < buf.length)
    let s := { s with out := s.out ++ buf.take k, st := { s.st with bad := short }, calls := s.calls + 1 }
    (s.st.meets s.mask, s)
  else if s.marks s.st then
    let s := { s with st := { s.st with fail := true } }
    (s.st.meets s.mask, s)
  else (false, s)

/-- `!os`. -/
def OS.failed (s : OS) : Bool := s.st.fail || s.st.bad

/-- `writeSub(os, buf, size)` (stream.hpp:65-69): whether it threw. -/
def write (s : OS) (buf : List UInt8) : Bool × OS :=
  let r := s.write buf
  (r.1 || r.2.failed, r.2)

/-- `writeSub(pb, os, buf, size)` (stream.hpp:80-84): whether it threw, the flag. -/
def writeFlag (s : OS) (buf : List UInt8) : Bool × Bool × OS :=
  let r := s.write buf
  (r.1, !r.2.failed, r.2)

/-- A history of writes by a program that carries on after an exception: which ones threw. -/
def writes : OS → List (List UInt8) → List Bool × OS
  | s, [] => ([], s)
  | s, b :: bs =>
    let r := write s b
    let t := writes r.2 bs
    (r.1 :: t.1, t.2)

/-- A program that uses a `StringInputStream` on a string it goes on appending to (stream.hpp:168-186): the bytes of each request, the
string and the position. -/
def strRun : List UInt8 → Nat → List Op → Res (List (List UInt8) × List UInt8 × Nat)
  | data, pos, [] => .ok ([], data, pos)
  | data, pos, .grow l :: ops => strRun (data ++ l) pos ops
  | data, pos, .ask n :: ops => do
    let (buf, k, pos) ← Stream.StrIn.readSome data pos (List.replicate n 0) 0 n
    let (bs, data, pos) ← strRun data pos ops
    return (buf.take k :: bs, data, pos)

end Verif.StdStream
