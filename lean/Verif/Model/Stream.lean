import Verif.Model.Endian

/-!
# Model of `include/cybozu/stream.hpp`

An input stream is its remaining content together with the answers it is going to give: the `i`-th call of
`readSome` delivers at most `frag i + 1` bytes.  `frag` is universally quantified, so every way to fragment the
data is covered; a stream answers 0 only at its end (or when 0 bytes are asked for).
-/
namespace Verif.Stream
open Verif.Endian (store)

/-- An input stream of unknown fragmentation. -/
structure Src where
  rest : List UInt8
  frag : Nat → Nat
  calls : Nat

/-- How much `readSome(buf, size)` delivers. -/
def Src.amount (s : Src) (size : Nat) : Nat := min size (min s.rest.length (s.frag s.calls + 1))

/-- The stream after `readSome(buf, size)`. -/
def Src.next (s : Src) (size : Nat) : Src := { s with rest := s.rest.drop (s.amount size), calls := s.calls + 1 }

/-- `readSome(buf + off, size)` (stream.hpp:207-211): the bytes go to `buf` at `off`. -/
def readSome (buf : List UInt8) (off size : Nat) (s : Src) : Res (List UInt8 × Nat × Src) := do
  let n := s.amount size
  let buf ← store buf off (s.rest.take n)
  return (buf, n, s.next size)

/-- The loop of `read` (stream.hpp:229-238), at most `fuel` rounds: the flag, the buffer, the stream. -/
def readLoop : (fuel : Nat) → (buf : List UInt8) → (p size : Nat) → Src → Res (Bool × List UInt8 × Src)
  | 0, _, _, _, _ => .ub
  | fuel + 1, buf, p, size, s =>
    if size > 0 then do
      let (buf, readSize, s) ← readSome buf p size s
      if readSize = 0 then return (false, buf, s)
      else readLoop fuel buf (p + readSize) (size - readSize) s
    else .ok (true, buf, s)

/-- `read(bool *pb, void *buf, size_t size, is)` (stream.hpp:225-239). -/
def readFlag (buf : List UInt8) (size : Nat) (s : Src) : Res (Bool × List UInt8 × Src) :=
  readLoop (size + 1) buf 0 size s

/-- `read(void *buf, size_t size, is)` (stream.hpp:242-248). -/
def read (buf : List UInt8) (size : Nat) (s : Src) : Res (List UInt8 × Src) := do
  let (b, buf, s) ← readFlag buf size s
  if !b then .throw else return (buf, s)

/-- `readChar` (stream.hpp:251-255). -/
def readChar (c : UInt8) (s : Src) : Res (Bool × UInt8 × Src) := do
  let (buf, n, s) ← readSome [c] 0 1 s
  let c ← at? buf 0
  return (decide (n = 1), c, s)

/-- `MemoryInputStream` (stream.hpp:126-131): `p_[0..size_)` and `pos`. -/
structure MemIn where
  data : List UInt8
  size : Nat
  pos : Nat

/-- `MemoryInputStream::readSome` (stream.hpp:132-138).  `size_ - pos` is computed as `size_t`. -/
def MemIn.readSome (m : MemIn) (buf : List UInt8) (off size : Nat) : Res (List UInt8 × Nat × MemIn) := do
  let room := (m.size + 2 ^ 64 - m.pos) % 2 ^ 64
  let size := if size > room then room else size
  if m.pos + size ≤ m.data.length then do
    let buf ← store buf off ((m.data.drop m.pos).take size)
    return (buf, size, { m with pos := m.pos + size })
  else .ub

/-- `StringInputStream::readSome` (stream.hpp:177-184) on the string `data`, position `pos`. -/
def StrIn.readSome (data : List UInt8) (pos : Nat) (buf : List UInt8) (off size : Nat) :
    Res (List UInt8 × Nat × Nat) := do
  let remainSize := (data.length + 2 ^ 64 - pos) % 2 ^ 64
  let size := if size > remainSize then remainSize else size
  if pos + size ≤ data.length then do
    let buf ← store buf off ((data.drop pos).take size)
    return (buf, size, pos + size)
  else .ub

/-- `readSome_inner` for `std::istream` (stream.hpp:40-48): one `is.read` of at most 0x7fffffff bytes, which
delivers everything that is left up to that number. -/
def IStream.amount (rest : List UInt8) (size : Nat) : Nat :=
  let size := if size > 0x7fffffff then 0x7fffffff else size
  min size rest.length

/-- `MemoryOutputStream` (stream.hpp:142-147): the memory at `p_`, `size_`, `pos`. -/
structure MemOut where
  mem : List UInt8
  size : Nat
  pos : Nat

/-- `MemoryOutputStream::write(pb, buf, size)` (stream.hpp:148-157). -/
def MemOut.writeFlag (m : MemOut) (buf : List UInt8) : Res (Bool × MemOut) :=
  let room := (m.size + 2 ^ 64 - m.pos) % 2 ^ 64
  if buf.length > room then .ok (false, m)
  else do
    let mem ← store m.mem m.pos buf
    return (true, { m with mem, pos := m.pos + buf.length })

/-- `MemoryOutputStream::write(buf, size)` (stream.hpp:159-164). -/
def MemOut.write (m : MemOut) (buf : List UInt8) : Res MemOut := do
  let (b, m) ← m.writeFlag buf
  if !b then .throw else return m

/-- A history of `write(pb, ..)` calls on one stream: the answers and the final stream. -/
def MemOut.run : MemOut → List (List UInt8) → Res (List Bool × MemOut)
  | m, [] => .ok ([], m)
  | m, w :: ws => do
    let (b, m) ← m.writeFlag w
    let (bs, m) ← m.run ws
    return (b :: bs, m)

end Verif.Stream
