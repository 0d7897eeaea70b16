import Verif.Model.Stream
import Verif.Model.Endian

/-!
# Model of the gzip framing of `include/cybozu/zlib.hpp`

Only the code of cybozulib around zlib: the header the compressor writes, the header the decompressor skips and
the trailer.  `deflate`/`inflate` themselves are not modelled.  A `char` is its byte; comparing a `char` with
`'\x8b'` or masking it compares the bytes.
-/
namespace Verif.Gzip
open Verif.Stream (Src)

/-- `skipToZero` (zlib.hpp:169-176).  The loop has no bound of its own; `fuel` exceeds the number of bytes left in
the stream. -/
def skipToZeroLoop : (fuel : Nat) → Src → Res Src
  | 0, _ => .ub
  | fuel + 1, s => do
    let (buf, s) ← Stream.read [0] 1 s
    let c ← at? buf 0
    if c = 0 then return s else skipToZeroLoop fuel s

@[inherit_doc skipToZeroLoop]
def skipToZero (s : Src) : Res Src := skipToZeroLoop (s.rest.length + 1) s

/-- `skip(int size)` (zlib.hpp:177-183). -/
def skip : (size : Nat) → Src → Res Src
  | 0, s => .ok s
  | size + 1, s => do
    let (_, s) ← Stream.read [0] 1 s
    skip size s

/-- The optional parts (zlib.hpp:200-215): `if (flg & bit) { act }`. -/
def optional (flg : UInt8) (bit : UInt8) (act : Src → Res Src) (s : Src) : Res Src :=
  if flg &&& bit ≠ 0 then act s else .ok s

/-- The extra field (zlib.hpp:201-204): its length in two bytes, then that many bytes. -/
def skipExtra (s : Src) : Res Src := do
  let (xlen, s) ← Stream.read [0, 0] 2 s
  let size ← Endian.get16LEMem xlen 0
  skip size s

/-- `readGzipHeader` (zlib.hpp:184-218); the content of the uninitialised arrays is taken to be zeros (it is
overwritten before it is used).  `Z_DEFLATED` is 8. -/
def readGzipHeader (s : Src) : Res Src := do
  let (header, s) ← Stream.read (List.replicate 10 0) 10 s
  let flg ← at? header 3
  let h0 ← at? header 0
  let h1 ← at? header 1
  let h2 ← at? header 2
  if h0 = 0x1f ∧ h1 = 0x8b ∧ h2 = 8 ∧ flg &&& 0xe0 = 0 then do
    let s ← optional flg 4 skipExtra s
    let s ← optional flg 8 skipToZero s
    let s ← optional flg 16 skipToZero s
    optional flg 2 (skip 2) s
  else .throw

/-- The header written by the constructor of the compressor (zlib.hpp:71-72). -/
def header : List UInt8 := [0x1f, 0x8b, 8, 0, 0, 0, 0, 0, 0, 3]

/-- The trailer written by `flush` (zlib.hpp:137-142). -/
def trailer (crc totalSize : Nat) : Res (List UInt8) := do
  let tail ← Endian.set32LEMem (List.replicate 8 0) 0 crc
  Endian.set32LEMem tail 4 totalSize

end Verif.Gzip
