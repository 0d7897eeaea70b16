import Verif.Model.Gzip

/-!
# Model of the streaming classes of `include/cybozu/zlib.hpp`

The code of cybozulib around zlib: the loops of `ZlibCompressorT` and `ZlibDecompressorT`.  zlib itself is a parameter
(`Deflater`, `Inflater`): functions that take the unread input and the room for output.  The output stream takes every
byte it is given.  `mb` is `maxBufSize`.
-/
namespace Verif.Zlib
open Verif.Stream (Src)

/-- The results of `deflate` and `inflate` the code tells apart: `Z_OK`, `Z_STREAM_END`, all others. -/
inductive Ret where
  | ok | streamEnd | error
  deriving DecidableEq, Repr

/-- What a call of `deflate` or `inflate` does: result, number of bytes taken from `next_in`, bytes put at `next_out`,
new state. -/
structure Out (σ : Type) where
  ret : Ret
  used : Nat
  out : List UInt8
  st : σ

/-- `z_stream` of a compressor: the state after `deflateInit`/`deflateInit2`, `deflate` (input, room, `Z_FINISH`?), and
`crc32`. -/
structure Deflater where
  σ : Type
  init : σ
  deflate : σ → List UInt8 → Nat → Bool → Out σ
  crc32 : Nat → List UInt8 → Nat

/-- `z_stream` of a decompressor. -/
structure Inflater where
  σ : Type
  init : σ
  inflate : σ → List UInt8 → Nat → Out σ

/-- The members of `ZlibCompressorT` (zlib.hpp:42-49), with what the output stream has received. -/
structure Comp (D : Deflater) where
  zs : D.σ
  crc : Nat
  total : Nat
  flushed : Bool
  useGzip : Bool
  os : List UInt8

/-- The constructor (zlib.hpp:57-78). -/
def Comp.new (D : Deflater) (useGzip : Bool) : Comp D :=
  ⟨D.init, D.crc32 0 [], 0, false, useGzip, if useGzip then Gzip.header else []⟩

/-- The loop of `write` (zlib.hpp:105-117); `fuel` bounds the number of rounds. -/
def writeLoop (D : Deflater) (mb : Nat) : (fuel : Nat) → D.σ → (input os : List UInt8) → Res (D.σ × List UInt8)
  | _, s, [], os => .ok (s, os)
  | 0, _, _ :: _, _ => .ub
  | fuel + 1, s, b :: input, os =>
    let r := D.deflate s (b :: input) mb false
    match r.ret with
    | .error => .throw
    | .streamEnd => .ok (r.st, os ++ r.out)
    | .ok => writeLoop D mb fuel r.st ((b :: input).drop r.used) (os ++ r.out)

/-- `write` (zlib.hpp:97-118). -/
def Comp.write {D : Deflater} (mb fuel : Nat) (c : Comp D) (buf : List UInt8) : Res (Comp D) :=
  if 2 ^ 31 ≤ buf.length then .throw
  else do
    let (zs, os) ← writeLoop D mb fuel c.zs buf c.os
    return { c with
      zs := zs, os := os
      crc := if c.useGzip then D.crc32 c.crc buf else c.crc
      total := if c.useGzip then (c.total + buf.length) % 2 ^ 32 else c.total }

/-- The loop of `flush` (zlib.hpp:126-136). -/
def flushLoop (D : Deflater) (mb : Nat) : (fuel : Nat) → D.σ → (os : List UInt8) → Res (D.σ × List UInt8)
  | 0, _, _ => .ub
  | fuel + 1, s, os =>
    let r := D.deflate s [] mb true
    match r.ret with
    | .error => .throw
    | .streamEnd => .ok (r.st, os ++ r.out)
    | .ok => flushLoop D mb fuel r.st (os ++ r.out)

/-- `flush` (zlib.hpp:119-143). -/
def Comp.flush {D : Deflater} (mb fuel : Nat) (c : Comp D) : Res (Comp D) :=
  if c.flushed then .ok c
  else do
    let (zs, os) ← flushLoop D mb fuel c.zs c.os
    let tail ← if c.useGzip then Gzip.trailer c.crc c.total else pure []
    return { c with zs := zs, os := os ++ tail, flushed := true }

/-- The destructor (zlib.hpp:79-91) as far as the output is concerned; an exception of `flush` is caught and what had
been written stays. -/
def Comp.destroy {D : Deflater} (mb fuel : Nat) (c : Comp D) : Res (Comp D) :=
  if c.flushed then .ok c else c.flush mb fuel

/-- `write` of every block in turn. -/
def Comp.writes {D : Deflater} (mb fuel : Nat) : Comp D → List (List UInt8) → Res (Comp D)
  | c, [] => .ok c
  | c, b :: bs => do
    let c ← c.write mb fuel b
    Comp.writes mb fuel c bs

/-- The members of `ZlibDecompressorT` (zlib.hpp:157-164); `input` are the `avail_in` bytes at `next_in`. -/
structure Dec (I : Inflater) where
  zs : I.σ
  input : List UInt8
  ret : Ret
  useGzip : Bool
  readHeader : Bool
  is : Src

/-- The constructor (zlib.hpp:227-249). -/
def Dec.new (I : Inflater) (useGzip : Bool) (is : Src) : Dec I := ⟨I.init, [], .ok, useGzip, false, is⟩

/-- Filling the empty buffer by `cybozu::readSome(buf_, maxBufSize, is_)` (zlib.hpp:272); of `buf_` the bytes that were
read are kept. -/
def Dec.fill {I : Inflater} (mb : Nat) (d : Dec I) : Dec I :=
  { d with input := d.is.rest.take (d.is.amount mb), is := d.is.next mb }

/-- The loop of `readSome` (zlib.hpp:270-281).  It goes round again only when no output was produced, so the room is
always `size`.  The result is what was put into `buf`. -/
def readLoop {I : Inflater} (mb : Nat) : (fuel : Nat) → Dec I → (size : Nat) → Res (List UInt8 × Dec I)
  | 0, _, _ => .ub
  | fuel + 1, d, size =>
    let d := if d.input = [] then d.fill mb else d
    if d.input = [] ∧ d.ret = .streamEnd then .ok ([], d)
    else
      let r := I.inflate d.zs d.input size
      let d := { d with zs := r.st, input := d.input.drop r.used, ret := r.ret }
      match r.ret with
      | .streamEnd => .ok (r.out, d)
      | .error => .throw
      | .ok => if r.out = [] then readLoop mb fuel d size else .ok (r.out, d)

/-- `readSome` (zlib.hpp:260-284).  The bound on the rounds exceeds the number of bytes that are left. -/
def Dec.readSome {I : Inflater} (mb : Nat) (d : Dec I) (size : Nat) : Res (List UInt8 × Dec I) :=
  if 2 ^ 31 ≤ size then .throw
  else do
    let d ← if d.useGzip ∧ ¬ d.readHeader then do
        let is ← Gzip.readGzipHeader d.is
        pure { d with is := is, readHeader := true }
      else pure d
    readLoop mb (d.is.rest.length + d.input.length + 2) d size

/-- `isEmpty` (zlib.hpp:285). -/
def Dec.isEmpty {I : Inflater} (d : Dec I) : Bool := d.ret = .streamEnd

/-- The loop of `read` (zlib.hpp:286-295). -/
def readAllLoop {I : Inflater} (mb : Nat) : (fuel : Nat) → Dec I → (size : Nat) → Res (List UInt8 × Dec I)
  | _, d, 0 => .ok ([], d)
  | 0, _, _ + 1 => .ub
  | fuel + 1, d, size + 1 => do
    let (out, d) ← d.readSome mb (size + 1)
    if out = [] then .throw
    else do
      let (more, d) ← readAllLoop mb fuel d (size + 1 - out.length)
      return (out ++ more, d)

/-- `read` (zlib.hpp:286-295). -/
def Dec.read {I : Inflater} (mb : Nat) (d : Dec I) (size : Nat) : Res (List UInt8 × Dec I) := readAllLoop mb size d size

/-- `readSome` with every size in turn. -/
def Dec.reads {I : Inflater} (mb : Nat) : Dec I → List Nat → Res (List (List UInt8) × Dec I)
  | d, [] => .ok ([], d)
  | d, n :: ns => do
    let (out, d) ← d.readSome mb n
    let (outs, d) ← Dec.reads mb d ns
    return (out :: outs, d)

end Verif.Zlib
