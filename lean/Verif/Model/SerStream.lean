import Verif.Model.Serializer
import Verif.Model.PartialIO
import Verif.Model.Zlib

/-!
# Model of the serializer over any stream class (`include/cybozu/serializer.hpp`, `include/cybozu/stream.hpp`, `sample/serializer_smpl.cpp`)

The functions of the serializer are templates over the stream.  `Verif.Serializer` has them for a stream of unknown fragmentation; here
they are for any class `σ` with `readSome` or `write`, and these are given for the streams of the library and of the sample.
-/
namespace Verif.SerStream
open Verif.Stream (MemIn MemOut)
open Verif.Endian (store memLoad memBytes)
open Verif.Serializer (Ty Val width default savePod saveSize chunks setInsert mapInsert umapInsert recoverableS recoverableU)

/-- An input stream class: `readSome(buf + off, size)` gives the buffer, the value and the object after the call. -/
structure In (σ : Type) where
  readSome : (buf : List UInt8) → (off size : Nat) → σ → Res (List UInt8 × Nat × σ)

/-- An output stream class: `write(buf, size)`. -/
structure Out (σ : Type) where
  write : List UInt8 → σ → Res σ

variable {σ : Type}

/-- The loop of `read` (stream.hpp:229-238), at most `fuel` rounds.  A stream that says it delivered more than it was asked for makes the
remaining size wrap around: undefined. -/
def readLoop (I : In σ) : (fuel : Nat) → (buf : List UInt8) → (p size : Nat) → σ → Res (Bool × List UInt8 × σ)
  | 0, _, _, _, _ => .ub
  | fuel + 1, buf, p, size, s =>
    if size > 0 then do
      let (buf, readSize, s) ← I.readSome buf p size s
      if readSize = 0 then return (false, buf, s)
      else if readSize > size then .ub
      else readLoop I fuel buf (p + readSize) (size - readSize) s
    else .ok (true, buf, s)

/-- `read` (stream.hpp:225-248). -/
def read (I : In σ) (buf : List UInt8) (size : Nat) (s : σ) : Res (List UInt8 × σ) := do
  let (b, buf, s) ← readLoop I (size + 1) buf 0 size s
  if !b then .throw else return (buf, s)

/-- `loadRange` (serializer.hpp:58-62). -/
def loadRange (I : In σ) (n : Nat) (s : σ) : Res (List UInt8 × σ) := read I (List.replicate n 0) n s

/-- `loadPod` (serializer.hpp:70-76). -/
def loadPod (I : In σ) (n : Nat) (s : σ) : Res (BitVec (8 * n) × σ) := do
  let (c, s) ← loadRange I n s
  return (BitVec.ofNat (8 * n) (memLoad c), s)

/-- The branches of `loadVariableInt` (serializer.hpp:168-204): how many bytes follow the header and whether the value is signed; an
inner `none` is the exception, the outer one means that the header is the value. -/
def body (w h : Nat) : Option (Option (Nat × Bool)) :=
  if h = 0x80 then some (some (1, false))
  else if h = 0x81 then some (some (2, false))
  else if h = 0x82 then some (some (4, false))
  else if h = 0x83 then some (if w = 32 then none else some (8, false))
  else if h = 0x84 then some (some (1, true))
  else if h = 0x85 then some (some (2, true))
  else if h = 0x86 then some (some (4, true))
  else if h = 0x87 then some (if w = 32 then none else some (8, true))
  else none

/-- `loadVariableInt` behind the header (serializer.hpp:168-204). -/
def loadBody (I : In σ) (w : Nat) (h : Nat) (s : σ) : Res (BitVec w × σ) :=
  match body w h with
  | none => .ok ((BitVec.ofNat 8 h).signExtend w, s)
  | some none => .throw
  | some (some (n, signed)) => do
    let (v, s) ← loadPod I n s
    return (if signed then v.signExtend w else v.setWidth w, s)

/-- `loadVariableInt` (serializer.hpp:163-205). -/
def loadVariableInt (I : In σ) (w : Nat) (s : σ) : Res (BitVec w × σ) := do
  let (h, s) ← loadPod I 1 s
  loadBody I w h.toNat s

/-- `load(size, is)` for a `size_t` (serializer.hpp:209-219). -/
def loadSize (I : In σ) (s : σ) : Res (Nat × σ) := do
  let (n, s) ← loadVariableInt I 64 s
  return (n.toNat, s)

/-- `if (size > 0) loadRange(&v[0], size, is)` (serializer.hpp:234). -/
def loadElems (I : In σ) (n size : Nat) (s : σ) : Res (List UInt8 × σ) :=
  if size > 0 then loadRange I (size * n) s else .ok ([], s)

/-- `loadPodVec` (serializer.hpp:228-235), also `load(cybozu::String&)` (string.hpp:1693-1697). -/
def loadPodVec (I : In σ) (n : Nat) (s : σ) : Res (List (BitVec (8 * n)) × σ) := do
  let (size, s) ← loadSize I s
  if size * n ≥ 2 ^ 63 then .throw
  else do
    let (c, s) ← loadElems I n size s
    return (chunks n size c, s)

/-- `load(std::string&)` (serializer.hpp:245-249). -/
def loadStr (I : In σ) (s : σ) : Res (List UInt8 × σ) := do
  let (size, s) ← loadSize I s
  if size ≥ 2 ^ 63 then .throw
  else loadElems I 1 size s

/-- The loops of the containers (serializer.hpp:274-278, 297-301, 321-326, 349-354). -/
def loadMany {α β : Type} (ld : σ → Res (α × σ)) (add : β → α → β) : (num : Nat) → β → σ → Res (β × σ)
  | 0, x, s => .ok (x, s)
  | num + 1, x, s => do
    let (t, s) ← ld s
    loadMany ld add num (add x t) s

/-- Two loads in a row (serializer.hpp:322-325). -/
def loadPair {α β : Type} (l1 : σ → Res (α × σ)) (l2 : σ → Res (β × σ)) (s : σ) : Res ((α × β) × σ) := do
  let (a, s) ← l1 s
  let (b, s) ← l2 s
  return ((a, b), s)

variable (ord same : (t : Ty) → Val t → Val t → Bool)

/-- `load(x, is)` (serializer.hpp:98-109, 209-211, 228-279, 292-302, 315-327, 341-355), as `Serializer.load` but for the class `I`. -/
def load (I : In σ) : (t : Ty) → (old : Val t) → σ → Res (Val t × σ)
  | .pod n, _, s => loadPod I n s
  | .int l, _, s => loadVariableInt I (width l) s
  | .str, _, s => loadStr I s
  | .podVec n, _, s => loadPodVec I n s
  | .seq t, _, s => do
    let (size, s) ← loadSize I s
    loadMany (load I t (default t)) (fun x e => x ++ [e]) size [] s
  | .set k, old, s => do
    let (size, s) ← loadSize I s
    loadMany (load I k (default k)) (setInsert (ord k)) size old s
  | .map k v, old, s => do
    let (size, s) ← loadSize I s
    loadMany (loadPair (load I k (default k)) (load I v (default v))) (mapInsert (ord k)) size old s
  | .umap k v, old, s => do
    let (size, s) ← loadSize I s
    loadMany (loadPair (load I k (default k)) (load I v (default v))) (umapInsert (same k)) size old s

/-- A user class (serializer.hpp:86-96): its fields in the order in which its `load` and `save` go through them, for instance `Data` and
`Data2` of the sample (serializer_smpl.cpp:14-67). -/
abbrev Object := List (Σ t : Ty, Val t)

/-- `x.load(is)` of a user class that loads its fields in turn (serializer_smpl.cpp:29-35, 55-59), into an object that holds `old`. -/
def loadObject (I : In σ) : (old : Object) → σ → Res (Object × σ)
  | [], s => .ok ([], s)
  | ⟨t, x⟩ :: rest, s => do
    let (y, s) ← load ord same I t x s
    let (ys, s) ← loadObject I rest s
    return (⟨t, y⟩ :: ys, s)

/-- The calls of `write` made by `saveVariableInt` (serializer.hpp:138-161). -/
def intPieces {w : Nat} (x : BitVec w) : List (List UInt8) :=
  if recoverableS 8 x then
    let u8 := x.setWidth 8
    (if (u8.toNat + 2 ^ 32 - 0x80) % 2 ^ 32 ≤ 7 then [savePod 1 0x84] else []) ++ [savePod 1 u8.toNat]
  else if recoverableU 8 x then [savePod 1 0x80, savePod 1 (x.setWidth 8).toNat]
  else if recoverableU 16 x || recoverableS 16 x then
    [savePod 1 (if recoverableU 16 x then 0x81 else 0x85), savePod 2 (x.setWidth 16).toNat]
  else if recoverableU 32 x || recoverableS 32 x then
    [savePod 1 (if recoverableU 32 x then 0x82 else 0x86), savePod 4 (x.setWidth 32).toNat]
  else [savePod 1 0x83, savePod 8 (x.setWidth 64).toNat]

/-- The calls made for a size (serializer.hpp:219, 209-211). -/
def sizePieces (n : Nat) : List (List UInt8) := intPieces (BitVec.ofNat 64 n)

/-- The calls of `write` made by `save(os, x)` (serializer.hpp:98-109, 209-211, 238-243, 251-255, 281-289, 304-312, 329-338, 357-366). -/
def pieces : (t : Ty) → Val t → List (List UInt8)
  | .pod n, x => [savePod n x.toNat]
  | .int _, x => intPieces x
  | .str, x => sizePieces x.length ++ if (x : List UInt8) ≠ [] then [x] else []
  | .podVec n, x => sizePieces x.length ++ if (x : List (BitVec (8 * n))) ≠ [] then [(x.map fun y => savePod n y.toNat).flatten] else []
  | .seq t, x => sizePieces x.length ++ (x.map (pieces t)).flatten
  | .set k, x => sizePieces x.length ++ (x.map (pieces k)).flatten
  | .map k v, x => sizePieces x.length ++ (x.map fun p => pieces k p.1 ++ pieces v p.2).flatten
  | .umap k v, x => sizePieces x.length ++ (x.map fun p => pieces k p.1 ++ pieces v p.2).flatten

/-- One `write` after the other; the first exception ends it. -/
def writeAll (O : Out σ) : List (List UInt8) → σ → Res σ
  | [], s => .ok s
  | w :: ws, s => do
    let s ← O.write w s
    writeAll O ws s

/-- `save(os, x)`. (serializer.hpp:93-96 and the functions named at `pieces`) -/
def save (O : Out σ) (t : Ty) (x : Val t) (s : σ) : Res σ := writeAll O (pieces t x) s

/-- `x.save(os)` of a user class that saves its fields in turn (serializer_smpl.cpp:36-43, 60-65). -/
def saveObject (O : Out σ) : Object → σ → Res σ
  | [], s => .ok s
  | ⟨t, x⟩ :: rest, s => do
    let s ← save O t x s
    saveObject O rest s

/-! ## The input streams -/

/-- `MemoryInputStream` (stream.hpp:126-139), also over the memory of a `cybozu::Mmap`. -/
def memIn : In MemIn := ⟨fun buf off size m => m.readSome buf off size⟩

/-- `StringInputStream` (stream.hpp:169-186): the string and the position. -/
def strIn : In (List UInt8 × Nat) :=
  ⟨fun buf off size s => do
    let (buf, n, pos) ← Stream.StrIn.readSome s.1 s.2 buf off size
    return (buf, n, s.1, pos)⟩

/-- `std::istream` (stream.hpp:40-48): what is left of it. -/
def istream : In (List UInt8) :=
  ⟨fun buf off size rest => do
    let n := Stream.IStream.amount rest size
    let buf ← store buf off (rest.take n)
    return (buf, n, rest.drop n)⟩

/-- `VecInputStream::readSome` (serializer_smpl.cpp:74-86, 105-117): `&data[pos]` behind the last element is undefined, also when nothing
is copied. -/
def vecIn : In (List UInt8 × Nat) :=
  ⟨fun buf off size s => do
    let readSize := min size ((s.1.length + 2 ^ 64 - s.2) % 2 ^ 64)
    if s.2 < s.1.length then do
      let buf ← store buf off ((s.1.drop s.2).take readSize)
      return (buf, readSize, s.1, s.2 + readSize)
    else .ub⟩

/-- `cybozu::File` and `cybozu::Socket` (file.hpp:273-290, socket.hpp:471-483), of which `readSome` repeats interrupted calls at most `fuel`
times.  Being interrupted for ever is written as an exception. -/
def device (fuel : Nat) : In PartialIO.Dev :=
  ⟨fun buf off size d =>
    match PartialIO.readSome fuel buf off size d with
    | (.done, n, buf, d) => .ok (buf, n, d)
    | (.ub, _, _, _) => .ub
    | (_, _, _, _) => .throw⟩

/-- `ZlibDecompressorT` (zlib.hpp:260-284). -/
def inflate {I : Zlib.Inflater} (mb : Nat) : In (Zlib.Dec I) :=
  ⟨fun buf off size d => do
    let (out, d) ← d.readSome mb size
    let buf ← store buf off out
    return (buf, out.length, d)⟩

/-! ## The output streams -/

/-- `MemoryOutputStream` (stream.hpp:142-164). -/
def memOut : Out MemOut := ⟨fun b m => m.write b⟩

/-- `StringOutputStream` (stream.hpp:189-204), `VecOutputStream` (serializer_smpl.cpp:92-99), and `std::ostream` (stream.hpp:64-69)
that takes everything. -/
def strOut : Out (List UInt8) := ⟨fun b s => .ok (s ++ b)⟩

/-- `cybozu::File` (file.hpp:251-272).  Being interrupted for ever is written as an exception. -/
def fileOut (fuel : Nat) : Out PartialIO.Dev :=
  ⟨fun b d =>
    match PartialIO.File.write fuel b d with
    | (.done, d) => .ok d
    | (.ub, _) => .ub
    | (_, _) => .throw⟩

/-- `ZlibCompressorT` (zlib.hpp:97-118). -/
def deflate {D : Zlib.Deflater} (mb fuel : Nat) : Out (Zlib.Comp D) := ⟨fun b c => c.write mb fuel b⟩

end Verif.SerStream
