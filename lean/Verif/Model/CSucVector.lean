import Verif.Model.BitOp

/-!
# Model of `include/cybozu/csucvector.hpp`

`uint64_t` words are `BitVec 64`, `uint32_t` counters `Nat` reduced modulo 2^32 where the code can
overflow.  Output with `printf` and the statistics `freqTbl` (used by `put` only) are left out, so are
the clocks and `save`/`load`.
-/
namespace Verif.CSuc
open Verif.BitOp

/-- `csucvector_util::getMask` (csucvector.hpp:35-39). -/
def getMask (pos : Nat) : BitVec 64 := ((1 : BitVec 64) <<< pos) - 1

/-- `csucvector_util::all1` (csucvector.hpp:33). -/
def all1 : BitVec 64 := BitVec.allOnes 64

/-- `csucvector_util::Encoding` (csucvector.hpp:41-44). -/
structure Enc where
  v : BitVec 64
  len : Nat
  rk : Nat
deriving DecidableEq, Repr

/-- Constructor of `Encoding` (csucvector.hpp:45-48). -/
def Enc.make (v : BitVec 64) (len : Nat) : Enc where
  v := v
  len := len
  rk := if len ≤ 64 then popcnt64 v else if v = 0 then 0 else len

/-- `Encoding::operator<` (csucvector.hpp:49-54). -/
def Enc.lt (a b : Enc) : Bool :=
  if a.len > b.len then true else if a.len < b.len then false else decide (a.v.toNat > b.v.toNat)

/-- `q < blockSize_ - 1 ? block_[q + 1] : 0` (csucvector.hpp:73). -/
def nextWord (buf : List (BitVec 64)) (blockSize q : Nat) : Res (BitVec 64) :=
  if q < blockSize - 1 then at? buf (q + 1) else .ok 0

/-- `InputStream::peek` (csucvector.hpp:66-75); `cur` is `cur_`, `bitSize` is `bitSize_`, `block_` is
`buf`. -/
def peek (buf : List (BitVec 64)) (bitSize cur offset : Nat) : Res (BitVec 64) :=
  let blockSize := (bitSize + 63) / 64
  let q := (cur + offset) / 64
  let r := (cur + offset) % 64
  if q ≥ blockSize then .ok 0
  else if r = 0 then at? buf q
  else do
    let l ← at? buf q
    let h ← nextWord buf blockSize q
    return ((l >>> r) &&& getMask (64 - r)) ||| (h <<< (64 - r))

/-- `for (size_t j = 1; j < q; j++) if (is.peek(j * 64) != target) ...` (csucvector.hpp:260-265);
`cnt` rounds are left. -/
def runLoop (buf : List (BitVec 64)) (bitSize cur : Nat) (target : BitVec 64) : Nat → Nat → Res Bool
  | 0, _ => .ok true
  | cnt + 1, j => do
    let x ← peek buf bitSize cur (j * 64)
    if x ≠ target then return false
    runLoop buf bitSize cur target cnt (j + 1)

/-- The rest behind the whole words (csucvector.hpp:266-271). -/
def runRest (buf : List (BitVec 64)) (bitSize cur : Nat) (target : BitVec 64) (q r : Nat) : Res Bool :=
  if r > 0 then do
    let x ← peek buf bitSize cur (q * 64)
    return decide (x &&& getMask r = target &&& getMask r)
  else .ok true

/-- The test of one entry (csucvector.hpp:252-276): `found`. -/
def found (buf : List (BitVec 64)) (bitSize cur : Nat) (v : BitVec 64) (e : Enc) : Res Bool :=
  if e.len ≥ 64 then
    let q := e.len / 64
    let r := e.len % 64
    if v = e.v then do
      let b ← runLoop buf bitSize cur e.v (q - 1) 1
      if b then runRest buf bitSize cur e.v q r else return false
    else .ok false
  else .ok (decide (v &&& getMask e.len = e.v))

/-- The loop over the table in `OutputStream::append` (csucvector.hpp:251-284): index and entry of the
first match.  If there is none the code ends the program with `exit(1)` (285-289), modelled as
`throw`. -/
def findEnc (buf : List (BitVec 64)) (bitSize cur : Nat) (v : BitVec 64) : List Enc → Nat → Res (Nat × Enc)
  | [], _ => .throw
  | e :: es, i => do
    let b ← found buf bitSize cur v e
    if b then return (i, e)
    findEnc buf bitSize cur v es (i + 1)

/-- The loop of the constructor of `OutputStream` with `append` and `consume`
(csucvector.hpp:241-245, 248-282, 76-80): the codes `vec` and the count `rk`.  `fuel` bounds the rounds. -/
def outLoop (buf : List (BitVec 64)) (bitSize : Nat) (enc : List Enc) :
    Nat → Nat → List Nat → Nat → Res (List Nat × Nat)
  | 0, _, _, _ => .ub
  | fuel + 1, cur, vec, rk => do
    let v ← peek buf bitSize cur 0
    let (i, e) ← findEnc buf bitSize cur v enc 0
    let rk := (rk + e.rk) % 2 ^ 32
    let vec := vec ++ [i % 256]
    let cur := if cur < bitSize then cur + e.len else cur
    if cur ≥ bitSize then return (vec, rk)
    outLoop buf bitSize enc fuel cur vec rk

/-- `Bigram::tbl[i][j]` after all codes were appended (csucvector.hpp:106-115): how often `j` follows
`i`, modulo 2^32. -/
def pairCount (vec : List Nat) (i j : Nat) : Nat :=
  ((vec.zip vec.tail).countP fun p => p.1 = i ∧ p.2 = j) % 2 ^ 32

/-- `Bigram::getPairMap` and `m.begin()->second` (csucvector.hpp:116-123, 157-159): the first pair in
the order of the loops among those with the highest count (a `multimap` keeps equal keys in insertion
order). -/
def topPair (vec : List Nat) (n : Nat) : Nat × Nat :=
  let pairs := (List.range n).flatMap fun i => (List.range n).map fun j => (i, j)
  pairs.foldl (fun best p => if pairCount vec p.1 p.2 > pairCount vec best.1 best.2 then p else best) (0, 0)

/-- `Bigram::isAll1` (csucvector.hpp:124-131). -/
def isAll1 (x : BitVec 64) (len : Nat) : Bool :=
  if len ≥ 64 then decide (x = all1)
  else decide (x &&& getMask len = all1 &&& getMask len)

/-- `Bigram::concatPair` (csucvector.hpp:132-154); `none` is `false`. -/
def concatPair (a b : Enc) : Option (BitVec 64 × Nat) :=
  if a.v = 0 ∧ b.v = 0 then some (0, (a.len + b.len) % 2 ^ 32)
  else if isAll1 a.v a.len ∧ isAll1 b.v b.len then
    let len := (a.len + b.len) % 2 ^ 32
    some (if len ≥ 64 then all1 else getMask len, len)
  else if (a.len + b.len) % 2 ^ 32 ≤ 64 then some ((b.v <<< a.len) ||| a.v, (a.len + b.len) % 2 ^ 32)
  else none

/-- Insertion into a table sorted by `operator<`. -/
def insertEnc (e : Enc) : List Enc → List Enc
  | [] => [e]
  | x :: xs => if x.lt e then x :: insertEnc e xs else e :: x :: xs

/-- `std::sort(encTbl.begin(), encTbl.end())` (csucvector.hpp:443, 486); entries that compare equal are
equal, so the result is determined. -/
def sortTbl (l : List Enc) : List Enc := l.foldl (fun t e => insertEnc e t) []

/-- The table in `initTable` (csucvector.hpp:294-435, the branch compiled). -/
def rawTbl : List (BitVec 64 × Nat) :=
  [
   (0x0, 16384), (0xffffffffffffffff, 8192), (0x0, 8192), (0xffffffffffffffff, 4096),
   (0x0, 4096), (0xffffffffffffffff, 2048), (0x0, 2048), (0xffffffffffffffff, 1024),
   (0x0, 1024), (0xffffffffffffffff, 512), (0x0, 512), (0x0, 384),
   (0xffffffffffffffff, 256), (0x0, 256), (0x0, 224), (0xffffffffffffffff, 192),
   (0xffffffffffffffff, 128), (0x0, 128), (0x0, 96), (0x0, 85),
   (0xffffffffffffffff, 64), (0x0, 64), (0x1fffffffffffff, 53), (0x0, 53),
   (0x3fffffffffff, 46), (0x0, 46), (0x7fffffffff, 39), (0x4000000, 35),
   (0x2000000, 35), (0x1000000, 35), (0x800000, 35), (0x400000, 35),
   (0x200000, 35), (0xffffffff, 32), (0x0, 32), (0xfffffff, 28),
   (0x8000000, 28), (0x7ffffff, 28), (0x4000000, 28), (0x0, 28),
   (0x1fffff, 21), (0x1fff7f, 21), (0x1dffff, 21), (0x1bffff, 21),
   (0x180000, 21), (0x17ffff, 21), (0x100000, 21), (0xfffff, 21),
   (0x80000, 21), (0x40000, 21), (0x20000, 21), (0x10000, 21),
   (0x8000, 21), (0x4000, 21), (0x81, 21), (0x0, 21),
   (0x3fff, 14), (0x3ffe, 14), (0x3f7f, 14), (0x3eff, 14),
   (0x3dff, 14), (0x3c00, 14), (0x3bff, 14), (0x3800, 14),
   (0x37ff, 14), (0x3000, 14), (0x2fff, 14), (0x2800, 14),
   (0x2400, 14), (0x2200, 14), (0x2100, 14), (0x2080, 14),
   (0x2040, 14), (0x2020, 14), (0x2010, 14), (0x2008, 14),
   (0x2004, 14), (0x2002, 14), (0x2001, 14), (0x2000, 14),
   (0x1fff, 14), (0x1800, 14), (0x1400, 14), (0x1200, 14),
   (0x1100, 14), (0x1080, 14), (0x1020, 14), (0x1010, 14),
   (0x1008, 14), (0x1004, 14), (0x1002, 14), (0x1001, 14),
   (0x1000, 14), (0xfff, 14), (0xc00, 14), (0xa00, 14),
   (0x900, 14), (0x880, 14), (0x808, 14), (0x804, 14),
   (0x802, 14), (0x801, 14), (0x800, 14), (0x7ff, 14),
   (0x600, 14), (0x500, 14), (0x480, 14), (0x401, 14),
   (0x400, 14), (0x300, 14), (0x280, 14), (0x208, 14),
   (0x202, 14), (0x201, 14), (0x200, 14), (0x180, 14),
   (0x102, 14), (0x101, 14), (0x100, 14), (0x80, 14),
   (0x40, 14), (0x20, 14), (0x10, 14), (0x8, 14),
   (0x4, 14), (0x2, 14), (0x1, 14), (0x0, 14)]

/-- The entries pushed by `initTable`, before sorting (csucvector.hpp:436-442). -/
def baseTbl : List Enc :=
  rawTbl.map (fun p => Enc.make p.1 p.2) ++ (List.range 128).map fun i => Enc.make (BitVec.ofNat 64 i) 7

/-- `CSucVector::initTable` (csucvector.hpp:292-447). -/
def initTable : Res (List Enc) :=
  if baseTbl.length > 256 then .throw else .ok (sortTbl baseTbl)

/-- The loop of `init` (csucvector.hpp:472-487): the table grows until it has 256 entries.  The end of
the program by `exit(1)` (478-483) is modelled as `throw`. -/
def growLoop (buf : List (BitVec 64)) (bitSize : Nat) : Nat → List Enc → Res (List Enc × List Nat × Nat)
  | 0, _ => .ub
  | fuel + 1, enc => do
    let (vec, rk) ← outLoop buf bitSize enc (bitSize + 1) 0 [] 0
    if enc.length = 256 then return (enc, vec, rk)
    let p := topPair vec enc.length
    let a ← at? enc p.1
    let b ← at? enc p.2
    match concatPair a b with
    | none => .throw
    | some (v, len) => growLoop buf bitSize fuel (sortTbl (enc ++ [Enc.make v len]))

/-- `CSucVector::Block` (csucvector.hpp:205-210). -/
structure Blk where
  (orgPos vecPos rk : Nat)
deriving DecidableEq, Repr

/-- `while (samplingPos < next) { ... }` (csucvector.hpp:501-504).  `fuel` bounds the rounds; `ub` on
exhaustion. -/
def sampleLoop (b : Blk) (next : Nat) : Nat → Nat → List Blk → Res (Nat × List Blk)
  | 0, _, _ => .ub
  | fuel + 1, samplingPos, blk =>
    if samplingPos < next then sampleLoop b next fuel ((samplingPos + 1024) % 2 ^ 32) (blk ++ [b])
    else .ok (samplingPos, blk)

/-- The loop of `initBlockVec` (csucvector.hpp:497-507) over the codes left, from index `vecPos`. -/
def blockLoop (enc : List Enc) : List Nat → Nat → Nat → Nat → Nat → List Blk → Res (List Blk)
  | [], _, _, _, _, blk => .ok blk
  | v :: vs, vecPos, orgPos, rk, samplingPos, blk => do
    let e ← at? enc v
    let next := (orgPos + e.len) % 2 ^ 32
    let (samplingPos, blk) ← sampleLoop ⟨orgPos, vecPos % 2 ^ 32, rk⟩ next (next + 1) samplingPos blk
    blockLoop enc vs (vecPos + 1) next ((rk + e.rk) % 2 ^ 32) samplingPos blk

/-- The members of `CSucVector` (csucvector.hpp:216-220). -/
structure CV where
  enc : List Enc
  bitSize : Nat
  vec : List Nat
  blk : List Blk
  rk : Nat
deriving DecidableEq, Repr

/-- The object after `clear` in the constructors (csucvector.hpp:449, 459, 462-466). -/
def CV.empty : CV := ⟨[], 0, [], [], 0⟩

/-- `CSucVector::init` with the base table given (csucvector.hpp:472-489); `old` is the block vector
before the call, which `initBlockVec` (491-508) extends. -/
def buildWith (enc : List Enc) (old : List Blk) (buf : List (BitVec 64)) (bitSize : Nat) : Res CV := do
  let (enc, vec, rk) ← growLoop buf bitSize 257 enc
  let blk ← blockLoop enc vec 0 0 0 0 old
  return ⟨enc, bitSize, vec, blk, rk⟩

/-- `CSucVector::init` (csucvector.hpp:467-490). -/
def init (c : CV) (buf : List (BitVec 64)) (bitSize : Nat) : Res CV :=
  if bitSize ≥ 2 ^ 32 then .throw
  else do
    let enc ← initTable
    buildWith enc c.blk buf bitSize

/-- The search of the code of a position (csucvector.hpp:548-553 and, with the count, 571-577): entry,
position inside it, count.  `len > pos` ends it; reading behind `vec` is `ub`. -/
def seek (enc : List Enc) : List Nat → Nat → Nat → Res (Enc × Nat × Nat)
  | [], _, _ => .ub
  | v :: vs, pos, rk => do
    let e ← at? enc v
    if e.len > pos then return (e, pos, rk)
    seek enc vs (pos - e.len) (rk + e.rk)

/-- `CSucVector::get` (csucvector.hpp:538-559).  `pos -= cur` is not negative for tables made by
`init`; a negative one would be a wrap, here `ub`. -/
def CV.get (c : CV) (pos : Nat) : Res Bool :=
  if pos ≥ c.bitSize then .throw
  else do
    let b ← at? c.blk (pos / 1024)
    if pos < b.orgPos then Res.ub
    let (e, p, _) ← seek c.enc (c.vec.drop b.vecPos) (pos - b.orgPos) 0
    return if p ≥ 64 then decide (e.v ≠ 0) else decide (e.v &&& ((1 : BitVec 64) <<< p) ≠ 0)

/-- `CSucVector::rank1` (csucvector.hpp:560-590). -/
def CV.rank1 (c : CV) (pos : Nat) : Res Nat :=
  if pos ≥ c.bitSize then .ok c.rk
  else do
    let b ← at? c.blk (pos / 1024)
    if pos < b.orgPos then Res.ub
    let (e, p, rk) ← seek c.enc (c.vec.drop b.vecPos) (pos - b.orgPos) b.rk
    return rk + (if p ≥ 64 then (if e.v ≠ 0 then p else 0) else popcnt64 (e.v &&& getMask p))

/-- `CSucVector::rank0` (csucvector.hpp:591-594). -/
def CV.rank0 (c : CV) (pos : Nat) : Res Nat := do
  let r ← c.rank1 pos
  return (pos + 2 ^ 64 - r) % 2 ^ 64

end Verif.CSuc
