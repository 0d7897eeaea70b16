import Verif.Model.BitOp
import Verif.Model.Select8

/-!
# Model of `include/cybozu/sucvector.hpp`

`big` is `support1TiB` (`SucVector`, sucvector.hpp:372); `big = false` is `SucVectorLt4G` (line 371).
`sel` is `withSelect`.  `uint64_t` and `size_t` values are `Nat`; every subtraction and every sum that
could leave 64 bits is reduced modulo 2^64.
-/
namespace Verif.SucVector
open Verif.BitOp

/-- `a - b` on `uint64_t`. -/
def sub64 (a b : Nat) : Nat := (a + 2 ^ 64 - b) % 2 ^ 64

/-- `rank64` (sucvector.hpp:30-33). -/
def rank64 (v : BitVec 64) (i : Nat) : Res Nat := do
  let m ← makeBitMask64 i
  return popcnt64 (v &&& m)

/-- `getBlockNum<uint64_t>` (sucvector.hpp:35-39). -/
def getBlockNum (x block : Nat) : Nat := ((x + block - 1) % 2 ^ 64) / block

/-- State of the halving in `select64`: remaining rank, position, remaining word. -/
structure Half where
  r : Nat
  pos : Nat
  v : BitVec 64

/-- One halving step of `select64` (sucvector.hpp:46-51, 52-57, 58-63 for `n` = 32, 16, 8). -/
def halve (n : Nat) (s : Half) : Half :=
  let c := popcnt32 ((s.v.truncate n).zeroExtend 32)
  if s.r > c then ⟨s.r - c, s.pos + n, s.v >>> n⟩ else s

/-- `select64` (sucvector.hpp:41-68).  The assertions are not modelled: without them (`NDEBUG`) the
table access is out of range, which is `ub`. -/
def select64 (v : BitVec 64) (r : Nat) : Res Nat :=
  if r > popcnt64 v then .ok 64
  else
    let s := halve 8 (halve 16 (halve 32 ⟨r, 0, v⟩))
    if s.r = 8 ∧ s.v.truncate 8 = 0xff#8 then .ok (s.pos + 7)
    else do
      let c ← select8 (s.v.truncate 8).toNat s.r
      return s.pos + c

/-- `Block` (sucvector.hpp:82-95).  The union is kept as its parts `a`, `b[0]`..`b[3]`; the 64-bit view
`a64` is the little-endian combination. -/
structure Block where
  org : List (BitVec 64)
  a : Nat
  b0 : Nat
  b1 : Nat
  b2 : Nat
  b3 : Nat
  deriving DecidableEq, Repr

/-- `Block::clear` (sucvector.hpp:91-94), also the value-initialised block of `vector::resize`. -/
def Block.zero : Block := ⟨[0, 0, 0, 0], 0, 0, 0, 0, 0⟩

/-- Read of `a64` through the union (sucvector.hpp:85), little endian. -/
def Block.a64 (x : Block) : Nat :=
  x.a + 2 ^ 32 * x.b0 + 2 ^ 40 * x.b1 + 2 ^ 48 * x.b2 + 2 ^ 56 * x.b3

/-- Write of `a64` through the union (sucvector.hpp:85), little endian. -/
def Block.setA64 (x : Block) (v : Nat) : Block :=
  { x with a := v % 2 ^ 32, b0 := v / 2 ^ 32 % 256, b1 := v / 2 ^ 40 % 256, b2 := v / 2 ^ 48 % 256,
           b3 := v / 2 ^ 56 % 256 }

/-- `ab.b[i]` (sucvector.hpp:88). -/
def Block.getB (x : Block) (i : Nat) : Res Nat := at? [x.b0, x.b1, x.b2, x.b3] i

/-- `SucVectorT` (sucvector.hpp:96-102). -/
structure SV where
  bitSize : Nat
  num0 : Nat
  num1 : Nat
  freezed : Bool
  blk : List Block
  sel0 : List Nat
  sel1 : List Nat
  deriving DecidableEq, Repr

/-- The default constructor (sucvector.hpp:219). -/
def empty : SV := ⟨0, 0, 0, false, [], [], []⟩

/-- The counter at the head of a block as `rank1` reads it (sucvector.hpp:279-283) and as `rank_a` does
(109-113): `a64 % maxBitSize` and `a64 & makeBitMask64(maxBitLen)` are the same number. -/
def headCount (big : Bool) (x : Block) : Nat := if big then x.a64 % 2 ^ 40 else x.a

/-- `rank_a<b>` (sucvector.hpp:104-116). -/
def rankA (big : Bool) (b : Bool) (blk : List Block) (i : Nat) : Res Nat := do
  let x ← at? blk i
  let ret := headCount big x
  if b then return ret else return sub64 (i * 256) ret

/-- `get_b<b>` (sucvector.hpp:117-125). -/
def getB (b : Bool) (blk : List Block) (L i : Nat) : Res Nat := do
  let x ← at? blk L
  let r ← x.getB i
  if b then return r else return sub64 (64 * i) r

/-- The `while` loop of `initSelTblSub` (sucvector.hpp:143-146).  `pos` is a `uint32_t`: at 2^32 blocks
it wraps to 0 and, `rank_a` being smaller than `r` everywhere, the loop never ends; that is `ub` here. -/
def selAdvance (big b : Bool) (blk : List Block) (r : Nat) (pos : Nat) : Res Nat :=
  if pos < blk.length then
    match rankA big b blk pos with
    | .ok ra =>
      if ra < r then
        if pos + 1 = 2 ^ 32 then .ub
        else if pos + 1 = blk.length then .ok (pos + 1)
        else selAdvance big b blk r (pos + 1)
      else .ok pos
    | .throw => .throw
    | .ub => .ub
  else .ub
termination_by blk.length - pos

/-- The `for` loop of `initSelTblSub` (sucvector.hpp:141-148): `n` entries still to compute. -/
def selTblLoop (big b : Bool) (blk : List Block) : (n i pos : Nat) → Res (List Nat)
  | 0, _, _ => .ok []
  | n + 1, i, pos => do
    let pos ← selAdvance big b blk (i * 1024) pos
    let rest ← selTblLoop big b blk n (i + 1) pos
    return pos :: rest

/-- `initSelTblSub<b>` (sucvector.hpp:133-149).  The assertion at 137 is not modelled. -/
def initSelTblSub (big b : Bool) (blk : List Block) (num : Nat) : Res (List Nat) :=
  selTblLoop big b blk (getBlockNum num 1024) 0 0

/-- The word for `org[j]` (sucvector.hpp:164-170): from `buf` if there is one, else the stored word;
with the next `pos`. -/
def nextWord (buf : Option (List (BitVec 64))) (blkNum pos : Nat) (x : Block) (j : Nat) :
    Res (BitVec 64 × Nat) :=
  match buf with
  | some l => if pos < blkNum then do
      let v ← at? l pos
      return (v, pos + 1)
    else .ok (0, pos)
  | none => do
    let v ← at? x.org j
    return (v, pos)

/-- The four words of a block (the `j` loop, sucvector.hpp:163-177). -/
def nextWords (buf : Option (List (BitVec 64))) (blkNum pos : Nat) (x : Block) :
    Res ((BitVec 64 × BitVec 64 × BitVec 64 × BitVec 64) × Nat) := do
  let (v0, pos) ← nextWord buf blkNum pos x 0
  let (v1, pos) ← nextWord buf blkNum pos x 1
  let (v2, pos) ← nextWord buf blkNum pos x 2
  let (v3, pos) ← nextWord buf blkNum pos x 3
  return ((v0, v1, v2, v3), pos)

/-- Writing the head counter (sucvector.hpp:156-161). -/
def setHead (big : Bool) (x : Block) (num1 : Nat) : Res Block :=
  if big then .ok (x.setA64 (num1 % 2 ^ 40))
  else if num1 > 0xffffffff then .throw
  else .ok { x with a := num1 }

/-- The block loop of `initBlock` (sucvector.hpp:154-178); returns the blocks and the number of ones. -/
def initBlocks (big : Bool) (buf : Option (List (BitVec 64))) (blkNum : Nat) :
    List Block → (pos num1 : Nat) → Res (List Block × Nat)
  | [], _, num1 => .ok ([], num1)
  | x :: xs, pos, num1 => do
    let x ← setHead big x num1
    let ((v0, v1, v2, v3), pos) ← nextWords buf blkNum pos x
    let c0 := popcnt64 v0
    let c1 := popcnt64 v1
    let c2 := popcnt64 v2
    let c3 := popcnt64 v3
    let y := { x with org := [v0, v1, v2, v3], b1 := c0 % 256, b2 := (c0 + c1) % 256,
                      b3 := (c0 + c1 + c2) % 256 }
    let (ys, n) ← initBlocks big buf blkNum xs pos (num1 + c0 + c1 + c2 + c3)
    return (y :: ys, n)

/-- `initSelTbl` (sucvector.hpp:127-132). -/
def initSelTbl (big sel : Bool) (s : SV) : Res SV :=
  if sel then do
    let t0 ← initSelTblSub big false s.blk s.num0
    let t1 ← initSelTblSub big true s.blk s.num1
    return { s with sel0 := t0, sel1 := t1 }
  else .ok s

/-- `initBlock` (sucvector.hpp:150-183). -/
def initBlock (big sel : Bool) (s : SV) (buf : Option (List (BitVec 64))) (blkNum : Nat) : Res SV := do
  let (blk, num1) ← initBlocks big buf blkNum s.blk 0 0
  let s ← initSelTbl big sel { s with blk := blk, num0 := sub64 (blkNum * 64) num1, num1 := num1 }
  return { s with freezed := true }

/-- `std::vector<Block>::resize` as used at sucvector.hpp:247. -/
def vresize (l : List Block) (n : Nat) : List Block := l.take n ++ List.replicate (n - l.length) Block.zero

/-- `maxBitSize` (sucvector.hpp:80-81). -/
def maxBitSize (big : Bool) : Nat := if big then 2 ^ 40 else 2 ^ 32

/-- `resize` (sucvector.hpp:240-255); returns the new object and the number of words. -/
def resize (big : Bool) (s : SV) (bitSize : Nat) (doClear : Bool) : Res (SV × Nat) :=
  if bitSize > maxBitSize big then .throw
  else
    let blkNum := (bitSize + 63) / 64
    let tblNum := (blkNum + 3) / 4
    let blk := if doClear then List.replicate tblNum Block.zero else vresize s.blk tblNum
    .ok ({ s with bitSize := bitSize, blk := blk, freezed := false }, blkNum)

/-- `init` (sucvector.hpp:229-233). -/
def init (big sel : Bool) (s : SV) (buf : List (BitVec 64)) (bitSize : Nat) : Res SV := do
  let (s, blkNum) ← resize big s bitSize false
  initBlock big sel s (some buf) blkNum

/-- `set` (sucvector.hpp:256-265). -/
def set (s : SV) (idx : Nat) : Res SV :=
  if s.freezed then .throw
  else if idx ≥ s.bitSize then .throw
  else do
    let q := idx / 256
    let r := idx % 256
    let x ← at? s.blk q
    let v ← at? x.org (r / 64)
    let org := x.org.set (r / 64) (v ||| ((1 : BitVec 64) <<< (r % 64)))
    return { s with blk := s.blk.set q { x with org := org } }

/-- `ready` (sucvector.hpp:266-269). -/
def ready (big sel : Bool) (s : SV) : Res SV := initBlock big sel s none (s.blk.length * 4)

/-- The sub-counter read in `rank1` (sucvector.hpp:284-287). -/
def subCount (x : Block) (r : Nat) : Res Nat := if r > 0 then x.getB r else .ok 0

/-- `rank1` (sucvector.hpp:270-290). -/
def rank1 (big : Bool) (s : SV) (pos : Nat) : Res Nat :=
  if pos ≥ s.bitSize then .ok s.num1
  else do
    let q := pos / 256
    let r := (pos / 64) &&& 3
    let x ← at? s.blk q
    let c ← subCount x r
    let v ← at? x.org r
    let m ← makeBitMask64 (pos &&& 63)
    return headCount big x + c + popcnt64 (v &&& m)

/-- `rank0` (sucvector.hpp:293-296). -/
def rank0 (big : Bool) (s : SV) (pos : Nat) : Res Nat := do
  let r ← rank1 big s pos
  return sub64 pos r

/-- `rank` (sucvector.hpp:297-301). -/
def rank (big : Bool) (s : SV) (b : Bool) (pos : Nat) : Res Nat :=
  if b then rank1 big s pos else rank0 big s pos

/-- `size(bool)` (sucvector.hpp:292). -/
def numOf (s : SV) (b : Bool) : Nat := if b then s.num1 else s.num0

/-- `get` (sucvector.hpp:302-310). -/
def get (s : SV) (pos : Nat) : Res Bool :=
  if pos ≥ s.bitSize then .throw
  else do
    let q := pos / 256
    let r := (pos / 64) &&& 3
    let x ← at? s.blk q
    let v ← at? x.org r
    return (v &&& ((1 : BitVec 64) <<< (pos &&& 63))) ≠ 0

/-- `NotFound` (sucvector.hpp:26). -/
def NotFound : Nat := 2 ^ 64 - 1

/-- The binary search of `selectSub` (sucvector.hpp:339-346). -/
def bsearch (big b : Bool) (blk : List Block) (rank L R : Nat) : Res Nat :=
  if L < R then
    let M := (L + R) / 2
    match rankA big b blk M with
    | .ok ra => if ra < rank then bsearch big b blk rank (M + 1) R else bsearch big b blk rank L M
    | .throw => .throw
    | .ub => .ub
  else .ok L
termination_by R - L

/-- The word search of `selectSub` (sucvector.hpp:350-357), starting at word `i`. -/
def wordSearch (b : Bool) (blk : List Block) (L rank : Nat) (i : Nat) : Res Nat :=
  if i < 3 then
    match getB b blk L (i + 1) with
    | .ok r => if r ≥ rank then .ok i else wordSearch b blk L rank (i + 1)
    | .throw => .throw
    | .ub => .ub
  else .ok i
termination_by 3 - i

/-- Subtracting the sub-counter (sucvector.hpp:358-361). -/
def subRank (b : Bool) (blk : List Block) (L i rank : Nat) : Res Nat :=
  if i > 0 then do
    let r ← getB b blk L i
    return sub64 rank r
  else .ok rank

/-- The right end of the search range (sucvector.hpp:337). -/
def rightEnd (tbl : List Nat) (pos n : Nat) : Res Nat :=
  if pos ≥ sub64 tbl.length 1 then .ok n else at? tbl (pos + 1)

/-- `selectSub<b>` (sucvector.hpp:327-368). -/
def selectSub (big sel : Bool) (s : SV) (b : Bool) (rank : Nat) : Res Nat :=
  if sel = false then .throw
  else if rank ≥ numOf s b then .ok NotFound
  else do
    let tbl := if b then s.sel1 else s.sel0
    let pos := rank / 1024
    let L ← at? tbl pos
    let R ← rightEnd tbl pos s.blk.length
    let rank := rank + 1
    let L ← bsearch big b s.blk rank L R
    let L := if L > 0 then L - 1 else L
    let ra ← rankA big b s.blk L
    let rank := sub64 rank ra
    let i ← wordSearch b s.blk L rank 0
    let rank ← subRank b s.blk L i rank
    let x ← at? s.blk L
    let v ← at? x.org i
    let v := if b then v else ~~~v
    let ret ← select64 v rank
    return ret + (L * 256 + i * 64)

/-- `load` (sucvector.hpp:206-218) of the fields `save` (194-204) wrote for `src`, as field copies (the
byte format is the serializer's).  `freezed_` is not written; without select tables they stay as they
are. -/
def load (sel : Bool) (s src : SV) : SV :=
  { src with freezed := s.freezed, sel0 := if sel then src.sel0 else s.sel0,
             sel1 := if sel then src.sel1 else s.sel1 }

end Verif.SucVector
