import Verif.Model.BitVector
import Verif.Model.SucVector

/-!
# Model of `include/cybozu/wavelet_matrix.hpp`

`WaveletMatrixT<withSelect, SucVectorT<uint32_t, false>>`, the default instantiation, without
`CYBOZU_WAVELET_MATRIX_DIRECT_CONSTRUCT`.  The levels are the modelled `SucVectorT` (`big = false`,
`sel = false`) built from the modelled `BitVector`.  Values and positions are `Nat`; subtractions and
narrowing casts are reduced as in the code.  `save`/`load` (lines 120-160) are in Model/IndexIO.
-/
namespace Verif.Wavelet
open Verif.BitVector (BV setAt?)
open Verif.SucVector (SV sub64 getBlockNum NotFound)

/-- The members of `WaveletMatrixT` (wavelet_matrix.hpp:63-72). -/
structure WM where
  maxVal : Nat
  valBitLen : Nat
  size : Nat
  svv : List SV
  offTbl : List Nat
  fromTbl : List Nat
  fromLtTbl : List Nat
  selTbl : List (List Nat)
  deriving DecidableEq, Repr

/-- The constructor (wavelet_matrix.hpp:101-106). -/
def empty : WM := ⟨1, 0, 0, [], [], [], [], []⟩

/-- Cast to `size_type` = `uint32_t` (wavelet_matrix.hpp:28). -/
def toSize (x : Nat) : Nat := x % 2 ^ 32

/-- `std::vector::resize(n)`: truncates or appends value-initialised elements `d`. -/
def vresize {α : Type} (d : α) (v : List α) (n : Nat) : List α :=
  v.take n ++ List.replicate (n - v.length) d

/-- `getPos` (wavelet_matrix.hpp:29-32). -/
def getPos (v pos : Nat) : Bool := v.testBit pos

/-- `countZero` (wavelet_matrix.hpp:34-42). -/
def countZero : List Nat → Nat → Nat
  | [], _ => 0
  | x :: xs, bitPos => (if getPos x bitPos then 0 else 1) + countZero xs bitPos

/-- `if (b) sv.set(j)` (wavelet_matrix.hpp:197-199). -/
def setIf (bv : BV 64) (j : Nat) (b : Bool) : Res (BV 64) :=
  if b then Verif.BitVector.set1 bv j else .ok bv

/-- State of the inner loop of `init`: the bit vector, `next`, `zeroPos`, `onePos`. -/
structure LoopSt where
  bv : BV 64
  next : List Nat
  zeroPos : Nat
  onePos : Nat

/-- Lines 200-205: the stable partition step, skipped on the last level. -/
def place (last : Bool) (x : Nat) (b : Bool) (s : LoopSt) : Res LoopSt :=
  if last then .ok s
  else if b then do
    let next ← setAt? s.next s.onePos x
    return ⟨s.bv, next, s.zeroPos, s.onePos + 1⟩
  else do
    let next ← setAt? s.next s.zeroPos x
    return ⟨s.bv, next, s.zeroPos + 1, s.onePos⟩

/-- The loop of wavelet_matrix.hpp:195-206.  The list is `cur[j..]`. -/
def levelLoop (last : Bool) (bitPos : Nat) : List Nat → Nat → LoopSt → Res LoopSt
  | [], _, s => .ok s
  | x :: xs, j, s => do
    let b := getPos x bitPos
    let bv ← setIf s.bv j b
    let s ← place last x b ⟨bv, s.next, s.zeroPos, s.onePos⟩
    levelLoop last bitPos xs (j + 1) s

/-- The loop of wavelet_matrix.hpp:186-213 from level `i` with `k = valBitLen - i` levels to go; `old`
is `svv` after line 175.  Returns the levels built. -/
def levels (size : Nat) (offTbl : List Nat) (old : List SV) :
    (k i : Nat) → (cur next : List Nat) → Res (List SV)
  | 0, _, _, _ => .ok []
  | k + 1, i, cur, next => do
    let bv ← Verif.BitVector.resize Verif.BitVector.empty size
    let one ← at? offTbl i
    let s ← levelLoop (decide (k = 0)) k cur 0 ⟨bv, next, 0, one⟩
    let o ← at? old i
    let sv ← Verif.SucVector.init false false o s.bv.v s.bv.bitLen
    let rest ← levels size offTbl old k (i + 1) s.next cur
    return sv :: rest

/-- `initFromTbl` (wavelet_matrix.hpp:43-51), `k = valBitLen - i`. -/
def initFromTbl (svv : List SV) (offTbl : List Nat) :
    (k i : Nat) → (tbl : List Nat) → (pos from_ : Nat) → Res (List Nat)
  | 0, _, tbl, pos, from_ => setAt? tbl pos (toSize from_)
  | k + 1, i, tbl, pos, from_ => do
    let sv ← at? svv i
    let r0 ← Verif.SucVector.rank false sv false from_
    let tbl ← initFromTbl svv offTbl k (i + 1) tbl pos r0
    let r1 ← Verif.SucVector.rank false sv true from_
    let off ← at? offTbl i
    initFromTbl svv offTbl k (i + 1) tbl (pos + 2 ^ k) (r1 + off)

/-- `initFromLtTbl` (wavelet_matrix.hpp:52-61), `k = valBitLen - i`. -/
def initFromLtTbl (svv : List SV) (offTbl : List Nat) :
    (k i : Nat) → (tbl : List Nat) → (pos from_ ret : Nat) → Res (List Nat)
  | 0, _, tbl, pos, _, ret => setAt? tbl pos (toSize ret)
  | k + 1, i, tbl, pos, from_, ret => do
    let sv ← at? svv i
    let end_ ← Verif.SucVector.rank1 false sv from_
    let tbl ← initFromLtTbl svv offTbl k (i + 1) tbl pos (sub64 from_ end_) ret
    let off ← at? offTbl i
    initFromLtTbl svv offTbl k (i + 1) tbl (pos + 2 ^ k) (off + end_) (sub64 (ret + from_) end_)

/-- One level of the descents (wavelet_matrix.hpp:237-241, 257-261, 278-282). -/
def down (wm : WM) (i : Nat) (b : Bool) (pos : Nat) : Res Nat := do
  let sv ← at? wm.svv i
  if b then do
    let off ← at? wm.offTbl i
    let r ← Verif.SucVector.rank1 false sv pos
    return off + r
  else do
    let r ← Verif.SucVector.rank1 false sv pos
    return sub64 pos r

/-- The loop of `rank` (wavelet_matrix.hpp:255-262) with `k = valBitLen - i` levels to go. -/
def rankLoop (wm : WM) (val : Nat) : (k i pos : Nat) → Res Nat
  | 0, _, pos => .ok pos
  | k + 1, i, pos => do
    let pos ← down wm i (getPos val k) pos
    rankLoop wm val k (i + 1) pos

/-- `if (pos > size_) pos = size_`. -/
def clamp (wm : WM) (pos : Nat) : Nat := if pos > wm.size then wm.size else pos

/-- `rank` (wavelet_matrix.hpp:251-264).  The assertion is not modelled: a value outside the tables
reads outside `fromTbl`, which is `ub`. -/
def rank (wm : WM) (val pos : Nat) : Res Nat := do
  let pos ← rankLoop wm val wm.valBitLen 0 (clamp wm pos)
  let f ← at? wm.fromTbl val
  return sub64 pos f

/-- `size(val)` (wavelet_matrix.hpp:162-166). -/
def sizeVal (wm : WM) (val : Nat) : Res Nat := rank wm val wm.size

/-- The loop of wavelet_matrix.hpp:229-244 with `k = valBitLen - i`; with no level left (a matrix of
zero-bit values) `svv[i]` is outside the vector. -/
def getLoop (wm : WM) : (k i ret pos : Nat) → Res Nat
  | 0, _, _, _ => .ub
  | k + 1, i, ret, pos => do
    let sv ← at? wm.svv i
    let b ← Verif.SucVector.get sv pos
    let ret := ret * 2 % 2 ^ 64 ||| (if b then 1 else 0)
    if k = 0 then return ret
    else do
      let pos ← down wm i b pos
      getLoop wm k (i + 1) ret pos

/-- `get(pos)` (wavelet_matrix.hpp:224-245). -/
def get (wm : WM) (pos : Nat) : Res Nat := getLoop wm wm.valBitLen 0 0 pos

/-- The loop of wavelet_matrix.hpp:275-283. -/
def get2Loop (wm : WM) : (k i ret pos : Nat) → Res (Nat × Nat)
  | 0, _, ret, pos => .ok (ret, pos)
  | k + 1, i, ret, pos => do
    let sv ← at? wm.svv i
    let b ← Verif.SucVector.get sv pos
    let ret := ret * 2 % 2 ^ 64 ||| (if b then 1 else 0)
    let pos ← down wm i b pos
    get2Loop wm k (i + 1) ret pos

/-- `get(T *pval, pos)` (wavelet_matrix.hpp:270-286); returns `*pval` and the result.  `T` is taken wide
enough for the value. -/
def get2 (wm : WM) (pos : Nat) : Res (Nat × Nat) := do
  let (ret, pos) ← get2Loop wm wm.valBitLen 0 0 (clamp wm pos)
  let f ← at? wm.fromTbl ret
  return (ret, sub64 pos f)

/-- One level of `rankLt` (wavelet_matrix.hpp:296-303). -/
def downLt (wm : WM) (i : Nat) (b : Bool) (ret pos : Nat) : Res (Nat × Nat) := do
  let sv ← at? wm.svv i
  let end_ ← Verif.SucVector.rank1 false sv pos
  if b then do
    let off ← at? wm.offTbl i
    return (ret + sub64 pos end_, off + end_)
  else return (ret, sub64 pos end_)

/-- The loop of `rankLt` (wavelet_matrix.hpp:295-304). -/
def rankLtLoop (wm : WM) (val : Nat) : (k i ret pos : Nat) → Res Nat
  | 0, _, ret, _ => .ok ret
  | k + 1, i, ret, pos => do
    let (ret, pos) ← downLt wm i (getPos val k) ret pos
    rankLtLoop wm val k (i + 1) ret pos

/-- `rankLt` (wavelet_matrix.hpp:290-306). -/
def rankLt (wm : WM) (val pos : Nat) : Res Nat := do
  let ret ← rankLtLoop wm val wm.valBitLen 0 0 (clamp wm pos)
  let f ← at? wm.fromLtTbl val
  return sub64 ret f

/-- The first loop of `initSelTbl` (wavelet_matrix.hpp:83-87): the tables of the values `v`, `v+1`, ...
resized. -/
def selSizes (wm : WM) (old : List (List Nat)) : (cnt v : Nat) → Res (List (List Nat))
  | 0, _ => .ok []
  | cnt + 1, v => do
    let n ← sizeVal wm v
    let t ← at? old v
    let rest ← selSizes wm old cnt (v + 1)
    return vresize 0 t (getBlockNum n 256) :: rest

/-- Tables of `initSelTbl`. -/
structure SelSt where
  tbl : List (List Nat)
  iTbl : List Nat
  numTbl : List Nat

/-- Lines 93-96. -/
def selPut (s : SelSt) (v i pos : Nat) : Res SelSt := do
  let t ← at? s.tbl v
  if i < t.length then do
    let t ← setAt? t i (toSize (pos + 1))
    let tbl ← setAt? s.tbl v t
    let iTbl ← setAt? s.iTbl v (toSize (i + 1))
    return ⟨tbl, iTbl, s.numTbl⟩
  else return s

/-- Lines 89-97. -/
def selStep (s : SelSt) (v pos : Nat) : Res SelSt := do
  let i ← at? s.iTbl v
  let c ← at? s.numTbl v
  let c := toSize (c + 1)
  let numTbl ← setAt? s.numTbl v c
  if i * 256 ≤ c then selPut ⟨s.tbl, s.iTbl, numTbl⟩ v i pos
  else return ⟨s.tbl, s.iTbl, numTbl⟩

/-- The loop of wavelet_matrix.hpp:88-98; the list is `vec[pos..n]`. -/
def selLoop : List Nat → Nat → SelSt → Res SelSt
  | [], _, s => .ok s
  | v :: vs, pos, s => do
    let s ← selStep s v pos
    selLoop vs (pos + 1) s

/-- `initSelTbl` (wavelet_matrix.hpp:76-99), for `withSelect`; `n` is `(uint32_t)vec.size()`. -/
def initSelTbl (wm : WM) (vec : List Nat) : Res (List (List Nat)) := do
  let old := vresize [] wm.selTbl wm.maxVal
  let tbl ← selSizes wm old wm.maxVal 0
  let s ← selLoop (vec.take (toSize vec.length)) 0
    ⟨tbl, List.replicate wm.maxVal 1, List.replicate wm.maxVal 0⟩
  return s.tbl

/-- Line 222 with the test of line 78. -/
def initSel (withSelect : Bool) (wm : WM) (vec : List Nat) : Res WM :=
  if withSelect then do
    let t ← initSelTbl wm vec
    return { wm with selTbl := t }
  else .ok wm

/-- `init` (wavelet_matrix.hpp:168-223) on the object `wm`. -/
def init (withSelect : Bool) (wm : WM) (vec : List Nat) (valBitLen : Nat) : Res WM :=
  if vec.length > 2 ^ 32 then .throw
  else if valBitLen > 16 then .throw
  else do
    let offTbl := (List.range valBitLen).map fun i => toSize (countZero vec (valBitLen - 1 - i))
    let old := vresize Verif.SucVector.empty wm.svv valBitLen
    let svv ← levels vec.length offTbl old valBitLen 0 vec (List.replicate vec.length 0)
    let fromTbl ← initFromTbl svv offTbl valBitLen 0 (vresize 0 wm.fromTbl (2 ^ valBitLen)) 0 0
    let fromLtTbl ← initFromLtTbl svv offTbl valBitLen 0 (vresize 0 wm.fromLtTbl (2 ^ valBitLen)) 0 0 0
    initSel withSelect
      ⟨2 ^ valBitLen, valBitLen, vec.length, svv, offTbl, fromTbl, fromLtTbl, wm.selTbl⟩ vec

/-- The binary search of wavelet_matrix.hpp:320-327. -/
def selBin (wm : WM) (val r : Nat) (L R : Nat) : Res Nat :=
  if _h : L < R then do
    let M := (L + R) / 2
    let c ← rank wm val M
    if c < r then selBin wm val r (M + 1) R else selBin wm val r L M
  else .ok L
termination_by R - L

/-- The final scan of wavelet_matrix.hpp:329-335. -/
def selScan (wm : WM) (val r : Nat) (L : Nat) : Res Nat := do
  let c ← rank wm val L
  if c = r then return sub64 L 1
  else if _h : wm.size < L + 1 then return NotFound
  else selScan wm val r (L + 1)
termination_by wm.size - L

/-- `R` (wavelet_matrix.hpp:317). -/
def selEnd (wm : WM) (tbl : List Nat) (pos : Nat) : Res Nat :=
  if pos ≥ sub64 tbl.length 1 then .ok wm.size else at? tbl (pos + 1)

/-- `select` (wavelet_matrix.hpp:307-336).  The assertion is not modelled: a value outside the tables
reads outside `selTbl_`, which is `ub`. -/
def select (withSelect : Bool) (wm : WM) (val r : Nat) : Res Nat :=
  if !withSelect then .throw
  else do
    let tbl ← at? wm.selTbl val
    if r / 256 ≥ tbl.length then return NotFound
    else do
      let pos := r / 256
      let L ← at? tbl pos
      let R ← selEnd wm tbl pos
      let r := (r + 1) % 2 ^ 64
      let L ← selBin wm val r L R
      selScan wm val r (L - 1)

end Verif.Wavelet
