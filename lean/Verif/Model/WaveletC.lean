import Verif.Model.Wavelet
import Verif.Model.CSucVector

/-!
# Model of `include/cybozu/wavelet_matrix.hpp` over the compressed vector

`WaveletMatrixT<false, CSucVector>`, the matrix `FMindexT` uses when compiled with
`CYBOZU_FMINDEX_USE_CSUCVECTOR` (fmindex.hpp:48-53).  The template is the one of Model/Wavelet; the
levels are the modelled `CSucVector`.  Without select the select table stays empty, so it is left out.
-/
namespace Verif.WaveletC
open Verif.BitVector (BV setAt?)
open Verif.SucVector (sub64)
open Verif.CSuc (CV)
open Verif.Wavelet (toSize vresize getPos countZero levelLoop)

/-- The members of `WaveletMatrixT` (wavelet_matrix.hpp:63-72). -/
structure WM where
  maxVal : Nat
  valBitLen : Nat
  size : Nat
  svv : List CV
  offTbl : List Nat
  fromTbl : List Nat
  fromLtTbl : List Nat
  deriving DecidableEq, Repr

/-- The constructor (wavelet_matrix.hpp:101-106). -/
def empty : WM := ⟨1, 0, 0, [], [], [], []⟩

/-- `CSucVector::rank` (csucvector.hpp:595-599). -/
def cvRank (c : CV) (b : Bool) (pos : Nat) : Res Nat := if b then c.rank1 pos else c.rank0 pos

/-- The loop of wavelet_matrix.hpp:186-213 from level `i` with `k = valBitLen - i` levels to go; `old`
is `svv` after line 175.  Returns the levels built. -/
def levels (size : Nat) (offTbl : List Nat) (old : List CV) :
    (k i : Nat) → (cur next : List Nat) → Res (List CV)
  | 0, _, _, _ => .ok []
  | k + 1, i, cur, next => do
    let bv ← Verif.BitVector.resize Verif.BitVector.empty size
    let one ← at? offTbl i
    let s ← levelLoop (decide (k = 0)) k cur 0 ⟨bv, next, 0, one⟩
    let o ← at? old i
    let sv ← Verif.CSuc.init o s.bv.v s.bv.bitLen
    let rest ← levels size offTbl old k (i + 1) s.next cur
    return sv :: rest

/-- `initFromTbl` (wavelet_matrix.hpp:43-51), `k = valBitLen - i`. -/
def initFromTbl (svv : List CV) (offTbl : List Nat) :
    (k i : Nat) → (tbl : List Nat) → (pos from_ : Nat) → Res (List Nat)
  | 0, _, tbl, pos, from_ => setAt? tbl pos (toSize from_)
  | k + 1, i, tbl, pos, from_ => do
    let sv ← at? svv i
    let r0 ← cvRank sv false from_
    let tbl ← initFromTbl svv offTbl k (i + 1) tbl pos r0
    let r1 ← cvRank sv true from_
    let off ← at? offTbl i
    initFromTbl svv offTbl k (i + 1) tbl (pos + 2 ^ k) (r1 + off)

/-- `initFromLtTbl` (wavelet_matrix.hpp:52-61), `k = valBitLen - i`. -/
def initFromLtTbl (svv : List CV) (offTbl : List Nat) :
    (k i : Nat) → (tbl : List Nat) → (pos from_ ret : Nat) → Res (List Nat)
  | 0, _, tbl, pos, _, ret => setAt? tbl pos (toSize ret)
  | k + 1, i, tbl, pos, from_, ret => do
    let sv ← at? svv i
    let end_ ← CV.rank1 sv from_
    let tbl ← initFromLtTbl svv offTbl k (i + 1) tbl pos (sub64 from_ end_) ret
    let off ← at? offTbl i
    initFromLtTbl svv offTbl k (i + 1) tbl (pos + 2 ^ k) (off + end_) (sub64 (ret + from_) end_)

/-- One level of the descents (wavelet_matrix.hpp:237-241, 257-261, 278-282). -/
def down (wm : WM) (i : Nat) (b : Bool) (pos : Nat) : Res Nat := do
  let sv ← at? wm.svv i
  if b then do
    let off ← at? wm.offTbl i
    let r ← CV.rank1 sv pos
    return off + r
  else do
    let r ← CV.rank1 sv pos
    return sub64 pos r

/-- The loop of `rank` (wavelet_matrix.hpp:255-262) with `k = valBitLen - i` levels to go. -/
def rankLoop (wm : WM) (val : Nat) : (k i pos : Nat) → Res Nat
  | 0, _, pos => .ok pos
  | k + 1, i, pos => do
    let pos ← down wm i (getPos val k) pos
    rankLoop wm val k (i + 1) pos

/-- `if (pos > size_) pos = size_`. -/
def clamp (wm : WM) (pos : Nat) : Nat := if pos > wm.size then wm.size else pos

/-- `rank` (wavelet_matrix.hpp:251-264).  The assertion is not modelled: a value outside the tables
reads outside `fromTbl`, which is `ub`. -/
def rank (wm : WM) (val pos : Nat) : Res Nat := do
  let pos ← rankLoop wm val wm.valBitLen 0 (clamp wm pos)
  let f ← at? wm.fromTbl val
  return sub64 pos f

/-- `size(val)` (wavelet_matrix.hpp:162-166). -/
def sizeVal (wm : WM) (val : Nat) : Res Nat := rank wm val wm.size

/-- The loop of wavelet_matrix.hpp:229-244 with `k = valBitLen - i`; with no level left (a matrix of
zero-bit values) `svv[i]` is outside the vector. -/
def getLoop (wm : WM) : (k i ret pos : Nat) → Res Nat
  | 0, _, _, _ => .ub
  | k + 1, i, ret, pos => do
    let sv ← at? wm.svv i
    let b ← CV.get sv pos
    let ret := ret * 2 % 2 ^ 64 ||| (if b then 1 else 0)
    if k = 0 then return ret
    else do
      let pos ← down wm i b pos
      getLoop wm k (i + 1) ret pos

/-- `get(pos)` (wavelet_matrix.hpp:224-245). -/
def get (wm : WM) (pos : Nat) : Res Nat := getLoop wm wm.valBitLen 0 0 pos

/-- The loop of wavelet_matrix.hpp:275-283. -/
def get2Loop (wm : WM) : (k i ret pos : Nat) → Res (Nat × Nat)
  | 0, _, ret, pos => .ok (ret, pos)
  | k + 1, i, ret, pos => do
    let sv ← at? wm.svv i
    let b ← CV.get sv pos
    let ret := ret * 2 % 2 ^ 64 ||| (if b then 1 else 0)
    let pos ← down wm i b pos
    get2Loop wm k (i + 1) ret pos

/-- `get(T *pval, pos)` (wavelet_matrix.hpp:270-286); returns `*pval` and the result.  `T` is taken wide
enough for the value. -/
def get2 (wm : WM) (pos : Nat) : Res (Nat × Nat) := do
  let (ret, pos) ← get2Loop wm wm.valBitLen 0 0 (clamp wm pos)
  let f ← at? wm.fromTbl ret
  return (ret, sub64 pos f)

/-- One level of `rankLt` (wavelet_matrix.hpp:296-303). -/
def downLt (wm : WM) (i : Nat) (b : Bool) (ret pos : Nat) : Res (Nat × Nat) := do
  let sv ← at? wm.svv i
  let end_ ← CV.rank1 sv pos
  if b then do
    let off ← at? wm.offTbl i
    return (ret + sub64 pos end_, off + end_)
  else return (ret, sub64 pos end_)

/-- The loop of `rankLt` (wavelet_matrix.hpp:295-304). -/
def rankLtLoop (wm : WM) (val : Nat) : (k i ret pos : Nat) → Res Nat
  | 0, _, ret, _ => .ok ret
  | k + 1, i, ret, pos => do
    let (ret, pos) ← downLt wm i (getPos val k) ret pos
    rankLtLoop wm val k (i + 1) ret pos

/-- `rankLt` (wavelet_matrix.hpp:290-306). -/
def rankLt (wm : WM) (val pos : Nat) : Res Nat := do
  let ret ← rankLtLoop wm val wm.valBitLen 0 0 (clamp wm pos)
  let f ← at? wm.fromLtTbl val
  return sub64 ret f

/-- `init` (wavelet_matrix.hpp:168-223) on the object `wm`. -/
def init (wm : WM) (vec : List Nat) (valBitLen : Nat) : Res WM :=
  if vec.length > 2 ^ 32 then .throw
  else if valBitLen > 16 then .throw
  else do
    let offTbl := (List.range valBitLen).map fun i => toSize (countZero vec (valBitLen - 1 - i))
    let old := vresize CV.empty wm.svv valBitLen
    let svv ← levels vec.length offTbl old valBitLen 0 vec (List.replicate vec.length 0)
    let fromTbl ← initFromTbl svv offTbl valBitLen 0 (vresize 0 wm.fromTbl (2 ^ valBitLen)) 0 0
    let fromLtTbl ← initFromLtTbl svv offTbl valBitLen 0 (vresize 0 wm.fromLtTbl (2 ^ valBitLen)) 0 0 0
    return ⟨2 ^ valBitLen, valBitLen, vec.length, svv, offTbl, fromTbl, fromLtTbl⟩

end Verif.WaveletC
