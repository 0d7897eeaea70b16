import Verif.Model.Wavelet

/-!
# Model of `WaveletMatrixT::init` with `CYBOZU_WAVELET_MATRIX_DIRECT_CONSTRUCT`

With the macro defined (wavelet_matrix.hpp:187-188 and 207-208) a level is not built in a `BitVector` and
copied: `resize`, `set` and `ready` are called on the `SucVectorT` in `svv` itself.  Everything outside the
level loop is that of Model/Wavelet.
-/
namespace Verif.Wavelet
open Verif.BitVector (setAt?)
open Verif.SucVector (SV)

/-- `if (b) sv.set(j)` (wavelet_matrix.hpp:197-199) on a `SucVectorT`. -/
def setIfD (sv : SV) (j : Nat) (b : Bool) : Res SV :=
  if b then Verif.SucVector.set sv j else .ok sv

/-- State of the inner loop: the level under construction, `next`, `zeroPos`, `onePos`
(wavelet_matrix.hpp:188-194). -/
structure LoopStD where
  sv : SV
  next : List Nat
  zeroPos : Nat
  onePos : Nat

/-- Lines 200-205: the stable partition step, skipped on the last level (wavelet_matrix.hpp:200-205). -/
def placeD (last : Bool) (x : Nat) (b : Bool) (s : LoopStD) : Res LoopStD :=
  if last then .ok s
  else if b then do
    let next ← setAt? s.next s.onePos x
    return ⟨s.sv, next, s.zeroPos, s.onePos + 1⟩
  else do
    let next ← setAt? s.next s.zeroPos x
    return ⟨s.sv, next, s.zeroPos + 1, s.onePos⟩

/-- The loop of wavelet_matrix.hpp:195-206 over `cur[j..]`. -/
def levelLoopD (last : Bool) (bitPos : Nat) : List Nat → Nat → LoopStD → Res LoopStD
  | [], _, s => .ok s
  | x :: xs, j, s => do
    let b := getPos x bitPos
    let sv ← setIfD s.sv j b
    let s ← placeD last x b ⟨sv, s.next, s.zeroPos, s.onePos⟩
    levelLoopD last bitPos xs (j + 1) s

/-- The loop of wavelet_matrix.hpp:186-213 from level `i` with `k = valBitLen - i` levels to go; `old` is
`svv` after line 175, so a level that was built by an earlier `init` is resized, cleared and built again. -/
def levelsD (size : Nat) (offTbl : List Nat) (old : List SV) :
    (k i : Nat) → (cur next : List Nat) → Res (List SV)
  | 0, _, _, _ => .ok []
  | k + 1, i, cur, next => do
    let o ← at? old i
    let r ← Verif.SucVector.resize false o size true
    let one ← at? offTbl i
    let s ← levelLoopD (decide (k = 0)) k cur 0 ⟨r.1, next, 0, one⟩
    let sv ← Verif.SucVector.ready false false s.sv
    let rest ← levelsD size offTbl old k (i + 1) s.next cur
    return sv :: rest

/-- `init` (wavelet_matrix.hpp:168-223) compiled with the macro, on the object `wm`. -/
def initD (withSelect : Bool) (wm : WM) (vec : List Nat) (valBitLen : Nat) : Res WM :=
  if vec.length > 2 ^ 32 then .throw
  else if valBitLen > 16 then .throw
  else do
    let offTbl := (List.range valBitLen).map fun i => toSize (countZero vec (valBitLen - 1 - i))
    let old := vresize Verif.SucVector.empty wm.svv valBitLen
    let svv ← levelsD vec.length offTbl old valBitLen 0 vec (List.replicate vec.length 0)
    let fromTbl ← initFromTbl svv offTbl valBitLen 0 (vresize 0 wm.fromTbl (2 ^ valBitLen)) 0 0
    let fromLtTbl ← initFromLtTbl svv offTbl valBitLen 0 (vresize 0 wm.fromLtTbl (2 ^ valBitLen)) 0 0 0
    initSel withSelect
      ⟨2 ^ valBitLen, valBitLen, vec.length, svv, offTbl, fromTbl, fromLtTbl, wm.selTbl⟩ vec

end Verif.Wavelet
