import Verif.Model.IndexIO
import Verif.Model.FMindexC

/-!
# Model of `save` and `load` of the index over compressed vectors

`WaveletMatrixT<false, CSucVector>` (wavelet_matrix.hpp:120-160) and `FMindexT` with `CYBOZU_FMINDEX_USE_CSUCVECTOR`
(fmindex.hpp:258-282); the templates are those of Model/IndexIO, the vectors are saved by `saveCV`.  `CSucVector::load`
replaces every member the queries read, so the level loaded into does not matter.
-/
namespace Verif.FMindexCIO
open Verif.Stream Verif.Serializer Verif.IndexIO
open Verif.CSuc (CV)
open Verif.WaveletC (WM)
open Verif.FMindexC (FM)
open Verif.FMindex (FreqView)

/-- The loop of wavelet_matrix.hpp:127-129: the first `n` levels from index `i`. -/
def saveLevels (svv : List CV) : (n i : Nat) → Res (List UInt8)
  | 0, _ => .ok []
  | n + 1, i => do
    let sv ← at? svv i
    let rest ← saveLevels svv n (i + 1)
    return saveCV sv ++ rest

/-- `WaveletMatrixT::save` without select (wavelet_matrix.hpp:120-139).  The assertion of line 126 is not modelled: a
missing level is `ub`. -/
def saveWM (wm : WM) : Res (List UInt8) := do
  let lv ← saveLevels wm.svv wm.valBitLen 0
  return saveSize wm.maxVal ++ (saveSize wm.valBitLen ++ (saveSize wm.size ++ (lv ++
    (saveVec 4 id wm.offTbl ++ (saveVec 4 id wm.fromTbl ++ saveVec 4 id wm.fromLtTbl)))))

/-- The loop of wavelet_matrix.hpp:147-149 over `n` levels. -/
def loadLevels : Nat → Src → Res (List CV × Src)
  | 0 => done []
  | n + 1 =>
    next loadCV fun y =>
    next (loadLevels n) fun ys =>
    done (y :: ys)

/-- Lines 146-149; a `CSucVector` has 112 bytes. -/
def loadSvv (n : Nat) : Src → Res (List CV × Src) :=
  if n * 112 ≥ 2 ^ 63 then fun _ => .throw
  else loadLevels n

/-- `WaveletMatrixT::load` without select (wavelet_matrix.hpp:140-160). -/
def loadWM : Src → Res (WM × Src) :=
  next loadSize fun maxVal =>
  next loadSize fun valBitLen =>
  next loadSize fun size =>
  next (loadSvv valBitLen) fun svv =>
  next (loadVec 4 id) fun offTbl =>
  next (loadVec 4 id) fun fromTbl =>
  next (loadVec 4 id) fun fromLtTbl =>
  done ⟨maxVal, valBitLen, size, svv, offTbl, fromTbl, fromLtTbl⟩

/-- `FMindexT::save` (fmindex.hpp:258-267); `fb` are the bytes `freq.save` writes. -/
def saveFM (raw : Bool) (fm : FM) (fb : List UInt8) : Res (List UInt8) := do
  let w ← saveWM fm.wm
  return saveVariableInt (BitVec.ofInt 32 fm.skip) ++ (saveVec 4 id fm.cf ++ (w ++ (saveVec 4 id fm.alignedSa ++
    (saveCV fm.alignedPos ++ (if raw then [] else fb)))))

/-- `FMindexT::load` (fmindex.hpp:268-282) into an index whose frequency table is `old`; `ld` is `freq.load`. -/
def loadFM (raw : Bool) (tb : Nat) (ld : Src → Res (FreqView × Src)) (old : FreqView) : Src → Res (FM × Src) :=
  next (loadVariableInt 32) fun skip =>
  next (loadVec 4 id) fun cf =>
  next loadWM fun wm =>
  next (loadVec 4 id) fun alignedSa =>
  next loadCV fun alignedPos =>
  next (loadFreq raw tb ld old) fun f =>
  done ⟨cf, wm, alignedSa, alignedPos, f.1, skip.toInt, f.2⟩

end Verif.FMindexCIO
