import Verif.Model.Serializer
import Verif.Model.FMindex
import Verif.Model.CSucVector

/-!
# Model of `save` and `load` of the index structures

`SucVectorT` (sucvector.hpp:193-218), `WaveletMatrixT` (wavelet_matrix.hpp:120-160), `CSucVector`
(csucvector.hpp:600-617), `FrequencyVec` and `Frequency` (frequency.hpp:100-114, 136-147, 231-241) and `FMindexT`
(fmindex.hpp:258-282), on a little-endian machine.  Output streams collect the bytes written, input streams are those of
`Verif.Stream`.  `load` gets the object loaded into.  As in `loadPodVec`, `resize` throws for impossible sizes.
-/
namespace Verif.IndexIO
open Verif.Stream Verif.Serializer
open Verif.SucVector (SV Block)
open Verif.Wavelet (WM)
open Verif.CSuc (CV Enc Blk)
open Verif.Frequency (FV FG Ent)
open Verif.FMindex (FM FreqView)

/-- Two loads in a row from the same stream. -/
def next {α β : Type} (l1 : Src → Res (α × Src)) (l2 : α → Src → Res (β × Src)) (s : Src) : Res (β × Src) := do
  let (a, s) ← l1 s
  l2 a s

/-- The end of a sequence of loads. -/
def done {α : Type} (a : α) (s : Src) : Res (α × Src) := .ok (a, s)

/-- `savePodVec` (serializer.hpp:238-243) of elements of `n` bytes; `enc` gives the bytes of an element as a
little-endian number. -/
def saveVec {α : Type} (n : Nat) (enc : α → Nat) (l : List α) : List UInt8 :=
  savePodVec n (l.map fun x => BitVec.ofNat (8 * n) (enc x))

/-- `loadPodVec` (serializer.hpp:228-235); `dec` reads an element from its bytes. -/
def loadVec {α : Type} (n : Nat) (dec : Nat → α) : Src → Res (List α × Src) :=
  next (loadPodVec n) fun v =>
  done (v.map fun x => dec x.toNat)

/-- `save(os, x)` for a `uint32_t` (serializer.hpp:207-219). -/
def save32 (x : Nat) : List UInt8 := saveVariableInt (BitVec.ofNat 32 x)

/-- `load(x, is)` for a `uint32_t` (serializer.hpp:207-219). -/
def load32 : Src → Res (Nat × Src) :=
  next (loadVariableInt 32) fun x =>
  done (x.toNat)

/-- The 40 bytes of a `Block` of `SucVectorT` (sucvector.hpp:82-95).  `org` always has four words. -/
def encBlock (x : Block) : Nat := match x.org with
  | [o0, o1, o2, o3] => o0.toNat + 2 ^ 64 * o1.toNat + 2 ^ 128 * o2.toNat + 2 ^ 192 * o3.toNat + 2 ^ 256 * x.a64
  | _ => 0

/-- The `Block` in 40 bytes. -/
def decBlock (v : Nat) : Block :=
  Block.setA64 ⟨[BitVec.ofNat 64 v, BitVec.ofNat 64 (v / 2 ^ 64), BitVec.ofNat 64 (v / 2 ^ 128),
    BitVec.ofNat 64 (v / 2 ^ 192)], 0, 0, 0, 0, 0⟩ (v / 2 ^ 256)

/-- `SucVectorT::save` (sucvector.hpp:193-204); `sel` is `withSelect`. -/
def saveSV (sel : Bool) (x : SV) : List UInt8 :=
  saveSize x.bitSize ++ (saveSize x.num0 ++ (saveSize x.num1 ++ (saveVec 40 encBlock x.blk ++
    (if sel then saveVec 4 id x.sel0 ++ saveVec 4 id x.sel1 else []))))

/-- The select tables (sucvector.hpp:212-217); without them `initSelTbl` does nothing (127-132). -/
def loadSel (sel : Bool) (x : SV) : Src → Res (SV × Src) :=
  if sel then
    next (loadVec 4 id) fun t0 =>
    next (loadVec 4 id) fun t1 =>
    done { x with sel0 := t0, sel1 := t1 }
  else done x

/-- `SucVectorT::load` (sucvector.hpp:205-218); `freezed_` is not touched. -/
def loadSV (sel : Bool) (old : SV) : Src → Res (SV × Src) :=
  next loadSize fun bitSize =>
  next loadSize fun num0 =>
  next loadSize fun num1 =>
  next (loadVec 40 decBlock) fun blk =>
  loadSel sel { old with bitSize := bitSize, num0 := num0, num1 := num1, blk := blk }

/-- The loop of wavelet_matrix.hpp:127-129: the first `n` levels from index `i`. -/
def saveLevels (svv : List SV) : (n i : Nat) → Res (List UInt8)
  | 0, _ => .ok []
  | n + 1, i => do
    let sv ← at? svv i
    let rest ← saveLevels svv n (i + 1)
    return saveSV false sv ++ rest

/-- The loop of wavelet_matrix.hpp:135-137. -/
def saveSels (tbl : List (List Nat)) : (n v : Nat) → Res (List UInt8)
  | 0, _ => .ok []
  | n + 1, v => do
    let t ← at? tbl v
    let rest ← saveSels tbl n (v + 1)
    return saveVec 4 id t ++ rest

/-- Lines 134-138. -/
def saveSelTbl (sel : Bool) (wm : WM) : Res (List UInt8) :=
  if sel then saveSels wm.selTbl wm.maxVal 0 else .ok []

/-- `WaveletMatrixT::save` (wavelet_matrix.hpp:120-139).  The assertion of line 126 is not modelled: a missing level is
`ub`. -/
def saveWM (sel : Bool) (wm : WM) : Res (List UInt8) := do
  let lv ← saveLevels wm.svv wm.valBitLen 0
  let st ← saveSelTbl sel wm
  return saveSize wm.maxVal ++ (saveSize wm.valBitLen ++ (saveSize wm.size ++ (lv ++
    (saveVec 4 id wm.offTbl ++ (saveVec 4 id wm.fromTbl ++ (saveVec 4 id wm.fromLtTbl ++ st))))))

/-- The loop of wavelet_matrix.hpp:147-149 over the levels as resized. -/
def loadLevels : List SV → Src → Res (List SV × Src)
  | [] => done []
  | x :: xs =>
    next (loadSV false x) fun y =>
    next (loadLevels xs) fun ys =>
    done (y :: ys)

/-- Lines 146-149. -/
def loadSvv (old : List SV) (n : Nat) : Src → Res (List SV × Src) :=
  if n * 128 ≥ 2 ^ 63 then fun _ => .throw
  else loadLevels (Verif.Wavelet.vresize Verif.SucVector.empty old n)

/-- Lines 154-159. -/
def loadSelTbl (sel : Bool) (old : List (List Nat)) (n : Nat) : Src → Res (List (List Nat) × Src) :=
  if sel then
    if n * 24 ≥ 2 ^ 63 then fun _ => .throw
    else loadMany (loadVec 4 id) (fun l t => l ++ [t]) n []
  else done old

/-- `WaveletMatrixT::load` (wavelet_matrix.hpp:140-160). -/
def loadWM (sel : Bool) (old : WM) : Src → Res (WM × Src) :=
  next loadSize fun maxVal =>
  next loadSize fun valBitLen =>
  next loadSize fun size =>
  next (loadSvv old.svv valBitLen) fun svv =>
  next (loadVec 4 id) fun offTbl =>
  next (loadVec 4 id) fun fromTbl =>
  next (loadVec 4 id) fun fromLtTbl =>
  next (loadSelTbl sel old.selTbl maxVal) fun selTbl =>
  done ⟨maxVal, valBitLen, size, svv, offTbl, fromTbl, fromLtTbl, selTbl⟩

/-- The 16 bytes of an `Encoding` (csucvector.hpp:41-44). -/
def encEnc (e : Enc) : Nat := e.v.toNat + 2 ^ 64 * e.len + 2 ^ 96 * e.rk

/-- The `Encoding` in 16 bytes. -/
def decEnc (v : Nat) : Enc := ⟨BitVec.ofNat 64 v, v / 2 ^ 64 % 2 ^ 32, v / 2 ^ 96 % 2 ^ 32⟩

/-- The 12 bytes of a `Block` of `CSucVector` (csucvector.hpp:205-208). -/
def encBlk (b : Blk) : Nat := b.orgPos + 2 ^ 32 * b.vecPos + 2 ^ 64 * b.rk

/-- The `Block` in 12 bytes. -/
def decBlk (v : Nat) : Blk := ⟨v % 2 ^ 32, v / 2 ^ 32 % 2 ^ 32, v / 2 ^ 64 % 2 ^ 32⟩

/-- `CSucVector::save` (csucvector.hpp:600-608). -/
def saveCV (x : CV) : List UInt8 :=
  save32 x.bitSize ++ (saveVec 1 id x.vec ++ (saveVec 12 encBlk x.blk ++ (save32 x.rk ++ saveVec 16 encEnc x.enc)))

/-- `CSucVector::load` (csucvector.hpp:609-617). -/
def loadCV : Src → Res (CV × Src) :=
  next load32 fun bitSize =>
  next (loadVec 1 id) fun vec =>
  next (loadVec 12 decBlk) fun blk =>
  next load32 fun rk =>
  next (loadVec 16 decEnc) fun enc =>
  done ⟨enc, bitSize, vec, blk, rk⟩

/-- `saveRange` of an array of `n`-byte numbers (serializer.hpp:64-68). -/
def saveArr (n : Nat) (l : List Nat) : List UInt8 := (l.map fun x => savePod n x).flatten

/-- `loadRange` of an array of 256 `n`-byte numbers (serializer.hpp:58-62). -/
def loadArr (n : Nat) : Src → Res (List Nat × Src) :=
  next (loadRange (256 * n)) fun c =>
  done ((chunks n 256 c).map BitVec.toNat)

/-- `FrequencyVec::save` (frequency.hpp:108-114) for a one-byte element and a 32-bit counter. -/
def saveFV (x : FV) : List UInt8 :=
  saveSize x.size ++ (saveArr 4 x.freqTbl ++ (saveArr 1 x.char2idx ++ saveArr 1 x.idx2char))

/-- `FrequencyVec::load` (frequency.hpp:100-107). -/
def loadFV : Src → Res (FV × Src) :=
  next loadSize fun size =>
  next (loadArr 4) fun freqTbl =>
  next (loadArr 1) fun c2i =>
  next (loadArr 1) fun i2c =>
  done ⟨size, freqTbl, c2i, i2c⟩

/-- The pair (key, `FreqIdx`) in `save` of the map (serializer.hpp:362-365, frequency.hpp:142-147), for 16-bit elements and
32-bit counters. -/
def saveEnt (e : Ent) : List UInt8 := savePod 2 e.key ++ (save32 e.freq ++ save32 e.idx)

/-- Reading such a pair (serializer.hpp:350-352, frequency.hpp:136-141). -/
def loadEnt : Src → Res (Ent × Src) :=
  next (loadPod 2) fun k =>
  next load32 fun f =>
  next load32 fun i =>
  done ⟨k.toNat, f, i⟩

/-- `unordered_map::insert` (serializer.hpp:353): nothing happens if the key exists. -/
def insertEnt (m : List Ent) (e : Ent) : List Ent := if m.any (fun y => y.key == e.key) then m else m ++ [e]

/-- `Frequency::save` (frequency.hpp:237-241). -/
def saveFG (x : FG) : List UInt8 := saveSize x.m.length ++ (x.m.map saveEnt).flatten

/-- `Frequency::load` (frequency.hpp:231-236): `load(m_)` (serializer.hpp:340-355) does not clear the map; then
`initIdx2Ref` (163-171) sorts.  `sort m` is the order the sort produces. -/
def loadFG (sort : List Ent → List Nat) (old : FG) : Src → Res (FG × Src) :=
  next loadSize fun n =>
  next (loadMany loadEnt insertEnt n old.m) fun m =>
  done ⟨m, sort m⟩

/-- `FMindexT::save` (fmindex.hpp:258-267); `fb` are the bytes `freq.save` writes. -/
def saveFM (raw : Bool) (fm : FM) (fb : List UInt8) : Res (List UInt8) := do
  let w ← saveWM false fm.wm
  return saveVariableInt (BitVec.ofInt 32 fm.skip) ++ (saveVec 4 id fm.cf ++ (w ++ (saveVec 4 id fm.alignedSa ++
    (saveSV false fm.alignedPos ++ (if raw then [] else fb)))))

/-- Lines 276-281; `tb` is `sizeof(T) * 8`. -/
def loadFreq (raw : Bool) (tb : Nat) (ld : Src → Res (FreqView × Src)) (old : FreqView) :
    Src → Res ((FreqView × Nat) × Src) :=
  if raw then done (old, 2 ^ tb)
  else
    next ld fun f =>
    done (f, f.size)

/-- `FMindexT::load` (fmindex.hpp:268-282); `ld` is `freq.load`. -/
def loadFM (raw : Bool) (tb : Nat) (ld : Src → Res (FreqView × Src)) (old : FM) : Src → Res (FM × Src) :=
  next (loadVariableInt 32) fun skip =>
  next (loadVec 4 id) fun cf =>
  next (loadWM false old.wm) fun wm =>
  next (loadVec 4 id) fun alignedSa =>
  next (loadSV false old.alignedPos) fun alignedPos =>
  next (loadFreq raw tb ld old.freq) fun f =>
  done ⟨cf, wm, alignedSa, alignedPos, f.1, skip.toInt, f.2⟩

/-- `freq.load` of `Frequency<uint8_t, uint32_t>`. -/
def loadFV' : Src → Res (FreqView × Src) :=
  next loadFV fun f =>
  done (Verif.FMindex.ofFV f)

/-- `freq.load` of `Frequency<uint16_t, uint32_t>`. -/
def loadFG' (sort : List Ent → List Nat) (old : FG) : Src → Res (FreqView × Src) :=
  next (loadFG sort old) fun f =>
  done (Verif.FMindex.ofFG f)

end Verif.IndexIO
