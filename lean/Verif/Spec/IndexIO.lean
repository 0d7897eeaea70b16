import Verif.Model.IndexIO

/-! What every object of these classes satisfies because of the C++ types of its members, and which objects cannot be told
apart by queries. -/
namespace Verif.Spec.IndexIO
open Verif.SucVector (SV Block)
open Verif.Wavelet (WM)
open Verif.CSuc (CV Enc Blk)
open Verif.Frequency (FV FG Ent)
open Verif.FMindex (FM)

/-- A vector of `n`-byte elements that can exist in memory. -/
def Mem {α : Type} (n : Nat) (l : List α) : Prop := l.length * n < 2 ^ 63

/-- A `std::vector<uint32_t>`. -/
def Vec32 (l : List Nat) : Prop := Mem 4 l ∧ ∀ x ∈ l, x < 2 ^ 32

/-- `uint64_t org[4]`, `uint32_t a`, `uint8_t b[4]`. -/
structure BlockFits (x : Block) : Prop where
  org : x.org.length = 4
  a : x.a < 2 ^ 32
  b0 : x.b0 < 256
  b1 : x.b1 < 256
  b2 : x.b2 < 256
  b3 : x.b3 < 256

/-- The members of a `SucVectorT`. -/
structure SVFits (x : SV) : Prop where
  bitSize : x.bitSize < 2 ^ 64
  num0 : x.num0 < 2 ^ 64
  num1 : x.num1 < 2 ^ 64
  mem : Mem 40 x.blk
  blk : ∀ b ∈ x.blk, BlockFits b
  sel0 : Vec32 x.sel0
  sel1 : Vec32 x.sel1

/-- The members of a `WaveletMatrixT`; as its assertion says, there is a level for each bit, and with select tables there is
one for each value. -/
structure WMFits (sel : Bool) (x : WM) : Prop where
  maxVal : x.maxVal < 2 ^ 64
  size : x.size < 2 ^ 64
  levels : x.svv.length = x.valBitLen
  mem : Mem 128 x.svv
  svv : ∀ v ∈ x.svv, SVFits v
  off : Vec32 x.offTbl
  from_ : Vec32 x.fromTbl
  fromLt : Vec32 x.fromLtTbl
  selLen : sel = true → x.selTbl.length = x.maxVal ∧ Mem 24 x.selTbl ∧ ∀ t ∈ x.selTbl, Vec32 t

/-- The members of a `CSucVector`. -/
structure CVFits (x : CV) : Prop where
  bitSize : x.bitSize < 2 ^ 32
  rk : x.rk < 2 ^ 32
  vecMem : Mem 1 x.vec
  vec : ∀ v ∈ x.vec, v < 256
  blkMem : Mem 12 x.blk
  blk : ∀ b ∈ x.blk, b.orgPos < 2 ^ 32 ∧ b.vecPos < 2 ^ 32 ∧ b.rk < 2 ^ 32
  encMem : Mem 16 x.enc
  enc : ∀ e ∈ x.enc, e.len < 2 ^ 32 ∧ e.rk < 2 ^ 32

/-- The members of a `FrequencyVec` with 32-bit counters. -/
structure FVFits (x : FV) : Prop where
  size : x.size < 2 ^ 64
  freqLen : x.freqTbl.length = 256
  freq : ∀ v ∈ x.freqTbl, v < 2 ^ 32
  c2iLen : x.char2idx.length = 256
  c2i : ∀ v ∈ x.char2idx, v < 256
  i2cLen : x.idx2char.length = 256
  i2c : ∀ v ∈ x.idx2char, v < 256

/-- The map of a `Frequency<uint16_t, uint32_t>`: different keys. -/
structure FGFits (x : FG) : Prop where
  len : x.m.length < 2 ^ 64
  ents : ∀ e ∈ x.m, e.key < 2 ^ 16 ∧ e.freq < 2 ^ 32 ∧ e.idx < 2 ^ 32
  keys : (x.m.map Ent.key).Nodup

/-- The members of an `FMindexT` apart from the frequency table. -/
structure FMFits (x : FM) : Prop where
  skip : -2 ^ 31 ≤ x.skip ∧ x.skip < 2 ^ 31
  cf : Vec32 x.cf
  wm : WMFits false x.wm
  sa : Vec32 x.alignedSa
  pos : SVFits x.alignedPos

/-- `r` answers every query as `x` does. -/
structure SameSV (big sel : Bool) (r x : SV) : Prop where
  size : r.bitSize = x.bitSize
  count : ∀ b, Verif.SucVector.numOf r b = Verif.SucVector.numOf x b
  get : ∀ i, Verif.SucVector.get r i = Verif.SucVector.get x i
  rank1 : ∀ i, Verif.SucVector.rank1 big r i = Verif.SucVector.rank1 big x i
  rank0 : ∀ i, Verif.SucVector.rank0 big r i = Verif.SucVector.rank0 big x i
  select : ∀ b k, Verif.SucVector.selectSub big sel r b k = Verif.SucVector.selectSub big sel x b k

/-- `r` answers every query as `x` does. -/
structure SameWM (sel : Bool) (r x : WM) : Prop where
  size : r.size = x.size
  sizeVal : ∀ v, Verif.Wavelet.sizeVal r v = Verif.Wavelet.sizeVal x v
  get : ∀ i, Verif.Wavelet.get r i = Verif.Wavelet.get x i
  get2 : ∀ i, Verif.Wavelet.get2 r i = Verif.Wavelet.get2 x i
  rank : ∀ v i, Verif.Wavelet.rank r v i = Verif.Wavelet.rank x v i
  rankLt : ∀ v i, Verif.Wavelet.rankLt r v i = Verif.Wavelet.rankLt x v i
  select : ∀ v k, Verif.Wavelet.select sel r v k = Verif.Wavelet.select sel x v k

/-- `r` answers every query as `x` does. -/
structure SameFM (raw : Bool) (tb : Nat) (r x : FM) : Prop where
  range : ∀ key, Verif.FMindex.getRange raw tb r key = Verif.FMindex.getRange raw tb x key
  convert : ∀ fuel row, Verif.FMindex.convertPosition r fuel row = Verif.FMindex.convertPosition x fuel row
  prev : ∀ row len, Verif.FMindex.getPrevString raw r row len = Verif.FMindex.getPrevString raw x row len

/-- Loading from a stream holding `bytes` and anything after them, delivered in pieces of any sizes, consumes exactly `bytes`
and gives an object satisfying `P`; from a stream that ends before all of `bytes` it throws. -/
structure Reads {α : Type} (ld : Verif.Stream.Src → Res (α × Verif.Stream.Src)) (bytes : List UInt8) (P : α → Prop) : Prop where
  whole : ∀ s rest, s.rest = bytes ++ rest → ∃ r s', ld s = .ok (r, s') ∧ P r ∧ s'.rest = rest
  cut : ∀ s more, more ≠ [] → s.rest ++ more = bytes → ld s = .throw

end Verif.Spec.IndexIO
