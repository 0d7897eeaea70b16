import Verif.Model.FmSample
import Verif.Model.UStream

/-!
# Model of sample/fmindex_smpl.cpp with `USE_UTF32`

`FMindex` is `FMindexT<cybozu::Char>` and `String` is `cybozu::String` (fmindex_smpl.cpp:10-12): the files are UTF-8, the index is
one of characters.  A `Char` is a signed number of 32 bits; all that come out of UTF-8 are at most 0x10ffff, so that the order and
the codes are those of natural numbers.  The rest is as in Model/FmSample.  Keys are collected before they are looked up; the
program does it one by one, which prints the same.
-/
namespace Verif.FmSample32
open Verif.Stream Verif.Serializer Verif.IndexIO
open Verif.Frequency (FG Ent)
open Verif.FMindex (FM FreqView)
open Verif.FmSample (forKeys rowsOf simpleLoop)

/-- The pair (key, `FreqIdx`) in `save` of the map (serializer.hpp:362-365, frequency.hpp:142-147): a `wchar_t` is written as its 4
bytes (serializer.hpp:98-100, 107). -/
def saveEnt4 (e : Ent) : List UInt8 := savePod 4 e.key ++ (save32 e.freq ++ save32 e.idx)

/-- Reading such a pair (serializer.hpp:350-352, frequency.hpp:136-141). -/
def loadEnt4 : Src → Res (Ent × Src) :=
  next (loadPod 4) fun k =>
  next load32 fun f =>
  next load32 fun i =>
  done ⟨k.toNat, f, i⟩

/-- `Frequency<Char, uint32_t>::save` (frequency.hpp:237-241). -/
def saveFG4 (x : FG) : List UInt8 := saveSize x.m.length ++ (x.m.map saveEnt4).flatten

/-- `Frequency<Char, uint32_t>::load` (frequency.hpp:231-236); `sort m` is the order the sort produces. -/
def loadFG4 (sort : List Ent → List Nat) (old : FG) : Src → Res (FG × Src) :=
  next loadSize fun n =>
  next (loadMany loadEnt4 insertEnt n old.m) fun m =>
  done ⟨m, sort m⟩

/-- The same as the `freq.load` of the index. -/
def loadFG4' (sort : List Ent → List Nat) (old : FG) : Src → Res (FreqView × Src) :=
  next (loadFG4 sort old) fun f =>
  done (Verif.FMindex.ofFG f)

/-- `STRING text(m.get(), m.size())` and `STRING text(m.get(), m.get() + m.size())` (fmindex_smpl.cpp:32, 132; string.hpp:361-365,
386-389, 554-578): both decode UTF-8.  A constructor that throws leaves no string. -/
def decode (file : List Nat) : Res (List Nat) := do
  let r ← Verif.UString.append8 (file.length + 1) [] file
  if r.1 then .throw
  else return r.2.map Int.toNat

/-- The keys of `while (qs >> key)` (fmindex_smpl.cpp:39, 91) with `operator>>` of `cybozu::String` (string.hpp:1556-1562), and how
the loop ends: at the end of the file or with an exception. -/
def keys (queries : List Nat) : Res (List (List Nat) × Verif.UStream.End) := do
  let r ← Verif.UStream.wordLoop (queries.length + 2) ⟨queries, false, false⟩ []
  return (r.1.map fun w => w.map Int.toNat, r.2.1)

/-- `simpleSearch` (fmindex_smpl.cpp:28-59). -/
def simpleSearch (file queries : List Nat) : Res (List (List Nat × List Int) × Verif.UStream.End) := do
  let text ← decode file
  let ks ← keys queries
  let out ← forKeys (fun key => simpleLoop text key (text.length + 2) 0 []) ks.1
  return (out, ks.2)

/-- `create` (fmindex_smpl.cpp:124-140): the bytes of the index file. -/
def create (order : List Nat) (alloc : Nat → Nat → Bool) (g : Verif.Sais.Arr) (file : List Nat) (skip : Int) :
    Res (List UInt8) := do
  let text ← decode file
  let st := FG.init 32 FG.clear text order
  let f ← Verif.FMindex.init false 32 (Verif.FMindex.empty (Verif.FMindex.ofFG FG.clear)) (Verif.FMindex.ofFG st)
    (Verif.Sais.sorter alloc g (st.size + 1)) text skip
  saveFM false f (saveFG4 st)

/-- `f.load` on a new object (fmindex_smpl.cpp:65-66, 81-82). -/
def loadIndex (sort : List Ent → List Nat) (file : Src) : Res FM := do
  let r ← loadFM false 32 (loadFG4' sort FG.clear) (Verif.FMindex.empty (Verif.FMindex.ofFG FG.clear)) file
  return r.1

/-- The positions of one key (fmindex_smpl.cpp:93-106). -/
def findKey (f : FM) (fuel : Nat) (key : List Nat) : Res (List Int) := do
  let r ← Verif.FMindex.getRange false 32 f key
  rowsOf f fuel r

/-- `search` (fmindex_smpl.cpp:78-122). -/
def search (sort : List Ent → List Nat) (fuel : Nat) (file : Src) (queries : List Nat) :
    Res (List (List Nat × List Int) × Verif.UStream.End) := do
  let f ← loadIndex sort file
  let ks ← keys queries
  let out ← forKeys (findKey f fuel) ks.1
  return (out, ks.2)

/-- `recover` (fmindex_smpl.cpp:61-76): the bytes of the output file, written by `operator<<` (string.hpp:1564-1567). -/
def recover (sort : List Ent → List Nat) (file : Src) : Res (List Nat) := do
  let f ← loadIndex sort file
  if f.wm.size = 0 then .throw
  else do
    let str ← Verif.FMindex.getPrevString false f 0 (f.wm.size - 1)
    Verif.UStream.insertTo [] (str.map Int.ofNat)

end Verif.FmSample32
