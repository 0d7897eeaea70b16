import Verif.Model.Wavelet
import Verif.Model.Frequency

/-!
# Model of `include/cybozu/fmindex.hpp`

`FMindexT<T, isRawData>` for an unsigned `T` of `tb` = 8, 16 or 32 bits, without
`CYBOZU_FMINDEX_USE_CSUCVECTOR`.  `init` takes the error code and the array that the suffix
sorter `saisxx` (`include/sais.hxx`) produced; the sorter is in Model/Sais.  `save`/`load` are in Model/IndexIO.
`Key::value_type` and the string type of `getPrevString` are taken wide enough for `T`.
-/
namespace Verif.FMindex
open Verif.BitVector (BV setAt?)
open Verif.SucVector (SV)
open Verif.Wavelet (WM)

/-- What `FMindexT` uses of `cybozu::Frequency<T, uint32_t>` (fmindex.hpp:58). -/
structure FreqView where
  size : Nat
  getFrequency : Nat → Res Nat
  getIndex : Nat → Res Nat
  getElement : Nat → Res Nat

/-- `Frequency<uint8_t, uint32_t>`. -/
def ofFV (f : Verif.Frequency.FV) : FreqView := ⟨f.size, f.getFrequency, f.getIndex, f.getElement⟩

/-- `Frequency<uint16_t, uint32_t>`. -/
def ofFG (f : Verif.Frequency.FG) : FreqView :=
  ⟨f.size, fun e => .ok (f.getFrequency e), f.getIndex, f.getElement⟩

/-- The members (fmindex.hpp:54-60). -/
structure FM where
  cf : List Nat
  wm : WM
  alignedSa : List Nat
  alignedPos : SV
  freq : FreqView
  skip : Int
  charNum : Nat

/-- A new object (fmindex.hpp:129-133). -/
def empty (freq : FreqView) : FM := ⟨[], Verif.Wavelet.empty, [], Verif.SucVector.empty, freq, 8, 0⟩

/-- The loop of fmindex.hpp:78-83 for raw data: `v[i] = c`, counting. -/
def rawLoop : List Nat → List Nat → Res (List Nat × List Nat)
  | [], tbl => .ok ([], tbl)
  | c :: cs, tbl =>
    if c = 0 then .throw
    else do
      let n ← at? tbl c
      let tbl ← setAt? tbl c ((n + 1) % 2 ^ 32)
      let (v, tbl) ← rawLoop cs tbl
      return (c :: v, tbl)

/-- The loop of fmindex.hpp:86-89: `cf[i] = sum; sum += charNumTbl[i]`. -/
def rawCf : List Nat → Nat → List Nat
  | [], _ => []
  | n :: ns, sum => sum :: rawCf ns ((sum + n) % 2 ^ 32)

/-- The loop of fmindex.hpp:94-96. -/
def cvtLoop (tb : Nat) (freq : FreqView) : List Nat → Res (List Nat)
  | [] => .ok []
  | c :: cs => do
    let i ← freq.getIndex c
    let v ← cvtLoop tb freq cs
    return (i % 2 ^ 32 + 1) % 2 ^ tb :: v

/-- The loop of fmindex.hpp:100-103 from `i` on, `cnt` steps. -/
def cvtCf (freq : FreqView) : (cnt i sum : Nat) → Res (List Nat)
  | 0, _, _ => .ok []
  | cnt + 1, i, sum => do
    let e ← freq.getElement (i - 1)
    let n ← freq.getFrequency e
    let cf ← cvtCf freq cnt (i + 1) ((sum + n) % 2 ^ 32)
    return sum :: cf

/-- `initCf` (fmindex.hpp:66-105); `freq` is the frequency table after line 91.  Returns the text with the
terminator, `cf` and `charNum_`. -/
def initCf (raw : Bool) (tb : Nat) (freq : FreqView) (text : List Nat) : Res (List Nat × List Nat × Nat) :=
  if text.length ≥ 2 ^ 32 - 1 then .throw
  else if raw then do
    let charNum := 2 ^ tb
    let (v, tbl) ← rawLoop text ((List.replicate charNum 0).set 0 1)
    return (v ++ [0], rawCf tbl 0, charNum)
  else
    let charNum := freq.size + 1
    if charNum > 2 ^ tb then .throw
    else do
      let v ← cvtLoop tb freq text
      let cf ← cvtCf freq (charNum - 1) 1 1
      return (v ++ [0], 0 :: cf, charNum)

/-- One entry of `bwt` (fmindex.hpp:111-115). -/
def bwtChar (s : List Nat) (size j : Nat) : Res Nat := if j > 0 then at? s (j - 1) else at? s (size - 1)

/-- The loop of `initBwt` (fmindex.hpp:110-116); `size` is `sa.size()`. -/
def bwtLoop (s : List Nat) (size : Nat) : List Nat → Res (List Nat)
  | [] => .ok []
  | j :: sa => do
    let c ← bwtChar s size j
    let rest ← bwtLoop s size sa
    return c :: rest

/-- The loop of `getBitLen` (fmindex.hpp:121-125). -/
def bitLenLoop (x : Nat) : Nat := if h : x = 0 then 0 else bitLenLoop (x / 2) + 1
termination_by x
decreasing_by omega

/-- `getBitLen` (fmindex.hpp:118-127). -/
def getBitLen (x : Nat) : Nat := if x = 0 then 1 else bitLenLoop x

/-- The loop of fmindex.hpp:163-168 on `sa[i..]`. -/
def alignLoop (skip : Nat) : List Nat → Nat → BV 64 → List Nat → Res (BV 64 × List Nat)
  | [], _, bv, out => .ok (bv, out)
  | j :: sa, i, bv, out =>
    if j % skip = 0 then do
      let bv ← Verif.BitVector.set1 bv i
      alignLoop skip sa (i + 1) bv (out ++ [j])
    else alignLoop skip sa (i + 1) bv out

/-- `init` (fmindex.hpp:141-180) on the object `fm`.  `freq` is the frequency table after line 91, `sais v`
the return value of `saisxx` and the content of `sa` after the call.  Only the return value -1 is an
error for the code. -/
def init (raw : Bool) (tb : Nat) (fm : FM) (freq : FreqView) (sais : List Nat → Int × List Nat)
    (text : List Nat) (skip : Int) : Res FM :=
  if skip ≤ 0 then .throw
  else do
    let (v, cf, charNum) ← initCf raw tb freq text
    let (err, sa) := sais v
    if err = -1 then .throw
    else do
      let bwt ← bwtLoop v sa.length sa
      let wm ← Verif.Wavelet.init false fm.wm bwt (getBitLen charNum)
      let bv ← Verif.BitVector.resize Verif.BitVector.empty v.length
      let (bv, alignedSa) ← alignLoop skip.toNat sa 0 bv fm.alignedSa
      let alignedPos ← Verif.SucVector.init false false fm.alignedPos bv.v bv.bitLen
      return ⟨cf, wm, alignedSa, alignedPos, freq, skip, charNum⟩

/-- One step of the backward search (fmindex.hpp:206-209). -/
def rangeStep (fm : FM) (c b e : Nat) : Res (Nat × Nat) := do
  let cfc ← at? fm.cf c
  let rb ← Verif.Wavelet.rank fm.wm c b
  let re ← Verif.Wavelet.rank fm.wm c e
  return (cfc + rb, cfc + re)

/-- The loop of fmindex.hpp:205-212 over the key read from its last character. -/
def rangeLoop (fm : FM) : List Nat → Nat → Nat → Res (Nat × Nat)
  | [], b, e => .ok (b, e)
  | c :: cs, b, e =>
    if b < e then do
      let (b, e) ← rangeStep fm c b e
      rangeLoop fm cs b e
    else .ok (b, e)

/-- The conversion of the key (fmindex.hpp:196-199); `none` is the `return false` of line 197. -/
def cvtKey (tb : Nat) (freq : FreqView) : List Nat → Res (Option (List Nat))
  | [] => .ok (some [])
  | c :: cs => do
    let n ← freq.getFrequency c
    if n = 0 then return none
    else do
      let i ← freq.getIndex c
      let r ← cvtKey tb freq cs
      return r.map fun k => (i % 2 ^ 32 + 1) % 2 ^ tb :: k

/-- Lines 202-219. -/
def searchKey (fm : FM) (key : List Nat) : Res (Option (Nat × Nat)) := do
  let (b, e) ← rangeLoop fm key.reverse 0 fm.wm.size
  return if b < e then some (b, e) else none

/-- `getRange` (fmindex.hpp:185-220); `none` is `false`.  `Int` is taken wide enough. -/
def getRange (raw : Bool) (tb : Nat) (fm : FM) (key : List Nat) : Res (Option (Nat × Nat)) :=
  if key.isEmpty then .ok none
  else if raw then searchKey fm key
  else do
    match ← cvtKey tb fm.freq key with
    | none => return none
    | some k => searchKey fm k

/-- Lines 231-232: the last-to-first step; returns the character and the next row. -/
def lfStep (fm : FM) (row : Nat) : Res (Nat × Nat) := do
  let (c, r) ← Verif.Wavelet.get2 fm.wm row
  let n ← at? fm.cf c
  return (c, r + n)

/-- The loop of `convertPosition` (fmindex.hpp:229-235), cut off (as `ub`) after `fuel` steps. -/
def convLoop (fm : FM) : (fuel row t : Nat) → Res Nat
  | 0, _, _ => .ub
  | fuel + 1, row, t => do
    if ← Verif.SucVector.get fm.alignedPos row then do
      let r ← Verif.SucVector.rank1 false fm.alignedPos row
      let p ← at? fm.alignedSa r
      return t + p
    else do
      let (_, row) ← lfStep fm row
      convLoop fm fuel row (t + 1)

/-- `convertPosition` (fmindex.hpp:226-236). -/
def convertPosition (fm : FM) (fuel row : Nat) : Res Nat := convLoop fm fuel row 0

/-- The character stored into the result (fmindex.hpp:254). -/
def prevChar (raw : Bool) (fm : FM) (c : Nat) : Res Nat :=
  if raw then .ok c else fm.freq.getElement (c - 1)

/-- The loop of `getPrevString` (fmindex.hpp:246-255).  `acc` is `str[len..]`, the part already written;
erasing the unwritten part leaves it. -/
def prevLoop (raw : Bool) (fm : FM) : (len row : Nat) → List Nat → Res (List Nat)
  | 0, _, acc => .ok acc
  | len + 1, row, acc => do
    let (c, row) ← lfStep fm row
    if c = 0 then return acc
    else do
      let x ← prevChar raw fm c
      prevLoop raw fm len row (x :: acc)

/-- `getPrevString` (fmindex.hpp:241-256). -/
def getPrevString (raw : Bool) (fm : FM) (row len : Nat) : Res (List Nat) := prevLoop raw fm len row []

end Verif.FMindex
