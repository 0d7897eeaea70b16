import Verif.Model.WaveletC
import Verif.Model.FMindex

/-!
# Model of `include/cybozu/fmindex.hpp` with `CYBOZU_FMINDEX_USE_CSUCVECTOR`

The index over compressed vectors (fmindex.hpp:48-50); the rest of the code is that of Model/FMindex.
-/
namespace Verif.FMindexC
open Verif.BitVector (BV)
open Verif.CSuc (CV)
open Verif.WaveletC (WM)
open Verif.FMindex (FreqView initCf bwtLoop getBitLen alignLoop cvtKey)

/-- The members (fmindex.hpp:54-60). -/
structure FM where
  cf : List Nat
  wm : WM
  alignedSa : List Nat
  alignedPos : CV
  freq : FreqView
  skip : Int
  charNum : Nat

/-- A new object (fmindex.hpp:129-133). -/
def empty (freq : FreqView) : FM := ⟨[], Verif.WaveletC.empty, [], CV.empty, freq, 8, 0⟩

/-- `init` (fmindex.hpp:141-180) on the object `fm`.  `freq` is the frequency table after line 91, `sais v`
the return value of `saisxx` and the content of `sa` after the call.  Only the return value -1 is an
error for the code. -/
def init (raw : Bool) (tb : Nat) (fm : FM) (freq : FreqView) (sais : List Nat → Int × List Nat)
    (text : List Nat) (skip : Int) : Res FM :=
  if skip ≤ 0 then .throw
  else do
    let (v, cf, charNum) ← initCf raw tb freq text
    let (err, sa) := sais v
    if err = -1 then .throw
    else do
      let bwt ← bwtLoop v sa.length sa
      let wm ← Verif.WaveletC.init fm.wm bwt (getBitLen charNum)
      let bv ← Verif.BitVector.resize Verif.BitVector.empty v.length
      let (bv, alignedSa) ← alignLoop skip.toNat sa 0 bv fm.alignedSa
      let alignedPos ← Verif.CSuc.init fm.alignedPos bv.v bv.bitLen
      return ⟨cf, wm, alignedSa, alignedPos, freq, skip, charNum⟩

/-- One step of the backward search (fmindex.hpp:206-209). -/
def rangeStep (fm : FM) (c b e : Nat) : Res (Nat × Nat) := do
  let cfc ← at? fm.cf c
  let rb ← Verif.WaveletC.rank fm.wm c b
  let re ← Verif.WaveletC.rank fm.wm c e
  return (cfc + rb, cfc + re)

/-- The loop of fmindex.hpp:205-212 over the key read from its last character. -/
def rangeLoop (fm : FM) : List Nat → Nat → Nat → Res (Nat × Nat)
  | [], b, e => .ok (b, e)
  | c :: cs, b, e =>
    if b < e then do
      let (b, e) ← rangeStep fm c b e
      rangeLoop fm cs b e
    else .ok (b, e)

/-- Lines 202-219. -/
def searchKey (fm : FM) (key : List Nat) : Res (Option (Nat × Nat)) := do
  let (b, e) ← rangeLoop fm key.reverse 0 fm.wm.size
  return if b < e then some (b, e) else none

/-- `getRange` (fmindex.hpp:185-220); `none` is `false`.  `Int` is taken wide enough. -/
def getRange (raw : Bool) (tb : Nat) (fm : FM) (key : List Nat) : Res (Option (Nat × Nat)) :=
  if key.isEmpty then .ok none
  else if raw then searchKey fm key
  else do
    match ← cvtKey tb fm.freq key with
    | none => return none
    | some k => searchKey fm k

/-- Lines 231-232: the last-to-first step; returns the character and the next row. -/
def lfStep (fm : FM) (row : Nat) : Res (Nat × Nat) := do
  let (c, r) ← Verif.WaveletC.get2 fm.wm row
  let n ← at? fm.cf c
  return (c, r + n)

/-- The loop of `convertPosition` (fmindex.hpp:229-235), cut off (as `ub`) after `fuel` steps. -/
def convLoop (fm : FM) : (fuel row t : Nat) → Res Nat
  | 0, _, _ => .ub
  | fuel + 1, row, t => do
    if ← CV.get fm.alignedPos row then do
      let r ← CV.rank1 fm.alignedPos row
      let p ← at? fm.alignedSa r
      return t + p
    else do
      let (_, row) ← lfStep fm row
      convLoop fm fuel row (t + 1)

/-- `convertPosition` (fmindex.hpp:226-236). -/
def convertPosition (fm : FM) (fuel row : Nat) : Res Nat := convLoop fm fuel row 0

/-- The character stored into the result (fmindex.hpp:254). -/
def prevChar (raw : Bool) (fm : FM) (c : Nat) : Res Nat :=
  if raw then .ok c else fm.freq.getElement (c - 1)

/-- The loop of `getPrevString` (fmindex.hpp:246-255).  `acc` is `str[len..]`, the part already written;
erasing the unwritten part leaves it. -/
def prevLoop (raw : Bool) (fm : FM) : (len row : Nat) → List Nat → Res (List Nat)
  | 0, _, acc => .ok acc
  | len + 1, row, acc => do
    let (c, row) ← lfStep fm row
    if c = 0 then return acc
    else do
      let x ← prevChar raw fm c
      prevLoop raw fm len row (x :: acc)

/-- `getPrevString` (fmindex.hpp:241-256). -/
def getPrevString (raw : Bool) (fm : FM) (row len : Nat) : Res (List Nat) := prevLoop raw fm len row []

end Verif.FMindexC
