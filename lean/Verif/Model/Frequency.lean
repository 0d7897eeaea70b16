import Verif.Model.BitVector

/-!
# Model of `include/cybozu/frequency.hpp`

`FV` is `freq_local::FrequencyVec<Element, Int>` for a one-byte `Element`, the base of
`Frequency<uint8_t, Int>` and `Frequency<char, Int>`.  `FG` is the general `Frequency<Element, Int>`.
Elements are `Nat`; for `FV` they are the values of `uint8_t(e)`, below 256.  `iw` is the number of bits
of `Int` (unsigned).  What `std::sort` makes of equal elements is not determined, so `ready` takes the
order it produced as an argument; `SortOutcome` says which orders are possible.
`save` and `load` are in Model/IndexIO; `put` is not modelled.
-/
namespace Verif.Frequency
open Verif.BitVector (setAt?)

/-- The members of `FrequencyVec` (frequency.hpp:24-28). -/
structure FV where
  size : Nat
  freqTbl : List Nat
  char2idx : List Nat
  idx2char : List Nat
  deriving DecidableEq, Repr

/-- `clear` (frequency.hpp:52-56); the two index tables keep whatever they held. -/
def FV.clear (c2i i2c : List Nat) : FV := ⟨0, List.replicate 256 0, c2i, i2c⟩

/-- `append` (frequency.hpp:66-69). -/
def FV.append (iw : Nat) (st : FV) (e : Nat) : Res FV := do
  let n ← at? st.freqTbl e
  let t ← setAt? st.freqTbl e ((n + 1) % 2 ^ iw)
  return { st with freqTbl := t }

/-- The loop of `init` (frequency.hpp:60-63). -/
def FV.appendAll (iw : Nat) : List Nat → FV → Res FV
  | [], st => .ok st
  | e :: es, st => do
    let st ← st.append iw e
    FV.appendAll iw es st

/-- Possible results of `std::sort` on `keys` with the comparison "`freq` is greater"
(frequency.hpp:72-74, with `Greater` of 29-40). -/
structure SortOutcome (freq : Nat → Nat) (keys order : List Nat) : Prop where
  perm : order.Perm keys
  sorted : order.Pairwise fun a b => ¬ freq a < freq b

/-- The loop of `ready` (frequency.hpp:76-80), on `idx2char_[i..]`. -/
def FV.readyLoop (freqTbl : List Nat) : List Nat → (i size : Nat) → List Nat → Res (Nat × List Nat)
  | [], _, size, c2i => .ok (size, c2i)
  | c :: cs, i, size, c2i => do
    let c2i ← setAt? c2i c (i % 256)
    let f ← at? freqTbl c
    FV.readyLoop freqTbl cs (i + 1) (if f ≠ 0 then size + 1 else size) c2i

/-- `ready` (frequency.hpp:70-81) when the sort of line 74 produced `order`. -/
def FV.ready (st : FV) (order : List Nat) : Res FV := do
  let (size, c2i) ← FV.readyLoop st.freqTbl order 0 0 st.char2idx
  return ⟨size, st.freqTbl, c2i, order⟩

/-- `init` (frequency.hpp:57-65). -/
def FV.init (iw : Nat) (st : FV) (l order : List Nat) : Res FV := do
  let st ← FV.appendAll iw l st
  st.ready order

/-- `getFrequency` (frequency.hpp:85). -/
def FV.getFrequency (st : FV) (e : Nat) : Res Nat := at? st.freqTbl e

/-- `getIndex` (frequency.hpp:89). -/
def FV.getIndex (st : FV) (e : Nat) : Res Nat := at? st.char2idx e

/-- `getElement` (frequency.hpp:93-98). -/
def FV.getElement (st : FV) (idx : Nat) : Res Nat := at? st.idx2char idx

/-- An entry of the map of `Frequency` (frequency.hpp:133-149). -/
structure Ent where
  key : Nat
  freq : Nat
  idx : Nat
  deriving DecidableEq, Repr

/-- `Frequency` (frequency.hpp:132-162).  The hash map is a list of entries with different keys, in its
iteration order; `idx2ref` holds the keys the iterators point to. -/
structure FG where
  m : List Ent
  idx2ref : List Nat
  deriving DecidableEq, Repr

/-- `clear` (frequency.hpp:180-184). -/
def FG.clear : FG := ⟨[], []⟩

/-- `m_[e].freq++` (frequency.hpp:196): a missing entry is inserted with zeros.  Where a hash map puts it
is not determined; here at the end. -/
def bump (iw e : Nat) : List Ent → List Ent
  | [] => [⟨e, 1 % 2 ^ iw, 0⟩]
  | x :: xs => if x.key = e then { x with freq := (x.freq + 1) % 2 ^ iw } :: xs else x :: bump iw e xs

/-- `append` (frequency.hpp:194-197). -/
def FG.append (iw : Nat) (st : FG) (e : Nat) : FG := { st with m := bump iw e st.m }

/-- `m_.find(e)`. -/
def find (m : List Ent) (e : Nat) : Option Ent := m.find? fun x => x.key == e

/-- The frequency `greater` compares (frequency.hpp:153-160). -/
def freqOf (m : List Ent) (e : Nat) : Nat := match find m e with
  | some x => x.freq
  | none => 0

/-- `greater` (frequency.hpp:153-160). -/
def greater (m : List Ent) (a b : Nat) : Prop :=
  freqOf m b < freqOf m a ∨ freqOf m a = freqOf m b ∧ b < a

/-- Possible results of the sort of frequency.hpp:170. -/
structure SortOutcomeG (m : List Ent) (order : List Nat) : Prop where
  perm : order.Perm (m.map Ent.key)
  sorted : order.Pairwise fun a b => ¬ greater m b a

/-- `idx2ref_[i]->second.idx = (Int)i` (frequency.hpp:202). -/
def setIdx (e i : Nat) : List Ent → List Ent
  | [] => []
  | x :: xs => if x.key = e then { x with idx := i } :: xs else x :: setIdx e i xs

/-- The loop of `ready` (frequency.hpp:201-203). -/
def FG.readyLoop (iw : Nat) : List Nat → Nat → List Ent → List Ent
  | [], _, m => m
  | e :: es, i, m => FG.readyLoop iw es (i + 1) (setIdx e (i % 2 ^ iw) m)

/-- `ready` (frequency.hpp:198-204) when the sort produced `order`. -/
def FG.ready (iw : Nat) (st : FG) (order : List Nat) : FG :=
  ⟨FG.readyLoop iw order 0 st.m, order⟩

/-- The loop of `init` (frequency.hpp:188-191). -/
def FG.appendAll (iw : Nat) (st : FG) (l : List Nat) : FG := l.foldl (fun s e => s.append iw e) st

/-- `init` (frequency.hpp:185-193). -/
def FG.init (iw : Nat) (st : FG) (l order : List Nat) : FG := (st.appendAll iw l).ready iw order

/-- `getFrequency` (frequency.hpp:208-212). -/
def FG.getFrequency (st : FG) (e : Nat) : Nat := freqOf st.m e

/-- `getIndex` (frequency.hpp:216-221). -/
def FG.getIndex (st : FG) (e : Nat) : Res Nat := match find st.m e with
  | some x => .ok x.idx
  | none => .throw

/-- `getElement` (frequency.hpp:225-229). -/
def FG.getElement (st : FG) (idx : Nat) : Res Nat := match st.idx2ref[idx]? with
  | some e => .ok e
  | none => .throw

/-- `size` (frequency.hpp:230). -/
def FG.size (st : FG) : Nat := st.idx2ref.length

end Verif.Frequency
