import Verif.Model.IndexIO
import Verif.Model.Sais

/-!
# Model of sample/fmindex_smpl.cpp (without `USE_UTF32`)

Bytes are numbers below 256.  The files are their contents; opening them is not modelled.  What a search prints is given as
the list of its queries with the positions found for each: the lines of `putSet` and the hash are functions of this.  Not
modelled: the arguments, the times.
-/
namespace Verif.FmSample
open Verif.Frequency (FV)
open Verif.FMindex (FM)

/-- What `>>` takes for white space. -/
def isSpace (c : Nat) : Bool := c == 32 || (9 ≤ c && c ≤ 13)

/-- The keys of `while (qs >> key)` (fmindex_smpl.cpp:39, 91); `cur` is the word being read, reversed. -/
def words : (cur : List Nat) → List Nat → List (List Nat)
  | cur, [] => if cur.isEmpty then [] else [cur.reverse]
  | cur, c :: s =>
    if isSpace c then
      if cur.isEmpty then words [] s else cur.reverse :: words [] s
    else words (c :: cur) s

/-- `set.insert` of a `std::set<int>`, given as its elements in their order. -/
def setInsert (x : Int) : List Int → List Int
  | [] => [x]
  | y :: s => if x < y then x :: y :: s else if x = y then y :: s else y :: setInsert x s

/-- `text.find(key, p)`; `none` is `npos`. -/
def findFrom (text key : List Nat) (p : Nat) : Option Nat :=
  (List.range' p (text.length + 1 - p)).find? fun q => key.isPrefixOf (text.drop q)

/-- The loop of `simpleSearch` (fmindex_smpl.cpp:43-48), cut off (as `ub`) after `fuel` steps. -/
def simpleLoop (text key : List Nat) : (fuel p : Nat) → List Int → Res (List Int)
  | 0, _, _ => .ub
  | fuel + 1, p, set =>
    match findFrom text key p with
    | none => .ok set
    | some q => simpleLoop text key fuel (q + 1) (setInsert (Verif.Sais.toInt q) set)

/-- The loop over the keys (fmindex_smpl.cpp:39-54, 91-114). -/
def forKeys (find : List Nat → Res (List Int)) : List (List Nat) → Res (List (List Nat × List Int))
  | [] => .ok []
  | key :: ks => do
    let set ← find key
    let out ← forKeys find ks
    return (key, set) :: out

/-- `simpleSearch` (fmindex_smpl.cpp:28-59); at most one step per position and one more are needed. -/
def simpleSearch (text queries : List Nat) : Res (List (List Nat × List Int)) :=
  forKeys (fun key => simpleLoop text key (text.length + 2) 0 []) (words [] queries)

/-- `f.init` (fmindex_smpl.cpp:133) and `f.save` (138) on a new object: the bytes of the index file.  `a`, `b` are the index
tables of the new `Frequency`, `order` is what its sort made, `alloc` and `g` are the memory of the suffix sorter. -/
def create (a b order : List Nat) (alloc : Nat → Nat → Bool) (g : Verif.Sais.Arr) (text : List Nat) (skip : Int) :
    Res (List UInt8) := do
  let st ← FV.init 32 (FV.clear a b) text order
  let f ← Verif.FMindex.init false 8 (Verif.FMindex.empty (Verif.FMindex.ofFV (FV.clear a b))) (Verif.FMindex.ofFV st)
    (Verif.Sais.sorter alloc g (st.size + 1)) text skip
  Verif.IndexIO.saveFM false f (Verif.IndexIO.saveFV st)

/-- `f.load` on a new object (fmindex_smpl.cpp:65-66, 81-82). -/
def loadIndex (a b : List Nat) (file : Verif.Stream.Src) : Res FM := do
  let (f, _) ← Verif.IndexIO.loadFM false 8 Verif.IndexIO.loadFV' (Verif.FMindex.empty (Verif.FMindex.ofFV (FV.clear a b))) file
  return f

/-- The loop over the rows (fmindex_smpl.cpp:99-105), `cnt` of them; `fuel` bounds the steps of `convertPosition`. -/
def rowLoop (f : FM) (fuel : Nat) : (cnt row : Nat) → List Int → Res (List Int)
  | 0, _, set => .ok set
  | cnt + 1, row, set => do
    let p ← Verif.FMindex.convertPosition f fuel row
    rowLoop f fuel cnt (row + 1) (setInsert (Verif.Sais.toInt p) set)

/-- The rows of an answer of `getRange` (fmindex_smpl.cpp:97-106). -/
def rowsOf (f : FM) (fuel : Nat) : Option (Nat × Nat) → Res (List Int)
  | none => .ok []
  | some (b, e) => rowLoop f fuel (e - b) b []

/-- The positions of one key (fmindex_smpl.cpp:93-106). -/
def findKey (f : FM) (fuel : Nat) (key : List Nat) : Res (List Int) := do
  let r ← Verif.FMindex.getRange false 8 f key
  rowsOf f fuel r

/-- `search` (fmindex_smpl.cpp:78-122). -/
def search (a b : List Nat) (fuel : Nat) (file : Verif.Stream.Src) (queries : List Nat) : Res (List (List Nat × List Int)) := do
  let f ← loadIndex a b file
  forKeys (findKey f fuel) (words [] queries)

/-- `recover` (fmindex_smpl.cpp:61-76): the bytes of the output file.  For an index of size 0 the length wraps around and
`str.resize` throws. -/
def recover (a b : List Nat) (file : Verif.Stream.Src) : Res (List Nat) := do
  let f ← loadIndex a b file
  if f.wm.size = 0 then .throw
  else Verif.FMindex.getPrevString false f 0 (f.wm.size - 1)

end Verif.FmSample
