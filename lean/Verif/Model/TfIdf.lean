import Verif.Model.Common
import Verif.Model.StringOp

/-!
# Model of the counting part of `include/cybozu/nlp/tfidf.hpp`

Words are lists of `char` values.  A `std::map` is a list of pairs with different keys (in the order of
insertion; the order of iteration is not used by the functions here), a `std::set` a list of different
elements.  `int` counters do not overflow here.
-/
namespace Verif.TfIdf

open Verif.StringOp (tolower)

abbrev Word := List Int

/-- `cybozu::ToLower(lower, word)` (string_operation.hpp:126-132, 171-175). -/
def lower (w : Word) : Word := w.map tolower

/-- `map.find(key)`. -/
def find (m : List (Word × Nat)) (w : Word) : Option Nat := (m.find? (fun p => p.1 = w)).map (·.2)

/-- `std::set::insert`: the set and whether the element is new. -/
def setInsert (s : List Word) (w : Word) : List Word × Bool := if w ∈ s then (s, false) else (s ++ [w], true)

/-- `v[i]++`. -/
def inc (v : List Nat) (i : Nat) : Res (List Nat) := do
  let x ← at? v i
  return v.set i (x + 1)

/-- `Df` (tfidf.hpp:57-61) without `pv_`. -/
structure Df where
  docNum : Nat
  word2id : List (Word × Nat)
  id2word : List Word
  df : List Nat
  set : List Word

/-- `Df::Df` (tfidf.hpp:63-66). -/
def Df.new : Df := ⟨0, [], [], [], []⟩

/-- The first part of `Df::append` (tfidf.hpp:71-76): the object and the id of the word. -/
def Df.idOf (d : Df) (l : Word) : Df × Nat :=
  match find d.word2id l with
  | some i => (d, i)
  | none =>
    ({ d with word2id := d.word2id ++ [(l, d.id2word.length)], id2word := d.id2word ++ [l],
              df := d.df ++ List.replicate (d.id2word.length + 1 - d.df.length) 0 }, d.id2word.length)

/-- The second part (tfidf.hpp:77-79): `word` as it was given is put into the set. -/
def Df.count (d : Df) (word : Word) (id : Nat) : Res Df :=
  let (s, new) := setInsert d.set word
  if new then do
    let df ← inc d.df id
    return { d with set := s, df := df }
  else .ok d

/-- `Df::append` (tfidf.hpp:67-80). -/
def Df.append (d : Df) (word : Word) : Res Df :=
  let (d, id) := d.idOf (lower word)
  d.count word id

/-- `Df::endDoc` (tfidf.hpp:81-85). -/
def Df.endDoc (d : Df) : Df := { d with docNum := d.docNum + 1, set := [] }

/-- The calls. -/
inductive Ev where
  | append (w : Word)
  | endDoc
deriving DecidableEq, Repr

/-- A history. -/
def Df.run : List Ev → Df → Res Df
  | [], d => .ok d
  | .append w :: es, d => do
    let d ← d.append w
    Df.run es d
  | .endDoc :: es, d => Df.run es d.endDoc

/-- `TfIdf` (tfidf.hpp:114-124) without the results of `term`; `open` says whether `curTf_` is not null
(it then points to the last element of `tf_`). -/
structure TfIdf where
  word2id : List (Word × Nat)
  id2word : List Word
  df : List Nat
  tf : List (List (Nat × Nat))
  «open» : Bool
  set : List Word

/-- The loop of `loadKeywordFile` (tfidf.hpp:135-145) on the keywords of the file (the part of each line
before the tab). -/
def loadLoop : List Word → List (Word × Nat) → List Word → List (Word × Nat) × List Word
  | [], m, v => (m, v)
  | w :: ws, m, v =>
    match find m w with
    | some _ => loadLoop ws m v
    | none => loadLoop ws (m ++ [(w, v.length)]) (v ++ [w])

/-- A new object (tfidf.hpp:126-129) with the keywords of a file (tfidf.hpp:130-149). -/
def TfIdf.load (keys : List Word) : TfIdf :=
  let (m, v) := loadLoop keys [] []
  ⟨m, v, List.replicate v.length 0, [], false, []⟩

/-- `(*curTf_)[id]++` on a map of counts. -/
def incMap : List (Nat × Nat) → Nat → List (Nat × Nat)
  | [], id => [(id, 1)]
  | p :: m, id => if p.1 = id then (p.1, p.2 + 1) :: m else p :: incMap m id

/-- tfidf.hpp:158-162. -/
def TfIdf.countTf (t : TfIdf) (id : Nat) : List (List (Nat × Nat)) :=
  if t.open then t.tf.dropLast ++ (t.tf.getLast?.map (fun m => incMap m id)).toList else t.tf ++ [incMap [] id]

/-- tfidf.hpp:163-165. -/
def TfIdf.countDf (t : TfIdf) (l : Word) (id : Nat) : Res TfIdf :=
  let (s, new) := setInsert t.set l
  if new then do
    let df ← inc t.df id
    return { t with set := s, df := df }
  else .ok t

/-- `TfIdf::append` (tfidf.hpp:151-166). -/
def TfIdf.append (t : TfIdf) (word : Word) : Res TfIdf :=
  match find t.word2id (lower word) with
  | none => .ok t
  | some id => TfIdf.countDf { t with tf := t.countTf id, «open» := true } (lower word) id

/-- `TfIdf::endDoc` (tfidf.hpp:167-171). -/
def TfIdf.endDoc (t : TfIdf) : TfIdf := { t with «open» := false, set := [] }

/-- A history. -/
def TfIdf.run : List Ev → TfIdf → Res TfIdf
  | [], t => .ok t
  | .append w :: es, t => do
    let t ← t.append w
    TfIdf.run es t
  | .endDoc :: es, t => TfIdf.run es t.endDoc

/-- The second loop of `TfIdf::term` (tfidf.hpp:190-197): the documents whose vectors are put into `sv_`
(the values, which are doubles, are not modelled); `n` rounds left, from `i`. -/
def termLoop (tf : List (List (Nat × Nat))) : (n i : Nat) → Res (List (List (Nat × Nat)))
  | 0, _ => .ok []
  | n + 1, i => do
    let iv ← at? tf i
    let r ← termLoop tf n (i + 1)
    return iv :: r

/-- The documents of `sv_` after `term`: the bound is the number of words. -/
def TfIdf.termDocs (t : TfIdf) : Res (List (List (Nat × Nat))) := termLoop t.tf t.df.length 0

end Verif.TfIdf
