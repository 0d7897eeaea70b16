import Verif.Model.TfIdf

/-!
# Model of copying and destroying `TfIdf` objects (`include/cybozu/nlp/tfidf.hpp`)

`TfIdf` has no copy constructor, assignment operator or destructor of its own, so the compiler makes them member by member (tfidf.hpp:113-129).
`curTf_` is a pointer to an element of `tf_`.  The elements of a vector live in a buffer; a pointer is a buffer and a position.  The results of
`term` and moves are left out.
-/
namespace Verif.TfIdfCopy
open Verif.TfIdf (Word lower find setInsert inc incMap loadLoop)

/-- `TfIdf` (tfidf.hpp:114-124): `buf` is the buffer of `tf_`, `cur` is `curTf_`. -/
structure Obj where
  word2id : List (Word × Nat)
  id2word : List Word
  df : List Nat
  buf : Nat
  cur : Option (Nat × Nat)
  set : List Word

/-- All buffers, all objects by name, and the next buffer that is new. -/
structure St where
  heap : Nat → Option (List (List (Nat × Nat)))
  objs : Nat → Option Obj
  next : Nat

/-- What a program does.  `re` says whether the vector takes a new buffer. -/
inductive Op where
  | create (i : Nat) (keys : List Word)
  | append (i : Nat) (w : Word) (re : Bool)
  | endDoc (i : Nat)
  | copy (i j : Nat)
  | assign (i j : Nat) (re : Bool)
  | destroy (i : Nat)

/-- A function with one value replaced. -/
def upd {α : Type} (f : Nat → α) (i : Nat) (x : α) : Nat → α := fun k => if k = i then x else f k

/-- A new object (tfidf.hpp:126-129) that reads its keywords (tfidf.hpp:130-149). -/
def create (st : St) (i : Nat) (keys : List Word) : Res St :=
  match st.objs i with
  | some _ => .ub
  | none =>
    let r := loadLoop keys [] []
    .ok ⟨upd st.heap st.next (some []), upd st.objs i (some ⟨r.1, r.2, List.replicate r.2.length 0, st.next, none, []⟩), st.next + 1⟩

/-- tfidf.hpp:158-161: the state and the pointer.  A new buffer means that the old one is gone. -/
def openDoc (st : St) (i : Nat) (x : Obj) (re : Bool) : Res (St × (Nat × Nat)) :=
  match x.cur with
  | some p => .ok (st, p)
  | none =>
    match st.heap x.buf with
    | none => .ub
    | some l =>
      let b := if re then st.next else x.buf
      let h := if re then upd st.heap x.buf none else st.heap
      .ok (⟨upd h b (some (l ++ [[]])), upd st.objs i (some { x with buf := b, cur := some (b, l.length) }),
        if re then st.next + 1 else st.next⟩, (b, l.length))

/-- `(*curTf_)[id]++` (tfidf.hpp:162): undefined if the map is gone. -/
def countTf (st : St) (p : Nat × Nat) (id : Nat) : Res St :=
  match st.heap p.1 with
  | none => .ub
  | some l => do
    let m ← at? l p.2
    return { st with heap := upd st.heap p.1 (some (l.set p.2 (incMap m id))) }

/-- tfidf.hpp:163-165. -/
def countDf (st : St) (i : Nat) (w : Word) (id : Nat) : Res St :=
  match st.objs i with
  | none => .ub
  | some x =>
    let r := setInsert x.set w
    if r.2 then do
      let df ← inc x.df id
      return { st with objs := upd st.objs i (some { x with set := r.1, df := df }) }
    else .ok st

/-- `append` (tfidf.hpp:151-166). -/
def append (st : St) (i : Nat) (w : Word) (re : Bool) : Res St :=
  match st.objs i with
  | none => .ub
  | some x =>
    match find x.word2id (lower w) with
    | none => .ok st
    | some id => do
      let r ← openDoc st i x re
      let st ← countTf r.1 r.2 id
      countDf st i (lower w) id

/-- `endDoc` (tfidf.hpp:167-171). -/
def endDoc (st : St) (i : Nat) : Res St :=
  match st.objs i with
  | none => .ub
  | some x => .ok { st with objs := upd st.objs i (some { x with cur := none, set := [] }) }

/-- The copy constructor the compiler makes: a new buffer with the same elements, and the same pointer. -/
def copy (st : St) (i j : Nat) : Res St :=
  match st.objs i, st.objs j with
  | some x, none =>
    match st.heap x.buf with
    | none => .ub
    | some l => .ok ⟨upd st.heap st.next (some l), upd st.objs j (some { x with buf := st.next }), st.next + 1⟩
  | _, _ => .ub

/-- The assignment `j = i` the compiler makes: the elements go into the old buffer or into a new one. -/
def assign (st : St) (i j : Nat) (re : Bool) : Res St :=
  match st.objs i, st.objs j with
  | some x, some y =>
    if i = j then .ok st
    else match st.heap x.buf with
      | none => .ub
      | some l =>
        let b := if re then st.next else y.buf
        let h := if re then upd st.heap y.buf none else st.heap
        .ok ⟨upd h b (some l), upd st.objs j (some { x with buf := b }), if re then st.next + 1 else st.next⟩
  | _, _ => .ub

/-- The destructor the compiler makes. -/
def destroy (st : St) (i : Nat) : Res St :=
  match st.objs i with
  | none => .ub
  | some x => .ok { st with heap := upd st.heap x.buf none, objs := upd st.objs i none }

/-- One step of a program. -/
def step (st : St) : Op → Res St
  | .create i keys => create st i keys
  | .append i w re => append st i w re
  | .endDoc i => endDoc st i
  | .copy i j => copy st i j
  | .assign i j re => assign st i j re
  | .destroy i => destroy st i

/-- A program. -/
def run : St → List Op → Res St
  | st, [] => .ok st
  | st, op :: ops => do
    let st ← step st op
    run st ops

/-- Before the program. -/
def empty : St := ⟨fun _ => none, fun _ => none, 0⟩

/-- What is seen of object `i`: its members, with the elements of `tf_`. -/
def view (st : St) (i : Nat) : Option TfIdf.TfIdf :=
  match st.objs i with
  | none => none
  | some x => match st.heap x.buf with
    | none => none
    | some l => some ⟨x.word2id, x.id2word, x.df, l, x.cur.isSome, x.set⟩

end Verif.TfIdfCopy
