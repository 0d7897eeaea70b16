import Verif.Model.Frequency

/-!
# Model of copying, moving and destroying `Frequency` objects (`include/cybozu/frequency.hpp`)

`Frequency<Element, Int>` has no copy constructor, assignment operator or destructor of its own, so the compiler makes them member by member
(frequency.hpp:161-162).  `idx2ref_` holds iterators into `m_`; a copy of the vector holds iterators into the map of the source.
Maps are objects with a lifetime.  An iterator is a map, the generation of the map when it was made, and a key.  The generation changes
when the standard says that all iterators into the map become invalid: `clear`, assignment and an insertion that rehashes.
-/
namespace Verif.FreqCopy
open Verif.Frequency (Ent bump find FG.readyLoop)

/-- A hash map object. -/
structure MapObj where
  m : List Ent
  gen : Nat

/-- An iterator into a map. -/
structure Ref where
  map : Nat
  gen : Nat
  key : Nat
  deriving DecidableEq

/-- `Frequency` (frequency.hpp:161-162): which map is its `m_`, and `idx2ref_`. -/
structure Obj where
  map : Nat
  refs : List Ref

/-- All maps, all `Frequency` objects by name, and the next map that is new. -/
structure St where
  heap : Nat → Option MapObj
  objs : Nat → Option Obj
  next : Nat

/-- What a program does.  `re` says whether the insertion rehashes, `order` is what the sort of frequency.hpp:170 produced. -/
inductive Op where
  | create (i : Nat)
  | append (i e : Nat) (re : Bool)
  | ready (i : Nat) (order : List Nat)
  | clear (i : Nat)
  | destroy (i : Nat)
  | copy (i j : Nat)
  | assign (i j : Nat)
  | move (i j : Nat)

/-- A function with one value replaced. -/
def upd {α : Type} (f : Nat → α) (i : Nat) (x : α) : Nat → α := fun k => if k = i then x else f k

/-- `m_` of object `i`. -/
def mapOf (st : St) (i : Nat) : Res (Obj × MapObj) :=
  match st.objs i with
  | none => .ub
  | some x => match st.heap x.map with
    | none => .ub
    | some o => .ok (x, o)

/-- `Frequency()` (frequency.hpp:173): object `i` must not exist yet. -/
def create (st : St) (i : Nat) : Res St :=
  match st.objs i with
  | some _ => .ub
  | none => .ok ⟨upd st.heap st.next (some ⟨[], 0⟩), upd st.objs i (some ⟨st.next, []⟩), st.next + 1⟩

/-- `append` (frequency.hpp:194-197). -/
def append (iw : Nat) (st : St) (i e : Nat) (re : Bool) : Res St := do
  let p ← mapOf st i
  let gen := if (find p.2.m e).isNone && re then p.2.gen + 1 else p.2.gen
  return { st with heap := upd st.heap p.1.map (some ⟨bump iw e p.2.m, gen⟩) }

/-- `ready` (frequency.hpp:198-204) with `initIdx2Ref` (163-171). -/
def ready (iw : Nat) (st : St) (i : Nat) (order : List Nat) : Res St := do
  let p ← mapOf st i
  let refs := order.map fun k => (⟨p.1.map, p.2.gen, k⟩ : Ref)
  return { st with heap := upd st.heap p.1.map (some ⟨FG.readyLoop iw order 0 p.2.m, p.2.gen⟩), objs := upd st.objs i (some ⟨p.1.map, refs⟩) }

/-- `clear` (frequency.hpp:180-184). -/
def clear (st : St) (i : Nat) : Res St := do
  let p ← mapOf st i
  return { st with heap := upd st.heap p.1.map (some ⟨[], p.2.gen + 1⟩), objs := upd st.objs i (some ⟨p.1.map, []⟩) }

/-- The destructor the compiler makes. -/
def destroy (st : St) (i : Nat) : Res St := do
  let p ← mapOf st i
  return { st with heap := upd st.heap p.1.map none, objs := upd st.objs i none }

/-- The copy constructor the compiler makes: a new map with the same entries, and the same iterators. -/
def copy (st : St) (i j : Nat) : Res St := do
  let p ← mapOf st i
  match st.objs j with
  | some _ => .ub
  | none => .ok ⟨upd st.heap st.next (some ⟨p.2.m, 0⟩), upd st.objs j (some ⟨st.next, p.1.refs⟩), st.next + 1⟩

/-- The assignment `j = i` the compiler makes. -/
def assign (st : St) (i j : Nat) : Res St := do
  let p ← mapOf st i
  let q ← mapOf st j
  if i = j then pure st
  else pure { st with heap := upd st.heap q.1.map (some ⟨p.2.m, q.2.gen + 1⟩), objs := upd st.objs j (some ⟨q.1.map, p.1.refs⟩) }

/-- The move constructor the compiler makes: the nodes and the iterators go over to the new object, the old one is empty. -/
def move (st : St) (i j : Nat) : Res St := do
  let p ← mapOf st i
  match st.objs j with
  | some _ => .ub
  | none => .ok ⟨upd st.heap st.next (some ⟨[], 0⟩), upd (upd st.objs j (some p.1)) i (some ⟨st.next, []⟩), st.next + 1⟩

/-- One step of a program. -/
def step (iw : Nat) (st : St) : Op → Res St
  | .create i => create st i
  | .append i e re => append iw st i e re
  | .ready i order => ready iw st i order
  | .clear i => clear st i
  | .destroy i => destroy st i
  | .copy i j => copy st i j
  | .assign i j => assign st i j
  | .move i j => move st i j

/-- A program. -/
def run (iw : Nat) : St → List Op → Res St
  | st, [] => .ok st
  | st, op :: ops => do
    let st ← step iw st op
    run iw st ops

/-- `*it`: undefined if the map is gone, the iterator invalid or the element gone. -/
def deref (heap : Nat → Option MapObj) (r : Ref) : Res Ent :=
  match heap r.map with
  | none => .ub
  | some o => if o.gen = r.gen then (match find o.m r.key with | none => .ub | some e => .ok e) else .ub

/-- `getElement` (frequency.hpp:225-229). -/
def getElement (st : St) (i idx : Nat) : Res Nat :=
  match st.objs i with
  | none => .ub
  | some x => match x.refs[idx]? with
    | none => .throw
    | some r => do
      let e ← deref st.heap r
      return e.key

/-- `getIndex` (frequency.hpp:216-221). -/
def getIndex (st : St) (i e : Nat) : Res Nat := do
  let p ← mapOf st i
  match find p.2.m e with
  | none => .throw
  | some x => .ok x.idx

/-- `getFrequency` (frequency.hpp:208-212). -/
def getFrequency (st : St) (i e : Nat) : Res Nat := do
  let p ← mapOf st i
  match find p.2.m e with
  | none => .ok 0
  | some x => .ok x.freq

/-- `size` (frequency.hpp:230). -/
def size (st : St) (i : Nat) : Res Nat :=
  match st.objs i with
  | none => .ub
  | some x => .ok x.refs.length

end Verif.FreqCopy
