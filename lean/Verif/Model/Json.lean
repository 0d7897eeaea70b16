import Verif.Model.Common
/-!
# Model of the JSON value (include/cybozu/json.hpp)

A `Json::Value` is a tag and a pointer to memory it owns, or a number or a truth value.  Memory is
a table from addresses to cells; an address is never used twice, an access to a cell that is not
there (freed or never allocated) is undefined behaviour.  `new` may fail: `quota` is the number of
allocations that still succeed.

A cell is a `std::string`, or the elements of a `std::vector<Value>` or `std::map<std::string,
Value>` with their keys (the elements of a vector have an empty key).  One cell stands for all
memory the container allocates itself.  A vector that grows copies its elements and deletes the old
ones; the model keeps them.

Not modelled: the getters' `assert`, reading `ptn_` as a whole where only part of it is written.
-/
namespace Verif.Json

/-- A value without memory of its own: `T_Null`, `T_Number` (the bits of the double), `T_Bool`. -/
inductive Leaf where
  | null
  | num (bits : UInt64)
  | bool (b : Bool)
deriving DecidableEq

/-- `T_Object` or `T_Array`. -/
inductive Kind where
  | object
  | array
deriving DecidableEq

/-- `Json::Value` (json.hpp:27-36): the tag and the union. -/
inductive Val where
  | leaf (l : Leaf)
  | str (a : Nat)
  | node (k : Kind) (a : Nat)
deriving DecidableEq

/-- What is behind a pointer. -/
inductive Cell where
  | str (s : String)
  | node (c : List (String × Val))
deriving DecidableEq

/-- Memory. -/
structure Heap where
  cell : Nat → Option Cell
  next : Nat
  quota : Nat

/-- The end of a call: normally, by an exception, or undefined behaviour. -/
inductive Out (α : Type) where
  | ok (a : α) (h : Heap)
  | thr (h : Heap)
  | ub

/-- `m[a] = c` -/
def put (m : Nat → Option Cell) (a : Nat) (c : Option Cell) : Nat → Option Cell :=
  fun b => if b = a then c else m b

/-- An allocation that is given back with the container it belongs to (a map node, a key). -/
def tick (h : Heap) : Option Heap := if h.quota = 0 then none else some { h with quota := h.quota - 1 }

/-- `new`. -/
def alloc (h : Heap) (c : Cell) : Out Nat :=
  if h.quota = 0 then .thr h
  else .ok h.next ⟨put h.cell h.next (some c), h.next + 1, h.quota - 1⟩

/-- `~Value` (json.hpp:38-45): `fuel` bounds the depth. -/
def destroyV : (fuel : Nat) → Heap → Val → Option Heap
  | _, h, .leaf _ => some h
  | _, h, .str a =>
    match h.cell a with
    | some (.str _) => some { h with cell := put h.cell a none }
    | _ => none
  | 0, _, .node _ _ => none
  | fuel + 1, h, .node _ a =>
    match h.cell a with
    | some (.node c) => do
      let h ← c.foldlM (fun h e => destroyV fuel h e.2) h
      some { h with cell := put h.cell a none }
    | _ => none

/-- The copy constructor of `std::vector` and `std::map`: element by element; if one of the copies
fails, those made are destroyed (the order is not visible). -/
def copyL (cp : Heap → Val → Out Val) (del : Heap → Val → Option Heap) :
    Heap → List (String × Val) → Out (List (String × Val))
  | h, [] => .ok [] h
  | h, e :: r =>
    match tick h with
    | none => .thr h
    | some h =>
      match cp h e.2 with
      | .ok v h =>
        match copyL cp del h r with
        | .ok vs h => .ok ((e.1, v) :: vs) h
        | .thr h =>
          match del h v with
          | some h => .thr h
          | none => .ub
        | .ub => .ub
      | .thr h => .thr h
      | .ub => .ub

/-- `Value(const Value&)` (json.hpp:81-92): if the constructor of the object made by `new` throws,
its memory is given back. -/
def copyV : (fuel : Nat) → Heap → Val → Out Val
  | _, h, .leaf l => .ok (.leaf l) h
  | _, h, .str a =>
    match h.cell a with
    | some (.str s) =>
      match alloc h (.str s) with
      | .ok b h => .ok (.str b) h
      | .thr h => .thr h
      | .ub => .ub
    | _ => .ub
  | 0, _, .node _ _ => .ub
  | fuel + 1, h, .node k a =>
    match h.cell a with
    | some (.node c) =>
      match alloc h (.node []) with
      | .ok b h =>
        match copyL (copyV fuel) (destroyV fuel) h c with
        | .ok vs h => .ok (.node k b) { h with cell := put h.cell b (some (.node vs)) }
        | .thr h => .thr { h with cell := put h.cell b none }
        | .ub => .ub
      | .thr h => .thr h
      | .ub => .ub
    | _ => .ub

/-- A program's state: its variables of type `Value` with their names, and memory. -/
structure St where
  root : List (String × Val)
  heap : Heap

/-- The place of a `Value`: the index of a variable, or of an element of a container. -/
structure Loc where
  owner : Option Nat
  idx : Nat

/-- The elements of a container; `none` stands for the variables. -/
def St.elems (st : St) : Option Nat → Option (List (String × Val))
  | none => some st.root
  | some a =>
    match st.heap.cell a with
    | some (.node c) => some c
    | _ => none

/-- The place an expression like `x.arr_[3].obj_["a"]` stands for; a path is the number of the
variable and the positions of the elements. -/
def St.resolve (st : St) (owner : Option Nat) : List Nat → Option Loc
  | [] => none
  | [j] => do
    let c ← st.elems owner
    if j < c.length then some ⟨owner, j⟩ else none
  | j :: p => do
    let c ← st.elems owner
    match c[j]? with
    | some (_, .node _ a) => st.resolve (some a) p
    | _ => none

/-- Reading a `Value`. -/
def St.read (st : St) (l : Loc) : Option Val := do
  let c ← st.elems l.owner
  let e ← c[l.idx]?
  some e.2

/-- Replacing the elements of a container. -/
def St.setElems (st : St) (owner : Option Nat) (c : List (String × Val)) : St :=
  match owner with
  | none => ⟨c, st.heap⟩
  | some a => ⟨st.root, { st.heap with cell := put st.heap.cell a (some (.node c)) }⟩

/-- Overwriting the tag and the union of a `Value`. -/
def St.write (st : St) (l : Loc) (v : Val) : Option St := do
  let c ← st.elems l.owner
  let e ← c[l.idx]?
  some (st.setElems l.owner (c.set l.idx (e.1, v)))

/-- The end of a statement of the program. -/
inductive End where
  | ok (st : St)
  | thr (st : St)
  | ub

/-- An undefined access. -/
def orUb : Option End → End
  | some e => e
  | none => .ub

/-- `Value(*src)`; the depth of the recursion is bounded by the number of cells. -/
def St.copy (st : St) (src : Loc) : Option (Out Val) := do
  let v ← st.read src
  some (copyV st.heap.next st.heap v)

/-- `~Value` of a value taken out of its place. -/
def St.destroy (st : St) (v : Val) : Option St := do
  let h ← destroyV st.heap.next st.heap v
  some ⟨st.root, h⟩

/-- `*dst = *src` (json.hpp:106-111): a copy `tmp`, swapped with `*dst`, then `~Value` of `tmp`. -/
def St.assign (st : St) (dst src : List Nat) : End := orUb do
  let d ← st.resolve none dst
  let s ← st.resolve none src
  match ← st.copy s with
  | .ub => some .ub
  | .thr h => some (.thr ⟨st.root, h⟩)
  | .ok tmp h =>
    let st : St := ⟨st.root, h⟩
    let old ← st.read d
    let st ← st.write d tmp
    let st ← st.destroy old
    some (.ok st)

/-- `x.swap(y)` (json.hpp:76-80). -/
def St.swap (st : St) (x y : List Nat) : End := orUb do
  let x ← st.resolve none x
  let y ← st.resolve none y
  let vx ← st.read x
  let vy ← st.read y
  let st ← st.write x vy
  let st ← st.write y vx
  some (.ok st)

/-- `Value name(*src)` -/
def St.new (st : St) (name : String) (src : List Nat) : End := orUb do
  let s ← st.resolve none src
  match ← st.copy s with
  | .ub => some .ub
  | .thr h => some (.thr ⟨st.root, h⟩)
  | .ok v h => some (.ok ⟨st.root ++ [(name, v)], h⟩)

/-- `Value name`, `Value name(1.5)`, `Value name(true)` (json.hpp:37, 46-50, 61-65). -/
def St.newLeaf (st : St) (name : String) (l : Leaf) : End := .ok ⟨st.root ++ [(name, .leaf l)], st.heap⟩

/-- `Value name("text")` (json.hpp:51-60). -/
def St.newStr (st : St) (name : String) (s : String) : End :=
  match alloc st.heap (.str s) with
  | .ok a h => .ok ⟨st.root ++ [(name, .str a)], h⟩
  | .thr h => .thr ⟨st.root, h⟩
  | .ub => .ub

/-- `Value name(Json::Array())`, `Value name(Json::Object())` (json.hpp:66-75). -/
def St.newNode (st : St) (name : String) (k : Kind) : End :=
  match alloc st.heap (.node []) with
  | .ok a h => .ok ⟨st.root ++ [(name, .node k a)], h⟩
  | .thr h => .thr ⟨st.root, h⟩
  | .ub => .ub

/-- The address of the container of the value at a path. -/
def St.container (st : St) (p : List Nat) : Option Nat := do
  let l ← st.resolve none p
  match ← st.read l with
  | .node _ a => some a
  | _ => none

/-- `p.arr_->push_back(*src)`, `p.obj_->insert(make_pair(key, *src))`: a copy at the given position. -/
def St.insert (st : St) (p : List Nat) (pos : Nat) (key : String) (src : List Nat) : End := orUb do
  let a ← st.container p
  let s ← st.resolve none src
  match ← st.copy s with
  | .ub => some .ub
  | .thr h => some (.thr ⟨st.root, h⟩)
  | .ok v h =>
    let st : St := ⟨st.root, h⟩
    let c ← st.elems (some a)
    if pos ≤ c.length then
      some (.ok (st.setElems (some a) (c.take pos ++ (key, v) :: c.drop pos)))
    else some .ub

/-- `p.arr_->erase(...)`, `p.obj_->erase(...)` of one element. -/
def St.remove (st : St) (p : List Nat) (pos : Nat) : End := orUb do
  let a ← st.container p
  let c ← st.elems (some a)
  let e ← c[pos]?
  let st := st.setElems (some a) (c.take pos ++ c.drop (pos + 1))
  let st ← st.destroy e.2
  some (.ok st)

/-- A variable goes out of scope. -/
def St.drop (st : St) (i : Nat) : End := orUb do
  let e ← st.root[i]?
  let st ← St.destroy ⟨st.root.take i ++ st.root.drop (i + 1), st.heap⟩ e.2
  some (.ok st)

end Verif.Json
