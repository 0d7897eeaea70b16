import Verif.Model.MiniXml

/-!
# Model of the nodes of `include/cybozu/minixml.hpp` in memory

`MiniXml.lean` gives the tree as a value; here the nodes are objects made by `new`, with pointers to the parent and the children, and
memory may run out.  The functions that read the text are those of `MiniXml.lean`.
-/
namespace Verif.XmlHeap
open Verif.Config (Str)
open Verif.MiniXml (Attrs Node TagType skipSpace getWord query parseTag parseAttributes isName)

/-- A `Node` in memory (minixml.hpp:125-134); a pointer is an address or null. -/
structure Cell where
  name : Str
  attr : Attrs
  content : Str
  parent : Option Nat
  child : List (Option Nat)
  deriving DecidableEq

/-- The memory: the nodes that are alive, the next address, and how often memory was asked for. -/
structure Heap where
  cell : Nat → Option Cell
  next : Nat
  tick : Nat

/-- A function that works on the memory; an exception keeps what was done. -/
abbrev M (α : Type) := Heap → Heap × Res α

/-- Sequencing. -/
def M.bind {α β : Type} (m : M α) (f : α → M β) : M β := fun h =>
  match m h with
  | (h, .ok a) => f a h
  | (h, .throw) => (h, .throw)
  | (h, .ub) => (h, .ub)

/-- A result of a function that does not touch the memory. -/
def lift {α : Type} (r : Res α) : M α := fun h => (h, r)

/-- Changing a node; a dead one must not be touched. -/
def modify (id : Nat) (f : Cell → Cell) : M Unit := fun h =>
  match h.cell id with
  | none => (h, .ub)
  | some c => ({ h with cell := fun i => if i = id then some (f c) else h.cell i }, .ok ())

/-- Reading a node. -/
def deref (id : Nat) : M Cell := fun h =>
  match h.cell id with
  | none => (h, .ub)
  | some c => (h, .ok c)

/-- Asking for memory without keeping an address (the list node of `push_back`). -/
def ask (alloc : Nat → Bool) : M Unit := fun h =>
  ({ h with tick := h.tick + 1 }, if alloc h.tick then .ok () else .throw)

/-- `new Node()` (minixml.hpp:131-134). -/
def newNode (alloc : Nat → Bool) : M Nat := fun h =>
  if alloc h.tick then
    ({ cell := fun i => if i = h.next then some ⟨[], [], [], none, []⟩ else h.cell i, next := h.next + 1, tick := h.tick + 1 }, .ok h.next)
  else ({ h with tick := h.tick + 1 }, .throw)

/-- `appendChild` (minixml.hpp:144-153). -/
def appendChild (alloc : Nat → Bool) (p : Nat) (name : Str) (attr : Attrs) : M Nat :=
  (ask alloc).bind fun _ =>
  (modify p fun c => { c with child := c.child ++ [none] }).bind fun _ =>
  (newNode alloc).bind fun q =>
  (modify p fun c => { c with child := c.child.dropLast ++ [some q] }).bind fun _ =>
  (modify q fun c => { c with parent := some p, name := name, attr := attr }).bind fun _ =>
  lift (.ok q)

/-- The optional content before a tag (minixml.hpp:377-380): what remains. -/
def contentH (id : Nat) (s : Str) : M Str :=
  (lift (query s)).bind fun c =>
  if c ≠ 60 then
    let w := getWord (fun c => c ≠ 60) s
    (modify id fun c => { c with content := w.1 }).bind fun _ => lift (if w.2 = [] then .throw else .ok w.2)
  else lift (.ok s)

/-- `parseNode` (minixml.hpp:372-395): what remains of the text. -/
def parseNodeH (alloc : Nat → Bool) : (fuel : Nat) → (node : Nat) → Str → M Str
  | 0, _, _ => lift .ub
  | fuel + 1, node, s =>
    let s := skipSpace s
    if s = [] then lift .throw
    else
      (contentH node s).bind fun s =>
      (lift (parseTag (fuel + 1) s)).bind fun (type, name, attr, s) =>
      match type with
      | .end => (deref node).bind fun c => lift (if c.name ≠ name then .throw else .ok s)
      | .begin =>
        (appendChild alloc node name attr).bind fun child =>
        (parseNodeH alloc fuel child s).bind fun s =>
        parseNodeH alloc fuel node s
      | .complete =>
        (appendChild alloc node name attr).bind fun _ =>
        parseNodeH alloc fuel node s

/-- `MiniXml::parse` (minixml.hpp:404-411, 424-438) on an object whose `root_` is `root` (`none` is null): the new `root_` and whether it
returned.  The attributes of the header are left out, they cannot be asked for; what `parseTag` has put into the root before an
exception is left out too. -/
def parseH (alloc : Nat → Bool) (fuel : Nat) (root : Option Nat) (s : Str) (h : Heap) : Heap × Option Nat × Res Unit :=
  let w := getWord isName (skipSpace s)
  if w.1 ≠ [60, 63, 120, 109, 108] then (h, root, .throw)
  else
    match newNode alloc h with
    | (h, .ok r) =>
      let p : M Unit :=
        (lift (parseAttributes false fuel [] w.2)).bind fun (_, _, s) =>
        (lift (parseTag fuel s)).bind fun (type, name, attr, s) =>
        (modify r fun c => { c with name := name, attr := attr }).bind fun _ =>
        match type with
        | .end => lift .throw
        | .begin => (parseNodeH alloc fuel r s).bind fun _ => lift (.ok ())
        | .complete => lift (.ok ())
      ((p h).1, some r, (p h).2)
    | (h, .throw) => (h, root, .throw)
    | (h, .ub) => (h, root, .ub)

/-- `delete` on each pointer of a list (`~Node`, minixml.hpp:135-140): a null pointer does nothing, a node first deletes its children. -/
def deleteAll : (fuel : Nat) → List (Option Nat) → Heap → Res Heap
  | 0, _, _ => .ub
  | _ + 1, [], h => .ok h
  | fuel + 1, none :: l, h => deleteAll fuel l h
  | fuel + 1, some id :: l, h =>
    match h.cell id with
    | none => .ub
    | some c => do
      let h ← deleteAll fuel c.child h
      deleteAll fuel l { h with cell := fun i => if i = id then none else h.cell i }

/-- `~MiniXml` (minixml.hpp:440-443): `delete root_`. -/
def destroy (fuel : Nat) (root : Option Nat) (h : Heap) : Res Heap := deleteAll fuel [root] h

/-- The constructor with a text (minixml.hpp:419-423): the object, if there is one; no destructor runs if `parse` throws. -/
def construct (alloc : Nat → Bool) (fuel : Nat) (s : Str) (h : Heap) : Heap × Res (Option Nat) :=
  match parseH alloc fuel none s h with
  | (h, root, .ok _) => (h, .ok root)
  | (h, _, .throw) => (h, .throw)
  | (h, _, .ub) => (h, .ub)

/-- `getFirstTagByName` (minixml.hpp:154-164) on each pointer of a list until one answers; a null pointer must not be followed. -/
def findAll (v : Str) : (fuel : Nat) → List (Option Nat) → Heap → Res (Option Nat)
  | 0, _, _ => .ub
  | _ + 1, [], _ => .ok none
  | _ + 1, none :: _, _ => .ub
  | fuel + 1, some id :: l, h =>
    match h.cell id with
    | none => .ub
    | some c =>
      if c.name = v then .ok (some id)
      else do
        match ← findAll v fuel c.child h with
        | some p => return some p
        | none => findAll v fuel l h

/-- `xml.get().getFirstTagByName(v)` (minixml.hpp:439). -/
def getFirstTag (fuel : Nat) (root : Option Nat) (v : Str) (h : Heap) : Res (Option Nat) := findAll v fuel [root] h

end Verif.XmlHeap
