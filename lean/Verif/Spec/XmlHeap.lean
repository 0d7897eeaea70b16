import Verif.Model.XmlHeap

/-!
# Which tree the nodes in memory are
-/
namespace Verif.Spec.XmlHeap
open Verif.XmlHeap
open Verif.MiniXml (Node)

/-- The pointers `ps`, whose nodes have the parent `par`, are the trees `ts`, made of the nodes at `at`, none of which is used twice
if `at` has no duplicates.  Null pointers are allowed only if `whole` is false; they stand for no tree. -/
inductive Forest (cell : Nat → Option Cell) (whole : Bool) : (par : Option Nat) → (ps : List (Option Nat)) → (ts : List Node) → (addrs : List Nat) → Prop
  | nil (par : Option Nat) : Forest cell whole par [] [] []
  | null {par : Option Nat} {ps : List (Option Nat)} {ts : List Node} {addrs : List Nat} (hw : whole = false) (h : Forest cell whole par ps ts addrs) :
      Forest cell whole par (none :: ps) ts addrs
  | node {par : Option Nat} {id : Nat} {c : Cell} {ps : List (Option Nat)} {ts us : List Node} {as bs : List Nat} (hc : cell id = some c)
      (hp : c.parent = par) (hk : Forest cell whole (some id) c.child ts as) (hr : Forest cell whole par ps us bs) :
      Forest cell whole par (some id :: ps) (.mk c.name c.attr c.content ts :: us) (id :: as ++ bs)

/-- The address of the first node in document order, of the trees at these pointers, whose name is `v`. -/
inductive First (cell : Nat → Option Cell) (v : List UInt8) : List (Option Nat) → Option Nat → Prop
  | none : First cell v [] none
  | here {id : Nat} {c : Cell} {ps : List (Option Nat)} (hc : cell id = some c) (hn : c.name = v) : First cell v (some id :: ps) (some id)
  | inside {id r : Nat} {c : Cell} {ps : List (Option Nat)} (hc : cell id = some c) (hn : c.name ≠ v) (h : First cell v c.child (some r)) :
      First cell v (some id :: ps) (some r)
  | later {id : Nat} {c : Cell} {ps : List (Option Nat)} {r : Option Nat} (hc : cell id = some c) (hn : c.name ≠ v)
      (h : First cell v c.child none) (hr : First cell v ps r) : First cell v (some id :: ps) r

end Verif.Spec.XmlHeap
