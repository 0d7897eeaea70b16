import Verif.Model.IndexIO

/-!
# Model of a `SucVectorT` after a `load` that threw (`include/cybozu/sucvector.hpp:205-218`)

`Model/IndexIO` gives the object after a successful `load`.  Here the object is followed also when an exception leaves `load`: the members are
overwritten one after the other.
-/
namespace Verif.SucFail
open Verif.Stream Verif.Serializer Verif.IndexIO
open Verif.SucVector (SV Block)

/-- How `load` ended, with the object (and the stream). -/
inductive Kept where
  | ok (x : SV) (s : Src)
  | threw (x : SV)
  | ub

/-- What an interrupted `loadRange` leaves in a vector that was resized to `n` elements (serializer.hpp:58-62, 228-235). -/
structure Junk where
  blk : Nat → List Block
  tbl : Nat → List Nat

/-- `load(x.member, is)` for a number (serializer.hpp:163-205: the member is assigned last), then the rest of the function. -/
def num (x : SV) (put : Nat → SV) (rest : SV → Src → Kept) (s : Src) : Kept :=
  match loadSize s with
  | .ok (n, s) => rest (put n) s
  | .throw => .threw x
  | .ub => .ub

/-- `loadPodVec(x.member, is)` (serializer.hpp:228-235) for elements of `n` bytes, then the rest of the function. -/
def vec {α : Type} (n : Nat) (dec : Nat → α) (junk : Nat → List α) (x : SV) (put : List α → SV) (rest : SV → Src → Kept) (s : Src) : Kept :=
  match loadSize s with
  | .ok (size, s) =>
    if size * n ≥ 2 ^ 63 then .threw x
    else
      match loadElems n size s with
      | .ok (c, s) => rest (put ((chunks n size c).map fun v => dec v.toNat)) s
      | .throw => .threw (put (junk size))
      | .ub => .ub
  | .throw => .threw x
  | .ub => .ub

/-- The select tables (sucvector.hpp:212-217). -/
def selKeep (j : Junk) (sel : Bool) (x : SV) : Src → Kept :=
  if sel then
    vec 4 id j.tbl x (fun t => { x with sel0 := t }) fun x =>
    vec 4 id j.tbl x (fun t => { x with sel1 := t }) .ok
  else .ok x

/-- `SucVectorT::load` (sucvector.hpp:205-218). -/
def loadKeep (j : Junk) (sel : Bool) (old : SV) : Src → Kept :=
  num old (fun n => { old with bitSize := n }) fun x =>
  num x (fun n => { x with num0 := n }) fun x =>
  num x (fun n => { x with num1 := n }) fun x =>
  vec 40 decBlock j.blk x (fun b => { x with blk := b }) (selKeep j sel)

end Verif.SucFail
