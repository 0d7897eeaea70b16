import Verif.Model.TfIdfCopy

/-! # Objects as values: each `TfIdf` has counts of its own -/
namespace Verif.Spec.TfIdfCopy
open Verif Verif.TfIdf
open Verif.TfIdfCopy (Op)

/-- The values of all objects. -/
abbrev Vals := Nat → Option TfIdf.TfIdf

/-- The value of one object replaced. -/
def put (V : Vals) (i : Nat) (x : Option TfIdf.TfIdf) : Vals := fun k => if k = i then x else V k

/-- One step, if the objects are values: a copy is a copy, and a call changes one object. -/
inductive VStep (V : Vals) : Op → Vals → Prop where
  | create {i : Nat} {keys : List Word} (h : V i = none) : VStep V (.create i keys) (put V i (some (TfIdf.load keys)))
  | append {i : Nat} {w : Word} {re : Bool} {t t' : TfIdf.TfIdf} (h : V i = some t) (h2 : t.append w = .ok t') :
    VStep V (.append i w re) (put V i (some t'))
  | endDoc {i : Nat} {t : TfIdf.TfIdf} (h : V i = some t) : VStep V (.endDoc i) (put V i (some t.endDoc))
  | copy {i j : Nat} {t : TfIdf.TfIdf} (h : V i = some t) (h2 : V j = none) : VStep V (.copy i j) (put V j (some t))
  | assign {i j : Nat} {re : Bool} {t u : TfIdf.TfIdf} (h : V i = some t) (h2 : V j = some u) : VStep V (.assign i j re) (put V j (some t))
  | destroy {i : Nat} {t : TfIdf.TfIdf} (h : V i = some t) : VStep V (.destroy i) (put V i none)

/-- A copy or an assignment is not made in the middle of a document of the source. -/
def Between (V : Vals) : Op → Prop
  | .copy i _ => ∀ t, V i = some t → t.open = false
  | .assign i _ _ => ∀ t, V i = some t → t.open = false
  | _ => True

/-- A program on values that copies only between documents. -/
inductive VRun : Vals → List Op → Vals → Prop where
  | nil {V : Vals} : VRun V [] V
  | cons {V W X : Vals} {op : Op} {ops : List Op} (h1 : Between V op) (h2 : VStep V op W) (h3 : VRun W ops X) : VRun V (op :: ops) X

end Verif.Spec.TfIdfCopy
