import Verif.Spec.Option
import Verif.Model.OptionShare

/-! # Specification of command lines for options that share variables -/

namespace Verif.OptShareSpec
open Verif.Opt (Mode Reg)
open Verif.OptShare (PReg Mem)
open Verif.Spec.Opt (Item)

abbrev Str := List UInt8

/-- A place a value can go to: the variable, and how it takes a value. -/
structure Slot (α : Type) where
  addr : Nat
  step : α → Str → Bool × α

/-- The slots of the options, with their names. -/
def optSlots {α : Type} (rs : List (PReg α)) : List (Str × Slot α) :=
  rs.filterMap fun r => match r.reg with
    | .opt _ step _ _ name => some (name, ⟨r.addr, step⟩)
    | _ => none

/-- The slots of the parameters, in order. -/
def paramSlots {α : Type} (rs : List (PReg α)) : List (Slot α) :=
  rs.filterMap fun r => match r.reg with
    | .param _ step _ => some ⟨r.addr, step⟩
    | .paramOpt _ step _ => some ⟨r.addr, step⟩
    | _ => none

/-- The slot of the values left over. -/
def restSlot {α : Type} (rs : List (PReg α)) : Option (Slot α) :=
  rs.findSome? fun r => match r.reg with
    | .paramVec _ step _ => some ⟨r.addr, step⟩
    | _ => none

/-- The slot of the option called `name`. -/
def slotOf {α : Type} (rs : List (PReg α)) (name : Str) : Option (Slot α) := (optSlots rs).lookup name

/-- The slot of the positional value number `k`. -/
def slotAt {α : Type} (rs : List (PReg α)) (k : Nat) : Option (Slot α) :=
  match (paramSlots rs)[k]? with
  | some s => some s
  | none => restSlot rs

/-- All values of the command line in the order in which they are written there, each with its slot; `k` positional values come before. -/
def writes {α : Type} (rs : List (PReg α)) : Nat → List Item → List (Slot α × Str)
  | _, [] => []
  | k, .flag n :: is => ((slotOf rs n).toList.map fun s => (s, [49])) ++ writes rs k is
  | k, .one n v :: is => ((slotOf rs n).toList.map fun s => (s, v)) ++ writes rs k is
  | k, .many n vs :: is => ((slotOf rs n).toList.flatMap fun s => vs.map fun v => (s, v)) ++ writes rs k is
  | k, .pos v :: is => ((slotAt rs k).toList.map fun s => (s, v)) ++ writes rs (k + 1) is

/-- One variable after the values given to it, in order, starting from `x`. -/
def final {α : Type} (p : Nat) (ws : List (Slot α × Str)) (x : α) : α :=
  (ws.filter fun w => w.1.addr == p).foldl (fun x w => (w.1.step x w.2).2) x

/-- The value a variable has after the declarations: the default of the last one that has a default. -/
def initial {α : Type} (p : Nat) (rs : List (PReg α)) (x : α) : α :=
  rs.foldl (fun x r => if r.addr = p then (match r.reg with
    | .opt st _ .any _ _ => x
    | .opt st _ _ _ _ => st
    | .paramOpt st _ _ => st
    | _ => x) else x) x

/-- Whether a text is accepted does not depend on what the variable holds.  (True of all conversions of the library; needed for options and
parameters only, as refused values left over are ignored.) -/
def Fixed {α : Type} : Reg α → Prop
  | .opt _ step _ _ _ => ∀ x y s, (step x s).1 = (step y s).1
  | .param _ step _ => ∀ x y s, (step x s).1 = (step y s).1
  | .paramOpt _ step _ => ∀ x y s, (step x s).1 = (step y s).1
  | _ => True

/-- All values are accepted, and there is a place for each. -/
structure Accepted {α : Type} (rs : List (Reg α)) (items : List Item) : Prop where
  opts : ∀ d ∈ Spec.Opt.optsOf rs, ∀ v ∈ Spec.Opt.valuesOf d.name items, ∀ x, (d.step x v).1 = true
  params : ∀ (i : Nat) (d : Spec.Opt.ParamDecl α) (v : Str), (Spec.Opt.paramsOf rs)[i]? = some d → (Spec.Opt.positionals items)[i]? = some v →
    ∀ x, (d.step x v).1 = true
  count : Spec.Opt.restOf rs = none → (Spec.Opt.positionals items).length ≤ (Spec.Opt.paramsOf rs).length

end Verif.OptShareSpec
