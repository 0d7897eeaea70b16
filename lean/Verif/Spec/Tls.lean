import Verif.Model.Tls

/-!
# What a thread-local variable holds

Only the history (`Ev`) of the model is used.
-/
namespace Verif.Spec.Tls

open Verif.Tls (Ev Call Ret)

/-- What the call does to the value that thread `t` has in object `o`. -/
def after (o t : Nat) (e : Ev) (v : Nat) : Nat :=
  match e.call, e.ret with
  | .ctor o', _ => if o' = o then 0 else v
  | .set o' p, .bool true => if o' = o ∧ e.thread = t then p else v
  | _, _ => v

/-- The value that thread `t` set last, with success, in the object `o`, since it was constructed; null at first. -/
def value (h : List Ev) (o t : Nat) : Nat := h.foldl (fun v e => after o t e v) 0

end Verif.Spec.Tls
