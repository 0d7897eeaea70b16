import Verif.Model.Serializer

/-! Which values are containers: sizes fit, sets are strictly sorted, maps have different keys. -/
namespace Verif.Spec.Serializer
open Verif.Serializer

/-- A value that can exist in memory.  `ord` and `same` are the predicates of the containers. -/
def Valid (ord same : (t : Ty) → Val t → Val t → Bool) : (t : Ty) → Val t → Prop
  | .pod _, _ => True
  | .int _, _ => True
  | .str, x => List.length (α := UInt8) x < 2 ^ 63
  | .podVec n, x => 0 < n ∧ List.length (α := BitVec (8 * n)) x * n < 2 ^ 63
  | .seq t, x => List.length (α := Val t) x < 2 ^ 64 ∧ ∀ e ∈ (x : List (Val t)), Valid ord same t e
  | .set k, x => List.length (α := Val k) x < 2 ^ 64 ∧ (∀ e ∈ (x : List (Val k)), Valid ord same k e) ∧
      List.Pairwise (fun a b => ord k a b = true) x
  | .map k v, x => List.length (α := Val k × Val v) x < 2 ^ 64 ∧
      (∀ e ∈ (x : List (Val k × Val v)), Valid ord same k e.1 ∧ Valid ord same v e.2) ∧
      List.Pairwise (fun a b : Val k × Val v => ord k a.1 b.1 = true) x
  | .umap k v, x => List.length (α := Val k × Val v) x < 2 ^ 64 ∧
      (∀ e ∈ (x : List (Val k × Val v)), Valid ord same k e.1 ∧ Valid ord same v e.2) ∧
      List.Pairwise (fun a b : Val k × Val v => same k a.1 b.1 = false) x

/-- The types whose `load` starts from an empty object. -/
def Clears : Ty → Prop
  | .set _ => False
  | .map _ _ => False
  | .umap _ _ => False
  | _ => True

end Verif.Spec.Serializer
