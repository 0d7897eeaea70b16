import Verif.Spec.Sparse

/-!
# Specification of filling a sparse vector from a map
-/
namespace Verif.Spec.Sparse

/-- The pairs of `m` are appended to `l` up to the first one that is refused: whether there was one, and the pairs then. -/
def pushAll {T : Type} (accepts : List Nat → Nat → Prop) [∀ ps p, Decidable (accepts ps p)] :
    (l m : List (Nat × T)) → Bool × List (Nat × T)
  | l, [] => (false, l)
  | l, e :: m => if accepts (l.map Prod.fst) e.1 then pushAll accepts (l ++ [e]) m else (true, l)

end Verif.Spec.Sparse
