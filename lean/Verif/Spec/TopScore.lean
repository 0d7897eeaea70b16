import Mathlib.Order.Defs.LinearOrder

/-!
# The best entries of a list
-/
namespace Verif.Spec.TopScore

variable {α T : Type} [LinearOrder α]

/-- Entry number `i` goes before entry number `j`: a higher score, or the same score and added
earlier. -/
def Before (l : List (α × T)) (i j : Nat) : Prop :=
  ∃ a b, l[i]? = some a ∧ l[j]? = some b ∧ (b.1 < a.1 ∨ (a.1 = b.1 ∧ i < j))

/-- `r` lists the `m` best entries of `l`, best first. -/
def IsTop (m : Nat) (l r : List (α × T)) : Prop :=
  r.length = min m l.length ∧
  ∃ is : List Nat, r.map some = is.map (fun i => l[i]?) ∧
    is.Pairwise (Before l) ∧ ∀ j, j < l.length → j ∉ is → ∀ i ∈ is, Before l i j

end Verif.Spec.TopScore
