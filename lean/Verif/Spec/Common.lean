/-!
# Shared vocabulary of the specifications
-/
namespace Verif.Spec

/-- `cs` is a way in which a stream holding `x` can answer successive read requests of at most
`n` bytes: non-empty fragments that concatenate to `x`. -/
def Fragments {α : Type u} (n : Nat) (cs : List (List α)) (x : List α) : Prop :=
  cs.flatten = x ∧ ∀ c ∈ cs, c ≠ [] ∧ c.length ≤ n

instance {α : Type u} [DecidableEq α] (n : Nat) (cs : List (List α)) (x : List α) :
    Decidable (Fragments n cs x) := by unfold Fragments; infer_instance

end Verif.Spec
