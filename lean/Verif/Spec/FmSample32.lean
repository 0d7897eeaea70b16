import Verif.Model.Common

/-! How many different characters a text has. -/
namespace Verif.Spec.FmSample32

/-- At most `n` different ones. -/
def AtMost (n : Nat) (text : List Nat) : Prop := ∀ d : List Nat, d.Nodup → (∀ c ∈ d, c ∈ text) → d.length ≤ n

/-- At least `n` different ones. -/
def AtLeast (n : Nat) (text : List Nat) : Prop := ∃ d : List Nat, d.Nodup ∧ (∀ c ∈ d, c ∈ text) ∧ n ≤ d.length

end Verif.Spec.FmSample32
