/-!
# A buffer filled from a source of bytes
-/
namespace Verif.Spec.RandGen

/-- `new` is `old` with its first `n` places holding the bytes number `p`, `p + 1`, ... of the source. -/
def Filled (source : Nat → UInt8) (p n : Nat) (old new : List UInt8) : Prop :=
  new.length = old.length ∧ (∀ i, i < n → new[i]? = some (source (p + i))) ∧ ∀ i, n ≤ i → new[i]? = old[i]?

end Verif.Spec.RandGen
