/-!
# What it means that handles are released once
-/
namespace Verif.Spec.Handle

/-- In the list of releases no handle occurs twice. -/
def AtMostOnce (released : List Nat) : Prop := ∀ h, released.count h ≤ 1

/-- Of the handles `0, ..., n-1` each was released exactly once, and nothing else was. -/
def ExactlyOnce (n : Nat) (released : List Nat) : Prop := ∀ h, released.count h = if h < n then 1 else 0

end Verif.Spec.Handle
