import Verif.Model.Bench
/-!
# What measuring is meant to be

`Calls n s s'`: the function was called `n` times, one call after the other.  `Measured`: stretches of `n` calls with a look at the
time before and after each; the list has the two times of each stretch.
-/
namespace Verif.Spec.Bench
open Verif.Bench

/-- `n` calls, one after the other. -/
inductive Calls {σ : Type} (func : σ → Res σ) : Nat → σ → σ → Prop
  | nil (s : σ) : Calls func 0 s s
  | cons {n : Nat} {s t u : σ} (h : func s = .ok t) (r : Calls func n t u) : Calls func (n + 1) s u

/-- Stretches of `n` calls, with the times before and after each. -/
inductive Measured {σ : Type} (tick : σ → Nat × σ) (func : σ → Res σ) (n : Nat) : List (Nat × Nat) → σ → σ → Prop
  | nil (s : σ) : Measured tick func n [] s s
  | cons {l : List (Nat × Nat)} {s t u : σ} (h : Calls func n (tick s).2 t) (r : Measured tick func n l (tick t).2 u) :
      Measured tick func n (((tick s).1, (tick t).1) :: l) s u

/-- The time that went by in the stretches. -/
def elapsed (l : List (Nat × Nat)) : Nat := (l.map fun p => p.2 - p.1).sum

/-- The clock did not go backwards in a stretch, and no stretch was longer than the register counts. -/
def Sane (w : Nat) (l : List (Nat × Nat)) : Prop := ∀ p ∈ l, p.1 ≤ p.2 ∧ (w < 64 → p.1 / 2 ^ w = p.2 / 2 ^ w)

/-- Measuring went on until the time was over or the stretches were used up, and not longer. -/
def StopsWhen (limit most : Nat) (l : List (Nat × Nat)) : Prop :=
  1 ≤ l.length ∧ l.length ≤ most ∧ (∀ k, 1 ≤ k → k < l.length → elapsed (l.take k) ≤ limit) ∧
    (l.length = most ∨ limit < elapsed l)

end Verif.Spec.Bench
