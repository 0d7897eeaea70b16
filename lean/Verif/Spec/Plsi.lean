import Mathlib.Analysis.SpecialFunctions.Log.Basic
import Mathlib.Algebra.BigOperators.Group.Finset.Basic

/-!
# Probabilistic latent semantic indexing

Observations are pairs (user, item).  The parameters are `p(z)`, `p(x|z)` and `p(y|z)`, given as a list
over the classes `z` and lists of rows, one row for each class.
-/
namespace Verif.Spec.Plsi

/-- A probability distribution on a finite set that is numbered from 0. -/
def IsDist (l : List ℝ) : Prop := (∀ x ∈ l, 0 ≤ x) ∧ l.sum = 1

/-- The observations of a matrix that lists the users of each item. -/
def obsFrom : Nat → List (List Nat) → List (Nat × Nat)
  | _, [] => []
  | y, row :: rows => row.map (fun u => (u, y)) ++ obsFrom (y + 1) rows

/-- `p(z = k)`. -/
noncomputable def pz (z : List ℝ) (k : Nat) : ℝ := z.getD k 0

/-- `p(x = u | z = k)` or `p(y = u | z = k)`. -/
noncomputable def pc (U : List (List ℝ)) (k u : Nat) : ℝ := (U.getD k []).getD u 0

/-- `p(x, y)`. -/
noncomputable def joint (z : List ℝ) (U V : List (List ℝ)) (u y : Nat) : ℝ :=
  ∑ k ∈ Finset.range z.length, pz z k * pc U k u * pc V k y

/-- `p(x)` (or `p(y)`). -/
noncomputable def marginal (z : List ℝ) (U : List (List ℝ)) (u : Nat) : ℝ :=
  ∑ k ∈ Finset.range z.length, pz z k * pc U k u

/-- The logarithm of the probability of the observations. -/
noncomputable def logLik (z : List ℝ) (U V : List (List ℝ)) (obs : List (Nat × Nat)) : ℝ :=
  (obs.map fun d => Real.log (joint z U V d.1 d.2)).sum

/-- The parameters of a model with `M` users and `N` items that gives the observations a positive
probability in every class. -/
structure IsParams (M N : Nat) (obs : List (Nat × Nat)) (z : List ℝ) (U V : List (List ℝ)) : Prop where
  dist : IsDist z
  lenU : U.length = z.length
  lenV : V.length = z.length
  rowU : ∀ r ∈ U, r.length = M ∧ IsDist r
  rowV : ∀ r ∈ V, r.length = N ∧ IsDist r
  pos : ∀ k < z.length, 0 < pz z k ∧ ∀ d ∈ obs, 0 < pc U k d.1 ∧ 0 < pc V k d.2

end Verif.Spec.Plsi
