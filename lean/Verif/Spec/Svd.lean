import Verif.Model.Svd
/-!
# What a singular value decomposition has to satisfy
-/
namespace Verif.SvdSpec
open Matrix Verif.Svd

/-- What the documentation of `Eigen::JacobiSVD` promises for a square matrix: the product of the
factors is the matrix, both outer factors are orthogonal, the singular values are not negative and
descend. -/
structure IsSvd {r : Nat} (C : Matrix (Fin r) (Fin r) ℝ) (f : Factors r r r) : Prop where
  prod : f.U * diagonal f.S * f.Vᵀ = C
  u : f.Uᵀ * f.U = 1
  v : f.Vᵀ * f.V = 1
  nonneg : ∀ i, 0 ≤ f.S i
  sorted : ∀ i j, i ≤ j → f.S j ≤ f.S i

/-- The square of the Frobenius norm. -/
def frob {m n : Nat} (M : Matrix (Fin m) (Fin n) ℝ) : ℝ := ∑ i, ∑ j, M i j ^ 2

/-- The matrix that adds the rows of a matrix with `row` rows in `col` groups of neighbours: row
`i` belongs to group `⌊i * col / row⌋`. -/
def groups (row col : Nat) : Matrix (Fin row) (Fin col) ℝ :=
  Matrix.of fun i j => if i.val * col / row = j.val then 1 else 0

/-- Upper triangular. -/
def Upper {c : Nat} (R : Matrix (Fin c) (Fin c) ℝ) : Prop := ∀ i j, j < i → R i j = 0

end Verif.SvdSpec
