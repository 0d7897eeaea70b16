import Verif.Model.Common
import Mathlib.Data.Real.Sqrt
import Mathlib.LinearAlgebra.Matrix.Trace
import Mathlib.Data.Matrix.ColumnRowPartitioned
/-!
# Model of the singular value decomposition (include/cybozu/nlp/svd.hpp)

Matrices have real numbers as entries; the rounding of `float`/`double` is not modelled.  `int`
arithmetic on indices overflows (undefined behaviour) as in C++.  Matrix products are those of
Eigen.  `Eigen::JacobiSVD` is a parameter.

Not modelled: the random matrix (not compiled).
-/
namespace Verif.Svd
open Matrix

/-- `INT_MAX` -/
def intMax : Nat := 2147483647

/-- `M(i, j) = v` -/
def setAt {m n : Nat} (M : Matrix (Fin m) (Fin n) ℝ) (i : Fin m) (j : Fin n) (v : ℝ) :
    Matrix (Fin m) (Fin n) ℝ :=
  Matrix.of fun a b => if a = i ∧ b = j then v else M a b

/-- One pass of the loop of `InitUnitMatrix` (svd.hpp:93-95): `adj` is 0; the element accessed has
to exist. -/
def unitStep {row col : Nat} (M : Matrix (Fin row) (Fin col) ℝ) (i : Fin row) :
    Res (Matrix (Fin row) (Fin col) ℝ) :=
  if intMax < i.val * col then .ub
  else
    if h : i.val * col / row < col then .ok (setAt M i ⟨i.val * col / row, h⟩ 1)
    else .ub

/-- `svd::InitUnitMatrix` (svd.hpp:84-95): all entries are zero first. -/
def initUnitMatrix (row col : Nat) : Res (Matrix (Fin row) (Fin col) ℝ) :=
  (List.finRange row).foldlM unitStep 0

/-- The sum over `k` from `b` to below `e` of a row (svd.hpp:150-153). -/
def sumRow {row col : Nat} (m : Matrix (Fin row) (Fin col) ℝ) (i : Fin row) (b e : Nat) : ℝ :=
  ∑ k : Fin col, if b ≤ k.val ∧ k.val < e then m i k else 0

/-- The end of the `j`-th group of columns (svd.hpp:147). -/
def groupEnd (col r j : Nat) : Nat := min (((j + 1) * col + r - 1) / r) col

/-- One pass of the loop of `CompressCol` (svd.hpp:146-157); the state is `out` and `begin`. -/
def compressStep {row col r : Nat} (m : Matrix (Fin row) (Fin col) ℝ)
    (s : Matrix (Fin row) (Fin r) ℝ × Nat) (j : Fin r) :
    Res (Matrix (Fin row) (Fin r) ℝ × Nat) :=
  if intMax < (j.val + 1) * col + r then .ub
  else
    .ok (s.1.updateCol j (fun i => sumRow m i s.2 (groupEnd col r j.val)),
      groupEnd col r j.val)

/-- `svd::CompressCol` (svd.hpp:136-157); `out.resize` gives a matrix of unspecified contents,
here zero. -/
def compressCol {row col : Nat} (m : Matrix (Fin row) (Fin col) ℝ) (r : Nat) :
    Res (Matrix (Fin row) (Fin r) ℝ) := do
  let s ← (List.finRange r).foldlM (compressStep m) (0, 0)
  .ok s.1

/-- `eps` of svd.hpp:204. -/
noncomputable def eps : ℝ := 1 / 100000

/-- The pass of the inner loop (svd.hpp:214-215) for column `j`: the part along column `i` is taken
away. -/
noncomputable def elimCol {m c : Nat} (i : Fin c) (M : Matrix (Fin m) (Fin c) ℝ) (j : Fin c) :
    Matrix (Fin m) (Fin c) ℝ :=
  let x := ∑ k, M k i * M k j
  M.updateCol j fun k => M k j - M k i * x

/-- The pass of the outer loop (svd.hpp:207-217) for column `i`. -/
noncomputable def orthStep {m c : Nat} (M : Matrix (Fin m) (Fin c) ℝ) (i : Fin c) :
    Matrix (Fin m) (Fin c) ℝ :=
  let norm := Real.sqrt (∑ k, M k i ^ 2)
  if norm < eps then M.updateCol i fun _ => 0
  else
    let M := M.updateCol i fun k => M k i * (1 / norm)
    ((List.finRange c).filter (i < ·)).foldl (elimCol i) M

/-- `svd::OrthonormalizeMatrix` (svd.hpp:201-219). -/
noncomputable def orthonormalize {m c : Nat} (M : Matrix (Fin m) (Fin c) ℝ) :
    Matrix (Fin m) (Fin c) ℝ :=
  (List.finRange c).foldl orthStep M

/-- A singular value decomposition of a square matrix as `Eigen::JacobiSVD` returns it:
`matrixU`, `singularValues`, `matrixV`. -/
structure Factors (m n r : Nat) where
  U : Matrix (Fin m) (Fin r) ℝ
  S : Fin r → ℝ
  V : Matrix (Fin n) (Fin r) ℝ

/-- `ComputeSVD` for the rank already cut to `r` (svd.hpp:465-481). -/
noncomputable def computeCore {m n r : Nat} (jac : Matrix (Fin r) (Fin r) ℝ → Factors r r r)
    (A : Matrix (Fin m) (Fin n) ℝ) : Res (Factors m n r) := do
  let R ← initUnitMatrix m r
  let Y := orthonormalize (Aᵀ * R)
  let B := A * Y
  let Z := orthonormalize B
  let C := Zᵀ * B
  let svd := jac C
  .ok ⟨Z * svd.U, svd.S, Y * svd.V⟩

/-- `r` (svd.hpp:461). -/
def cutRank (m n : Nat) (rank : Int) : Int := min (min n m) rank

/-- `ComputeSVD` (svd.hpp:458-483): `none` is `false`. -/
noncomputable def computeSVD {m n : Nat}
    (jac : ∀ r, Matrix (Fin r) (Fin r) ℝ → Factors r r r)
    (A : Matrix (Fin m) (Fin n) ℝ) (rank : Int) :
    Res (Option (Σ r : Nat, Factors m n r)) :=
  if cutRank m n rank ≤ 0 then .ok none
  else do
    let f ← computeCore (jac (cutRank m n rank).toNat) A
    .ok (some ⟨_, f⟩)

end Verif.Svd
