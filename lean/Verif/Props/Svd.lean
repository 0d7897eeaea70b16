import Verif.Proof.Svd
import Mathlib.LinearAlgebra.Matrix.NonsingularInverse
import Mathlib.LinearAlgebra.Matrix.Notation
set_option linter.unusedSimpArgs false
/-!
# C73: the singular value decomposition
-/
namespace Verif.Props.Svd
open Matrix Verif.Svd Verif.SvdSpec

/-- `InitUnitMatrix` gives the matrix that adds neighbouring rows in groups, if no product of
indices overflows. -/
theorem C73_unit_matrix (row col : Nat) (hc : 0 < col) (h : (row - 1) * col ≤ 2147483647) :
    initUnitMatrix row col = .ok (groups row col) := by
  apply initUnit_eq hc
  intro i
  have : i.val * col ≤ (row - 1) * col := Nat.mul_le_mul_right _ (by have := i.isLt; omega)
  unfold intMax
  omega

/-- The groups are intervals whose sizes differ by at most one; none is empty if there are at
least as many rows as groups. -/
theorem C73_groups_balanced (row col : Nat) (hc : 0 < col) (j : Nat) (hj : j < col) :
    ∃ a b, b ≤ row ∧ a + row / col ≤ b ∧ b ≤ a + row / col + 1 ∧
      ∀ i, i < row → (i * col / row = j ↔ a ≤ i ∧ i < b) := by
  have key : ∀ x : Nat, (x * row + col - 1) / col + row / col ≤
      ((x + 1) * row + col - 1) / col ∧
      ((x + 1) * row + col - 1) / col ≤ (x * row + col - 1) / col + row / col + 1 := by
    intro x
    have e : (x + 1) * row + col - 1 = x * row + col - 1 + row % col + row / col * col := by
      have := Nat.div_add_mod row col
      rw [Nat.add_mul, Nat.mul_comm (row / col)]; omega
    rw [e, Nat.add_mul_div_right _ _ hc]
    have h1 : (x * row + col - 1) / col ≤ (x * row + col - 1 + row % col) / col :=
      Nat.div_le_div_right (by omega)
    have h2 : (x * row + col - 1 + row % col) / col ≤ (x * row + col - 1 + col) / col :=
      Nat.div_le_div_right (by have := Nat.mod_lt row hc; omega)
    rw [Nat.add_div_right _ hc] at h2
    omega
  have hle : ∀ x, x ≤ col → (x * row + col - 1) / col ≤ row := by
    intro x hx
    rw [ceil_le hc, Nat.mul_comm row col]
    exact Nat.mul_le_mul_right _ hx
  have := key j
  have h2 := hle (j + 1) hj
  refine ⟨(j * row + col - 1) / col, ((j + 1) * row + col - 1) / col, h2, this.1, this.2, ?_⟩
  intro i hi
  rw [← group_mem hc j i hi]
  have e1 : groupEnd row col j = ((j + 1) * row + col - 1) / col := by
    unfold groupEnd; omega
  have e2 : (if j = 0 then 0 else groupEnd row col (j - 1)) = (j * row + col - 1) / col := by
    split
    · rename_i h; subst h
      rw [Nat.zero_mul, Nat.zero_add, Nat.div_eq_of_lt (by omega)]
    · rename_i h
      unfold groupEnd
      have := hle j (by omega)
      rw [show j - 1 + 1 = j by omega]
      omega
  rw [e1, e2]

/-- `CompressCol(out, m, r)` is the product of `m` with that matrix: the two ways to start the
decomposition agree. -/
theorem C73_compress {row col : Nat} (m : Matrix (Fin row) (Fin col) ℝ) (r : Nat) (hr : 0 < r)
    (h : r * col + r ≤ 2147483647) : compressCol m r = .ok (m * groups col r) :=
  compress_eq m hr h

/-- `OrthonormalizeMatrix`: the columns of the result are orthogonal to each other, each is zero or
of length one; the first columns of the result span what the first columns of the argument span,
up to a rest which is zero where a column was kept and shorter than `1e-5` where it was dropped. -/
theorem C73_orthonormalize {m c : Nat} (M : Matrix (Fin m) (Fin c) ℝ) :
    ∃ d : Fin c → ℝ, (orthonormalize M)ᵀ * orthonormalize M = diagonal d ∧
      (∀ i, d i = 1 ∨ (d i = 0 ∧ ∀ k, orthonormalize M k i = 0)) ∧
      (∃ T, Upper T ∧ orthonormalize M = M * T) ∧
      ∃ R E, Upper R ∧ M = orthonormalize M * R + E ∧
        (∀ j, ∑ k, E k j ^ 2 < (1 / 100000) ^ 2) ∧ ∀ j, d j = 1 → ∀ k, E k j = 0 :=
  ⟨kept (orthonormalize M), (orth_ortho M).gram, (orth_ortho M).kept01, orth_span M, orth_dec M⟩

/-- A matrix with orthonormal columns is not changed. -/
theorem C73_orthonormalize_fixed {m c : Nat} (M : Matrix (Fin m) (Fin c) ℝ) (h : Mᵀ * M = 1) :
    orthonormalize M = M := orth_id M h

/-- `ComputeSVD` returns false exactly for a matrix or a rank of zero; otherwise the number of
singular values is the least of the rank, the rows and the columns. -/
theorem C73_rank {m n : Nat} (jac : ∀ r, Matrix (Fin r) (Fin r) ℝ → Factors r r r)
    (A : Matrix (Fin m) (Fin n) ℝ) (rank : Int) (h : m * n ≤ 2147483647) :
    (computeSVD jac A rank = .ok none ↔ m = 0 ∨ n = 0 ∨ rank ≤ 0) ∧
    (0 < m → 0 < n → 0 < rank → ∃ f : Factors m n (min (min n m) rank.toNat),
      computeSVD jac A rank = .ok (some ⟨_, f⟩) ∧ computeCore (jac _) A = .ok f) := by
  have key : 0 < m → 0 < n → 0 < rank → ∃ f : Factors m n (min (min n m) rank.toNat),
      computeSVD jac A rank = .ok (some ⟨_, f⟩) ∧ computeCore (jac _) A = .ok f := by
    intro hm hn hr
    have hc : ¬ cutRank m n rank ≤ 0 := by unfold cutRank; omega
    have e : (cutRank m n rank).toNat = min (min n m) rank.toNat := by unfold cutRank; omega
    unfold computeSVD
    rw [if_neg hc, e]
    unfold computeCore
    rw [C73_unit_matrix m _ (by omega) (by
      calc (m - 1) * min (min n m) rank.toNat ≤ m * n := Nat.mul_le_mul (by omega) (by omega)
        _ ≤ _ := h)]
    exact ⟨_, rfl, rfl⟩
  refine ⟨?_, key⟩
  constructor
  · intro h0
    by_contra hcon
    rw [not_or, not_or] at hcon
    obtain ⟨f, hf, _⟩ := key (by omega) (by omega) (by omega)
    rw [hf] at h0
    simp at h0
  · intro h0
    unfold computeSVD
    rw [if_pos]
    unfold cutRank
    omega

/-- The product of the factors is the matrix between two orthogonal projections, `U` and `V` lie
in their images, the singular values are not negative and descend, and the left projection takes
away at most `1e-5` per column: `A Pv` is reproduced. -/
theorem C73_product {m n r : Nat} (jac : Matrix (Fin r) (Fin r) ℝ → Factors r r r)
    (hj : ∀ C, IsSvd C (jac C)) (A : Matrix (Fin m) (Fin n) ℝ) (hr : 0 < r)
    (h : (m - 1) * r ≤ 2147483647) :
    ∃ f Pu Pv, computeCore jac A = .ok f ∧ Puᵀ = Pu ∧ Pu * Pu = Pu ∧ Pvᵀ = Pv ∧ Pv * Pv = Pv ∧
      f.U * diagonal f.S * f.Vᵀ = Pu * A * Pv ∧ Pu * f.U = f.U ∧ Pv * f.V = f.V ∧
      (∀ i, 0 ≤ f.S i) ∧ (∀ i j, i ≤ j → f.S j ≤ f.S i) ∧
      frob (A * Pv - f.U * diagonal f.S * f.Vᵀ) ≤ r * (1 / 100000) ^ 2 := by
  have e := C73_unit_matrix m r hr h
  set Y := orthonormalize (Aᵀ * groups m r) with hY
  set Z := orthonormalize (A * Y) with hZ
  have oY : Ortho Y := orth_ortho _
  have oZ : Ortho Z := orth_ortho _
  have hs := hj (Zᵀ * (A * Y))
  set g := jac (Zᵀ * (A * Y)) with hg
  have hp : Z * g.U * diagonal g.S * (Y * g.V)ᵀ = Z * Zᵀ * A * (Y * Yᵀ) := by
    rw [Matrix.transpose_mul]
    calc _ = Z * (g.U * diagonal g.S * g.Vᵀ) * Yᵀ := by simp only [Matrix.mul_assoc]
      _ = _ := by rw [hs.prod]; simp only [Matrix.mul_assoc]
  refine ⟨⟨Z * g.U, g.S, Y * g.V⟩, Z * Zᵀ, Y * Yᵀ, ?_, Ortho.sym Z, oZ.idem, Ortho.sym Y, oY.idem,
    hp, ?_, ?_, hs.nonneg, hs.sorted, ?_⟩
  · unfold computeCore
    rw [e]
    rfl
  · show Z * Zᵀ * (Z * g.U) = Z * g.U
    rw [← Matrix.mul_assoc, oZ.proj]
  · show Y * Yᵀ * (Y * g.V) = Y * g.V
    rw [← Matrix.mul_assoc, oY.proj]
  · show frob (A * (Y * Yᵀ) - Z * g.U * diagonal g.S * (Y * g.V)ᵀ) ≤ _
    rw [hp]
    have e2 : A * (Y * Yᵀ) - Z * Zᵀ * A * (Y * Yᵀ) = (1 - Z * Zᵀ) * (A * Y) * Yᵀ := by
      rw [Matrix.sub_mul, Matrix.sub_mul]
      simp only [Matrix.one_mul, Matrix.mul_assoc]
    rw [e2]
    exact le_trans (oY.frob_mul _) (orth_rest (A * Y)).1

/-- If as many singular values are asked for as there are rows, the product of the factors is the
matrix up to `sqrt (2 m) * 1e-5` in the Frobenius norm, whatever the matrix. -/
theorem C73_all_rows {m n : Nat} (jac : Matrix (Fin m) (Fin m) ℝ → Factors m m m)
    (hj : ∀ C, IsSvd C (jac C)) (A : Matrix (Fin m) (Fin n) ℝ) (hm : 0 < m)
    (h : (m - 1) * m ≤ 2147483647) :
    ∃ f, computeCore jac A = .ok f ∧
      frob (A - f.U * diagonal f.S * f.Vᵀ) ≤ 2 * m * (1 / 100000) ^ 2 := by
  have e := C73_unit_matrix m m hm h
  rw [groups_self] at e
  set Y := orthonormalize (Aᵀ) with hY
  set Z := orthonormalize (A * Y) with hZ
  have oY : Ortho Y := orth_ortho _
  have oZ : Ortho Z := orth_ortho _
  have hs := hj (Zᵀ * (A * Y))
  set g := jac (Zᵀ * (A * Y)) with hg
  have hp : Z * g.U * diagonal g.S * (Y * g.V)ᵀ = Z * Zᵀ * A * (Y * Yᵀ) := by
    rw [Matrix.transpose_mul]
    calc _ = Z * (g.U * diagonal g.S * g.Vᵀ) * Yᵀ := by simp only [Matrix.mul_assoc]
      _ = _ := by rw [hs.prod]; simp only [Matrix.mul_assoc]
  refine ⟨⟨Z * g.U, g.S, Y * g.V⟩, ?_, ?_⟩
  · unfold computeCore
    rw [e]
    simp only [Res.ok_bind, Matrix.mul_one]
    rfl
  · show frob (A - Z * g.U * diagonal g.S * (Y * g.V)ᵀ) ≤ _
    rw [hp]
    have e2 : A - Z * Zᵀ * A * (Y * Yᵀ) =
        A * (1 - Y * Yᵀ) + (1 - Z * Zᵀ) * (A * Y) * Yᵀ := by
      rw [Matrix.mul_sub, Matrix.sub_mul, Matrix.sub_mul, Matrix.mul_one, Matrix.one_mul]
      simp only [Matrix.mul_assoc]
      abel
    have o1 : A * (1 - Y * Yᵀ) * (Y * Yᵀ) = 0 := by
      rw [Matrix.mul_assoc, Matrix.sub_mul, oY.idem, Matrix.one_mul, sub_self, Matrix.mul_zero]
    have o2 : (1 - Z * Zᵀ) * (A * Y) * Yᵀ * (Y * Yᵀ) = (1 - Z * Zᵀ) * (A * Y) * Yᵀ := by
      have : Yᵀ * (Y * Yᵀ) = Yᵀ := by
        have := congrArg Matrix.transpose oY.proj
        rw [Matrix.transpose_mul, Ortho.sym] at this
        exact this
      rw [Matrix.mul_assoc, this]
    rw [e2, frob_add_orth (Y * Yᵀ) (Ortho.sym Y) oY.idem _ _ o1 o2]
    have b1 : frob (A * (1 - Y * Yᵀ)) ≤ m * (1 / 100000) ^ 2 := by
      have := (orth_rest Aᵀ).1
      rw [← frob_transpose, Matrix.transpose_mul, Matrix.transpose_sub, Matrix.transpose_one,
        Ortho.sym]
      exact this
    have b2 : frob ((1 - Z * Zᵀ) * (A * Y) * Yᵀ) ≤ m * (1 / 100000) ^ 2 :=
      le_trans (oY.frob_mul _) (orth_rest (A * Y)).1
    linarith

/-- If the result has orthonormal `U` and `V`, as the comment in the code promises, and the rows
of the matrix are combinations of the sums over the groups of rows, the decomposition is exact. -/
theorem C73_exact {m n r : Nat} (jac : Matrix (Fin r) (Fin r) ℝ → Factors r r r)
    (hj : ∀ C, IsSvd C (jac C)) (A : Matrix (Fin m) (Fin n) ℝ) (hr : 0 < r)
    (h : (m - 1) * r ≤ 2147483647) (W : Matrix (Fin m) (Fin r) ℝ)
    (hW : A = W * ((groups m r)ᵀ * A)) (f : Factors m n r) (hf : computeCore jac A = .ok f)
    (hU : f.Uᵀ * f.U = 1) (hV : f.Vᵀ * f.V = 1) :
    A = f.U * diagonal f.S * f.Vᵀ := by
  have e := C73_unit_matrix m r hr h
  set Y := orthonormalize (Aᵀ * groups m r) with hY
  set Z := orthonormalize (A * Y) with hZ
  have hs := hj (Zᵀ * (A * Y))
  set g := jac (Zᵀ * (A * Y)) with hg
  have hfe : f = ⟨Z * g.U, g.S, Y * g.V⟩ := by
    unfold computeCore at hf
    rw [e] at hf
    simp only [Res.ok_bind] at hf
    exact (Res.ok.inj hf).symm
  subst hfe
  have hp : Z * g.U * diagonal g.S * (Y * g.V)ᵀ = Z * Zᵀ * A * (Y * Yᵀ) := by
    rw [Matrix.transpose_mul]
    calc _ = Z * (g.U * diagonal g.S * g.Vᵀ) * Yᵀ := by simp only [Matrix.mul_assoc]
      _ = _ := by rw [hs.prod]; simp only [Matrix.mul_assoc]
  have full : ∀ (q : Nat) (Q : Matrix (Fin q) (Fin r) ℝ) (O : Matrix (Fin r) (Fin r) ℝ),
      Oᵀ * O = 1 → (Q * O)ᵀ * (Q * O) = 1 → Qᵀ * Q = 1 := by
    intro q Q O hO hQ
    have hO' : O * Oᵀ = 1 := mul_eq_one_comm.1 hO
    rw [Matrix.transpose_mul] at hQ
    have h2 : O * (Oᵀ * Qᵀ * (Q * O)) * Oᵀ = O * 1 * Oᵀ := by rw [hQ]
    rw [Matrix.mul_one, hO'] at h2
    rw [← h2]
    have h3 : O * (Oᵀ * Qᵀ * (Q * O)) * Oᵀ = (O * Oᵀ) * (Qᵀ * Q) * (O * Oᵀ) := by
      simp only [Matrix.mul_assoc]
    rw [h3, hO', Matrix.one_mul, Matrix.mul_one]
  have hZ1 := (orth_rest (A * Y)).2 (full _ Z g.U hs.u hU)
  have hY1 := (orth_rest (Aᵀ * groups m r)).2 (full _ Y g.V hs.v hV)
  rw [← hZ] at hZ1
  rw [← hY] at hY1
  show A = Z * g.U * diagonal g.S * (Y * g.V)ᵀ
  rw [hp]
  have a1 : Z * Zᵀ * (A * Y) = A * Y := by
    rw [Matrix.sub_mul, Matrix.one_mul, sub_eq_zero] at hZ1
    exact hZ1.symm
  have a2 : Y * Yᵀ * Aᵀ = Aᵀ := by
    rw [Matrix.sub_mul, Matrix.one_mul, sub_eq_zero] at hY1
    have hA : Aᵀ = Aᵀ * groups m r * Wᵀ := by
      have := congrArg Matrix.transpose hW
      simpa [Matrix.transpose_mul] using this
    rw [hA, ← Matrix.mul_assoc, ← hY1]
  have a3 : A * (Y * Yᵀ) = A := by
    have := congrArg Matrix.transpose a2
    simpa [Matrix.transpose_mul, Matrix.mul_assoc] using this
  have a4 : Z * Zᵀ * A * (Y * Yᵀ) = Z * Zᵀ * (A * Y) * Yᵀ := by simp only [Matrix.mul_assoc]
  rw [a4, a1, Matrix.mul_assoc, a3]

/-- Finding: the matrix `(1, -1)ᵀ` has rank 1, but its rows add up to zero: with rank 1 asked for,
all factors are zero, `Uᵀ U` and `Vᵀ V` are not the unit matrix, and nothing of the matrix is
reproduced. -/
theorem C73_finding_lost (jac : Matrix (Fin 1) (Fin 1) ℝ → Factors 1 1 1) :
    ∃ f, computeCore jac (!![1; -1] : Matrix (Fin 2) (Fin 1) ℝ) = .ok f ∧ f.U = 0 ∧ f.V = 0 ∧
      f.Uᵀ * f.U ≠ 1 ∧ f.Vᵀ * f.V ≠ 1 ∧ f.U * diagonal f.S * f.Vᵀ = 0 := by
  have e := C73_unit_matrix 2 1 (by decide) (by decide)
  have e0 : ((!![1; -1] : Matrix (Fin 2) (Fin 1) ℝ)ᵀ * groups 2 1) = 0 := by
    ext i j
    fin_cases i; fin_cases j
    simp [Matrix.mul_apply, groups, Fin.sum_univ_two]
  have z : ∀ m, orthonormalize (0 : Matrix (Fin m) (Fin 1) ℝ) = 0 := by
    intro m
    obtain ⟨T, _, h⟩ := orth_span (0 : Matrix (Fin m) (Fin 1) ℝ)
    rw [h, Matrix.zero_mul]
  refine ⟨⟨0, (jac 0).S, 0⟩, ?_, rfl, rfl, ?_, ?_, ?_⟩
  · unfold computeCore
    rw [e]
    simp only [Res.ok_bind, e0, z, Matrix.mul_zero, Matrix.zero_mul]
  · intro h
    have := congrFun (congrFun h 0) 0
    simp at this
  · intro h
    have := congrFun (congrFun h 0) 0
    simp at this
  · simp

/-- Finding: the product of indices overflows for 50000 rows and a rank of 50000, which is far
below the largest `int`. -/
theorem C73_finding_overflow : initUnitMatrix 50000 50000 = .ub := by
  have key : ∀ (l : List (Fin 50000)) (M : Matrix (Fin 50000) (Fin 50000) ℝ),
      (∃ i ∈ l, intMax < i.val * 50000) → l.foldlM unitStep M = .ub := by
    intro l
    induction l with
    | nil => rintro M ⟨i, hi, _⟩; simp at hi
    | cons a l ih =>
      rintro M ⟨i, hi, hlt⟩
      rw [List.foldlM_cons]
      by_cases ha : intMax < a.val * 50000
      · simp only [unitStep, if_pos ha, Res.ub_bind]
      · have hil : i ∈ l := by
          rcases List.mem_cons.1 hi with rfl | h
          · exact absurd hlt ha
          · exact h
        simp only [unitStep, if_neg ha]
        rw [dif_pos (group_lt a.isLt (by decide))]
        exact ih _ ⟨i, hil, hlt⟩
  exact key _ _ ⟨⟨49999, by decide⟩, List.mem_finRange _, by decide⟩

/-- A value for the parameter exists in the smallest case: the decomposition of a 1×1 matrix. -/
noncomputable def jac1 (C : Matrix (Fin 1) (Fin 1) ℝ) : Factors 1 1 1 :=
  ⟨!![if 0 ≤ C 0 0 then 1 else -1], fun _ => |C 0 0|, 1⟩

example : ∀ C, IsSvd C (jac1 C) := by
  intro C
  refine ⟨?_, ?_, ?_, ?_, ?_⟩
  · ext i j
    fin_cases i; fin_cases j
    by_cases h : 0 ≤ C 0 0
    · simp [jac1, Matrix.mul_apply, h, abs_of_nonneg h]
    · simp [jac1, Matrix.mul_apply, h, abs_of_neg (not_le.1 h)]
  · ext i j
    fin_cases i; fin_cases j
    by_cases h : 0 ≤ C 0 0 <;> simp [jac1, Matrix.mul_apply, h]
  · simp [jac1]
  · intro i; exact abs_nonneg _
  · intro i j _; exact le_refl _

/-- The hypothesis of `C73_exact` on the rows: a matrix of rank one whose rows add up to a
multiple of each. -/
example : (!![1, 2; 2, 4] : Matrix (Fin 2) (Fin 2) ℝ) =
    (!![1 / 3; 2 / 3] : Matrix (Fin 2) (Fin 1) ℝ) *
      ((groups 2 1)ᵀ * (!![1, 2; 2, 4] : Matrix (Fin 2) (Fin 2) ℝ)) := by
  ext i j
  fin_cases i <;> fin_cases j <;>
    simp [Matrix.mul_apply, groups, Fin.sum_univ_two] <;> norm_num

/-- 5 rows in 2 groups: 3 and 2. -/
example : (List.range 5).map (fun i => i * 2 / 5) = [0, 0, 0, 1, 1] := by decide

end Verif.Props.Svd

#print axioms Verif.Props.Svd.C73_orthonormalize
#print axioms Verif.Props.Svd.C73_all_rows
#print axioms Verif.Props.Svd.C73_exact
