import Verif.Spec.Svd
import Mathlib.Algebra.BigOperators.Field
import Mathlib.Tactic.Ring
import Mathlib.Tactic.FieldSimp
import Mathlib.Tactic.Linarith
import Mathlib.Tactic.NoncommRing
import Mathlib.Tactic.Positivity
set_option linter.unusedSimpArgs false
namespace Verif.Svd
open Matrix Verif.SvdSpec

/-! ## the grouping matrix -/

theorem group_lt {row col i : Nat} (hi : i < row) (hc : 0 < col) : i * col / row < col := by
  rw [Nat.div_lt_iff_lt_mul (by omega)]
  rw [Nat.mul_comm col row]
  exact Nat.mul_lt_mul_of_pos_right hi hc

theorem unit_fold {row col : Nat} (hc : 0 < col) (hm : ∀ i : Fin row, i.val * col ≤ intMax)
    (l : List (Fin row)) (M : Matrix (Fin row) (Fin col) ℝ) :
    l.foldlM unitStep M =
      .ok (Matrix.of fun a b => if a ∈ l ∧ a.val * col / row = b.val then 1 else M a b) := by
  induction l generalizing M with
  | nil => simp; rfl
  | cons i l ih =>
    have h1 := hm i
    have h2 : i.val * col / row < col := group_lt i.isLt hc
    simp only [List.foldlM_cons, unitStep, if_neg (Nat.not_lt.2 h1), dif_pos h2, Res.ok_bind]
    rw [ih]
    congr 1
    ext a b
    simp only [setAt, of_apply, List.mem_cons]
    by_cases ha : a ∈ l ∧ a.val * col / row = b.val
    · rw [if_pos ha, if_pos ⟨.inr ha.1, ha.2⟩]
    · rw [if_neg ha]
      by_cases hb : a = i ∧ b = ⟨i.val * col / row, h2⟩
      · rw [if_pos hb, if_pos]
        obtain ⟨rfl, hb⟩ := hb
        exact ⟨.inl rfl, by rw [hb]⟩
      · rw [if_neg hb, if_neg]
        rintro ⟨h | h, h'⟩
        · apply hb
          refine ⟨h, ?_⟩
          subst h
          exact Fin.ext h'.symm
        · exact ha ⟨h, h'⟩

theorem initUnit_eq {row col : Nat} (hc : 0 < col) (hm : ∀ i : Fin row, i.val * col ≤ intMax) :
    initUnitMatrix row col = .ok (groups row col) := by
  unfold initUnitMatrix
  rw [unit_fold hc hm]
  congr 1
  ext a b
  simp [groups]

theorem compress_fold {row col r : Nat} (m : Matrix (Fin row) (Fin col) ℝ)
    (hm : r * col + r ≤ intMax) (n : Nat) (hn : n ≤ r) (M : Matrix (Fin row) (Fin r) ℝ) :
    ((List.finRange r).take n).foldlM (compressStep m) (M, 0) =
      .ok (Matrix.of fun i j => if j.val < n then
          sumRow m i (if j.val = 0 then 0 else groupEnd col r (j.val - 1)) (groupEnd col r j.val)
        else M i j,
        if n = 0 then 0 else groupEnd col r (n - 1)) := by
  induction n with
  | zero => simp; rfl
  | succ n ih =>
    have hn' : n < r := hn
    have : (List.finRange r).take (n + 1) = (List.finRange r).take n ++ [⟨n, hn'⟩] := by
      rw [List.take_succ_eq_append_getElem (by simpa using hn')]
      simp
    rw [this, List.foldlM_append, ih (by omega)]
    have hb : ¬ intMax < (n + 1) * col + r := by
      have : (n + 1) * col ≤ r * col := Nat.mul_le_mul_right _ hn
      omega
    simp only [Res.ok_bind, List.foldlM_cons, List.foldlM_nil, compressStep, if_neg hb, Res.pure_eq]
    congr 1
    refine Prod.ext ?_ (by simp)
    ext i j
    simp only [updateCol_apply, of_apply]
    by_cases hj : j = ⟨n, hn'⟩
    · subst hj
      simp
    · have : j.val ≠ n := fun h => hj (Fin.ext h)
      rw [if_neg hj]
      by_cases hlt : j.val < n
      · have h' : j.val < n + 1 := by omega
        rw [if_pos hlt, if_pos h']
      · have h' : ¬ j.val < n + 1 := by omega
        rw [if_neg hlt, if_neg h']

theorem ceil_le {col r j k : Nat} (hr : 0 < r) : (j * col + r - 1) / r ≤ k ↔ j * col ≤ k * r := by
  rw [Nat.div_le_iff_le_mul_add_pred hr]
  rw [Nat.mul_comm k r]
  omega

theorem group_mem {col r : Nat} (hr : 0 < r) (j k : Nat) (hk : k < col) :
    ((if j = 0 then 0 else groupEnd col r (j - 1)) ≤ k ∧ k < groupEnd col r j) ↔
      k * r / col = j := by
  have hc : 0 < col := by omega
  have e1 : (if j = 0 then 0 else groupEnd col r (j - 1)) ≤ k ↔ j * col ≤ k * r := by
    split
    · rename_i h; subst h; simp
    · rename_i h
      unfold groupEnd
      have : j - 1 + 1 = j := by omega
      rw [this]
      rw [← ceil_le hr]
      omega
  have e2 : k < groupEnd col r j ↔ k * r < (j + 1) * col := by
    unfold groupEnd
    have := ceil_le (col := col) (j := j + 1) (k := k) hr
    constructor
    · intro h
      by_contra h'
      have := this.2 (by omega)
      omega
    · intro h
      have : ¬ ((j + 1) * col + r - 1) / r ≤ k := fun h' => by
        have := this.1 h'; omega
      omega
  rw [e1, e2]
  constructor
  · rintro ⟨h1, h2⟩
    apply Nat.div_eq_of_lt_le
    · rw [Nat.mul_comm]; rw [Nat.mul_comm] at h1; exact h1
    · rw [Nat.mul_comm] at h2 ⊢; simpa [Nat.mul_comm] using h2
  · intro h
    subst h
    exact ⟨Nat.div_mul_le_self _ _, by
      have := Nat.lt_div_mul_add (a := k * r) hc
      rw [Nat.add_mul]; omega⟩

theorem compress_eq {row col r : Nat} (m : Matrix (Fin row) (Fin col) ℝ) (hr : 0 < r)
    (hm : r * col + r ≤ intMax) : compressCol m r = .ok (m * groups col r) := by
  unfold compressCol
  have := compress_fold m hm r (Nat.le_refl _) 0
  rw [show (List.finRange r).take r = List.finRange r by
    apply List.take_of_length_le; simp] at this
  have h0 : ((0, 0) : Matrix (Fin row) (Fin r) ℝ × Nat) = (0, 0) := rfl
  rw [this]
  simp only [Res.ok_bind]
  congr 1
  ext i j
  simp only [of_apply, j.isLt, if_true, sumRow, Matrix.mul_apply, groups]
  apply Finset.sum_congr rfl
  intro k _
  have := group_mem hr j.val k.val k.isLt
  by_cases h : k.val * r / col = j.val
  · rw [if_pos (this.2 h), if_pos h, mul_one]
  · rw [if_neg (fun h' => h (this.1 h')), if_neg h, mul_zero]

/-! ## orthonormalization -/

/-- The inner product of two columns. -/
def cd {m c : Nat} (M : Matrix (Fin m) (Fin c) ℝ) (i j : Fin c) : ℝ := ∑ k, M k i * M k j

theorem cd_comm {m c : Nat} (M : Matrix (Fin m) (Fin c) ℝ) (i j : Fin c) : cd M i j = cd M j i := by
  unfold cd; exact Finset.sum_congr rfl fun k _ => mul_comm _ _

theorem elim_fold {m c : Nat} (i : Fin c) (l : List (Fin c)) (hn : l.Nodup) (hi : i ∉ l)
    (M : Matrix (Fin m) (Fin c) ℝ) :
    l.foldl (elimCol i) M =
      Matrix.of fun k j => if j ∈ l then M k j - M k i * cd M i j else M k j := by
  induction l generalizing M with
  | nil => ext; simp
  | cons a l ih =>
    obtain ⟨ha, hn'⟩ := List.nodup_cons.1 hn
    have hia : i ≠ a := fun h => hi (by simp [h])
    rw [List.foldl_cons, ih hn' (fun h => hi (by simp [h]))]
    have e1 : ∀ k, elimCol i M a k i = M k i := fun k => by
      simp [elimCol, updateCol_apply, hia]
    have e2 : ∀ k j, j ≠ a → elimCol i M a k j = M k j := fun k j h => by
      simp [elimCol, updateCol_apply, h]
    have e3 : ∀ k, elimCol i M a k a = M k a - M k i * cd M i a := fun k => by
      simp [elimCol, updateCol_apply, cd]
    ext k j
    simp only [of_apply, List.mem_cons]
    by_cases hj : j = a
    · subst hj
      rw [if_neg ha, if_pos (.inl rfl), e3]
    · by_cases hl : j ∈ l
      · rw [if_pos hl, if_pos (.inr hl), e1, e2 k j hj]
        congr 2
        unfold cd
        exact Finset.sum_congr rfl fun k _ => by rw [e1, e2 k j hj]
      · rw [if_neg hl, if_neg (by simp [hj, hl]), e2 k j hj]

/-- The state of the outer loop after the columns below `t`. -/
structure OInv {m c : Nat} (M : Matrix (Fin m) (Fin c) ℝ) (t : Nat) (Q : Matrix (Fin m) (Fin c) ℝ) :
    Prop where
  unit : ∀ i : Fin c, i.val < t → cd Q i i = 1 ∨ ∀ k, Q k i = 0
  orth : ∀ i j : Fin c, i.val < t → i ≠ j → cd Q i j = 0
  dec : ∃ R : Matrix (Fin c) (Fin c) ℝ, ∃ E : Matrix (Fin m) (Fin c) ℝ,
    (∀ i j, j < i → R i j = 0) ∧ (∀ i j : Fin c, t ≤ i.val → R i j = 0) ∧
    (∀ j : Fin c, ∑ k, E k j ^ 2 < eps ^ 2) ∧
    (∀ j : Fin c, t ≤ j.val → ∀ k, E k j = 0) ∧
    (∀ j : Fin c, j.val < t → (∀ k, E k j = 0) ∨ ∀ k, Q k j = 0) ∧
    (∀ j : Fin c, j.val < t → cd Q j j = 1 → ∀ k, E k j = 0) ∧
    (∀ k j, M k j = (∑ i, Q k i * R i j) + E k j + if j.val < t then 0 else Q k j)
  span : ∃ T : Matrix (Fin c) (Fin c) ℝ, (∀ i j, j < i → T i j = 0) ∧
    ∀ k j, Q k j = ∑ i, M k i * T i j

theorem eps_pos : 0 < eps := by unfold eps; norm_num

theorem OInv.start {m c : Nat} (M : Matrix (Fin m) (Fin c) ℝ) : OInv M 0 M where
  unit := by intro i h; omega
  orth := by intro i j h; omega
  dec := by
    refine ⟨0, 0, by simp, by simp, ?_, by simp, by intro j h; omega, by intro j h; omega, ?_⟩
    · intro j; simp; exact pow_pos eps_pos 2
    · intro k j; simp
  span := ⟨1, fun i j h => by simp [Matrix.one_apply, ne_of_gt h], fun k j => by
    simp [Matrix.one_apply]⟩

theorem cd_of_zero {m c : Nat} {Q : Matrix (Fin m) (Fin c) ℝ} {i : Fin c} (h : ∀ k, Q k i = 0)
    (j : Fin c) : cd Q i j = 0 := by
  unfold cd; exact Finset.sum_eq_zero fun k _ => by rw [h k, zero_mul]

theorem orthStep_inv {m c : Nat} {M Q : Matrix (Fin m) (Fin c) ℝ} {t : Fin c}
    (h : OInv M t.val Q) : OInv M (t.val + 1) (orthStep Q t) := by
  unfold orthStep
  dsimp only
  have hsq : ∑ k, Q k t ^ 2 = cd Q t t := by
    unfold cd; exact Finset.sum_congr rfl fun k _ => by ring
  have hnn : 0 ≤ ∑ k, Q k t ^ 2 := Finset.sum_nonneg fun k _ => sq_nonneg _
  split
  · -- the column is dropped
    rename_i hlt
    have hE : ∑ k, Q k t ^ 2 < eps ^ 2 := by
      have := Real.lt_sqrt (x := 0) (y := 1)
      have h1 : Real.sqrt (∑ k, Q k t ^ 2) ^ 2 = ∑ k, Q k t ^ 2 := Real.sq_sqrt hnn
      rw [← h1]
      exact pow_lt_pow_left₀ hlt (Real.sqrt_nonneg _) (by norm_num)
    have e1 : ∀ k j, j ≠ t → (Q.updateCol t fun _ => 0) k j = Q k j := fun k j h => by
      simp [updateCol_apply, h]
    have e2 : ∀ k, (Q.updateCol t fun _ => 0) k t = 0 := fun k => by simp [updateCol_apply]
    have ecd : ∀ i j, i ≠ t → j ≠ t → cd (Q.updateCol t fun _ => 0) i j = cd Q i j :=
      fun i j hi hj => by
        unfold cd; exact Finset.sum_congr rfl fun k _ => by rw [e1 k i hi, e1 k j hj]
    refine ⟨?_, ?_, ?_, ?_⟩
    · intro i hi
      by_cases hit : i = t
      · subst hit; right; exact e2
      · have hlt : i.val < t.val := by
          have : i.val ≠ t.val := fun h => hit (Fin.ext h)
          omega
        rcases h.unit i hlt with h1 | h1
        · left; rw [ecd i i hit hit]; exact h1
        · right; intro k; rw [e1 k i hit]; exact h1 k
    · intro i j hi hij
      by_cases hit : i = t
      · subst hit; exact cd_of_zero e2 j
      · by_cases hjt : j = t
        · subst hjt; rw [cd_comm]; exact cd_of_zero e2 i
        · rw [ecd i j hit hjt]
          exact h.orth i j (by
            have : i.val ≠ t.val := fun h => hit (Fin.ext h)
            omega) hij
    · obtain ⟨R, E, hR, hR2, hE1, hE2, hE3, hE4, hd⟩ := h.dec
      refine ⟨R, E.updateCol t fun k => Q k t, hR, fun i j hi => hR2 i j (by omega), ?_, ?_, ?_, ?_,
        ?_⟩
      · intro j
        by_cases hj : j = t
        · subst hj; simpa [updateCol_apply] using hE
        · simpa [updateCol_apply, hj] using hE1 j
      · intro j hj k
        have : j ≠ t := fun h => by subst h; omega
        simp [updateCol_apply, this]
        exact hE2 j (by omega) k
      · intro j hj
        by_cases hjt : j = t
        · subst hjt; right; exact e2
        · have hlt : j.val < t.val := by
            have : j.val ≠ t.val := fun h => hjt (Fin.ext h)
            omega
          rcases hE3 j hlt with h1 | h1
          · left; intro k; simp [updateCol_apply, hjt]; exact h1 k
          · right; intro k; rw [e1 k j hjt]; exact h1 k
      · intro j hj hu k
        by_cases hjt : j = t
        · subst hjt
          rw [cd_of_zero e2 j] at hu
          norm_num at hu
        · have hlt : j.val < t.val := by
            have : j.val ≠ t.val := fun h => hjt (Fin.ext h)
            omega
          rw [ecd j j hjt hjt] at hu
          simp [updateCol_apply, hjt]
          exact hE4 j hlt hu k
      · intro k j
        have es : ∑ i, (Q.updateCol t fun _ => 0) k i * R i j = ∑ i, Q k i * R i j := by
          apply Finset.sum_congr rfl
          intro i _
          by_cases hit : i = t
          · subst hit; rw [hR2 i j (Nat.le_refl _)]; simp
          · rw [e1 k i hit]
        rw [es, hd k j]
        by_cases hjt : j = t
        · subst hjt
          simp [updateCol_apply, hE2 j (Nat.le_refl _) k]
        · have : j.val ≠ t.val := fun h => hjt (Fin.ext h)
          rw [e1 k j hjt]
          simp only [updateCol_apply, if_neg hjt]
          congr 1
          by_cases hlt : j.val < t.val
          · rw [if_pos hlt, if_pos (by omega)]
          · rw [if_neg hlt, if_neg (by omega)]
    · obtain ⟨T, hT, hs⟩ := h.span
      refine ⟨T.updateCol t fun _ => 0, ?_, ?_⟩
      · intro i j hij
        by_cases hj : j = t
        · simp [updateCol_apply, hj]
        · simp [updateCol_apply, hj, hT i j hij]
      · intro k j
        by_cases hj : j = t
        · subst hj; simp [updateCol_apply]
        · simp only [updateCol_apply, if_neg hj]; exact hs k j
  · -- the column is kept
    rename_i hge
    set nm := Real.sqrt (∑ k, Q k t ^ 2) with hnm
    have hpos : 0 < nm := lt_of_lt_of_le eps_pos (not_lt.1 hge)
    have hnm2 : nm ^ 2 = cd Q t t := by rw [hnm, Real.sq_sqrt hnn, hsq]
    set Q1 := Q.updateCol t fun k => Q k t * (1 / nm) with hQ1
    have e1 : ∀ k j, j ≠ t → Q1 k j = Q k j := fun k j h => by simp [hQ1, updateCol_apply, h]
    have e2 : ∀ k, Q1 k t = Q k t * (1 / nm) := fun k => by simp [hQ1, updateCol_apply]
    have hnd : ((List.finRange c).filter (t < ·)).Nodup := (List.nodup_finRange c).filter _
    have hni : t ∉ (List.finRange c).filter (t < ·) := by simp
    rw [elim_fold t _ hnd hni]
    have hmem : ∀ j : Fin c, j ∈ (List.finRange c).filter (t < ·) ↔ t < j := by intro j; simp
    simp only [hmem]
    set Q2 : Matrix (Fin m) (Fin c) ℝ :=
      Matrix.of fun k j => if t < j then Q1 k j - Q1 k t * cd Q1 t j else Q1 k j with hQ2
    have f1 : ∀ k j, j < t → Q2 k j = Q k j := fun k j hj => by
      simp only [hQ2, of_apply, if_neg (not_lt.2 (le_of_lt hj))]; exact e1 k j (ne_of_lt hj)
    have f2 : ∀ k, Q2 k t = Q k t * (1 / nm) := fun k => by
      simp only [hQ2, of_apply, lt_irrefl, if_false]; exact e2 k
    have f3 : ∀ k j, t < j → Q2 k j = Q k j - Q2 k t * (cd Q t j / nm) := fun k j hj => by
      rw [f2]
      simp only [hQ2, of_apply, if_pos hj]
      rw [e1 k j (ne_of_gt hj), e2]
      congr 2
      unfold cd
      rw [Finset.sum_div]
      exact Finset.sum_congr rfl fun k _ => by rw [e2, e1 k j (ne_of_gt hj)]; ring
    -- inner products of the new columns
    have htt : cd Q2 t t = 1 := by
      have : cd Q2 t t = cd Q t t * (1 / nm) ^ 2 := by
        unfold cd
        rw [Finset.sum_mul]
        exact Finset.sum_congr rfl fun k _ => by rw [f2]; ring
      rw [this, ← hnm2]
      field_simp
    have htQ : ∀ j, (∑ k, Q2 k t * Q k j) = cd Q t j / nm := fun j => by
      unfold cd
      rw [Finset.sum_div]
      exact Finset.sum_congr rfl fun k _ => by rw [f2]; ring
    have htl : ∀ j, j < t → cd Q2 t j = 0 := fun j hj => by
      have : cd Q2 t j = cd Q t j / nm := by
        rw [← htQ]
        unfold cd
        exact Finset.sum_congr rfl fun k _ => by rw [f1 k j hj]
      rw [this, cd_comm, h.orth j t hj (ne_of_lt hj), zero_div]
    have htg : ∀ j, t < j → cd Q2 t j = 0 := fun j hj => by
      have : cd Q2 t j = (∑ k, Q2 k t * Q k j) - cd Q2 t t * (cd Q t j / nm) := by
        unfold cd
        rw [Finset.sum_mul, ← Finset.sum_sub_distrib]
        exact Finset.sum_congr rfl fun k _ => by rw [f3 k j hj]; unfold cd; ring
      rw [this, htQ, htt]; ring
    have hll : ∀ i j, i < t → j < t → cd Q2 i j = cd Q i j := fun i j hi hj => by
      unfold cd
      exact Finset.sum_congr rfl fun k _ => by rw [f1 k i hi, f1 k j hj]
    have hlg : ∀ i j, i < t → t < j → cd Q2 i j = 0 := fun i j hi hj => by
      have : cd Q2 i j = cd Q i j - cd Q2 i t * (cd Q t j / nm) := by
        unfold cd
        rw [Finset.sum_mul, ← Finset.sum_sub_distrib]
        exact Finset.sum_congr rfl fun k _ => by rw [f3 k j hj, f1 k i hi]; unfold cd; ring
      rw [this, h.orth i j hi (ne_of_lt (lt_trans hi hj)), cd_comm, htl i hi]; ring
    have tri : ∀ i : Fin c, i.val < t.val + 1 → i < t ∨ i = t := fun i hi => by
      rcases lt_trichotomy i t with h | h | h
      · exact .inl h
      · exact .inr h
      · have : t.val < i.val := h
        omega
    refine ⟨?_, ?_, ?_, ?_⟩
    · intro i hi
      rcases tri i hi with hlt | rfl
      · rcases h.unit i hlt with h1 | h1
        · left; rw [hll i i hlt hlt]; exact h1
        · right; intro k; rw [f1 k i hlt]; exact h1 k
      · left; exact htt
    · intro i j hi hij
      rcases tri i hi with hlt | rfl
      · rcases lt_trichotomy j t with hj | hj | hj
        · rw [hll i j hlt hj]; exact h.orth i j hlt hij
        · rw [hj, cd_comm]; exact htl i hlt
        · exact hlg i j hlt hj
      · rcases lt_trichotomy j i with hj | hj | hj
        · exact htl j hj
        · exact absurd hj.symm hij
        · exact htg j hj
    · obtain ⟨R, E, hR, hR2, hE1, hE2, hE3, hE4, hd⟩ := h.dec
      refine ⟨Matrix.of fun i j => if i = t then
          (if j = t then nm else if t < j then cd Q t j / nm else 0) else R i j, E, ?_, ?_, hE1,
        fun j hj => hE2 j (by omega), ?_, ?_, ?_⟩
      · intro i j hij
        simp only [of_apply]
        by_cases hi : i = t
        · subst hi
          rw [if_pos rfl, if_neg (ne_of_lt hij), if_neg (not_lt.2 (le_of_lt hij))]
        · rw [if_neg hi]; exact hR i j hij
      · intro i j hi
        have : i ≠ t := fun h => by subst h; omega
        simp only [of_apply, if_neg this]
        exact hR2 i j (by omega)
      · intro j hj
        rcases tri j hj with hlt | rfl
        · rcases hE3 j hlt with h1 | h1
          · exact .inl h1
          · right; intro k; rw [f1 k j hlt]; exact h1 k
        · left; exact hE2 j (Nat.le_refl _)
      · intro j hj hu
        rcases tri j hj with hlt | rfl
        · rw [hll j j hlt hlt] at hu; exact hE4 j hlt hu
        · exact hE2 j (Nat.le_refl _)
      · intro k j
        have es : ∑ i, Q2 k i * (Matrix.of fun i j => if i = t then
            (if j = t then nm else if t < j then cd Q t j / nm else 0) else R i j) i j =
            (∑ i, Q k i * R i j) +
              Q2 k t * (if j = t then nm else if t < j then cd Q t j / nm else 0) := by
          rw [← Finset.add_sum_erase _ _ (Finset.mem_univ t),
            ← Finset.add_sum_erase (Finset.univ) (fun i => Q k i * R i j) (Finset.mem_univ t)]
          rw [hR2 t j (Nat.le_refl _)]
          simp only [of_apply, if_true, mul_zero, zero_add]
          rw [add_comm]
          congr 1
          apply Finset.sum_congr rfl
          intro i hi
          have hit := Finset.ne_of_mem_erase hi
          rw [if_neg hit]
          rcases lt_trichotomy i t with h' | h' | h'
          · rw [f1 k i h']
          · exact absurd h' hit
          · rw [hR2 i j (le_of_lt h')]; ring
        rw [es, hd k j]
        rcases lt_trichotomy j t with hj | hj | hj
        · have : j.val < t.val := hj
          rw [if_neg (ne_of_lt hj), if_neg (not_lt.2 (le_of_lt hj)), if_pos this,
            if_pos (by omega)]
          ring
        · subst hj
          rw [if_pos rfl, if_neg (lt_irrefl _), if_pos (by omega), f2]
          field_simp
          ring
        · have : t.val < j.val := hj
          rw [if_neg (ne_of_gt hj), if_pos hj, if_neg (by omega), if_neg (by omega), f3 k j hj]
          ring
    · obtain ⟨T, hT, hs⟩ := h.span
      refine ⟨Matrix.of fun i j => if j = t then T i t * (1 / nm) else if t < j then
        T i j - T i t * (1 / nm) * (cd Q t j / nm) else T i j, ?_, ?_⟩
      · intro i j hij
        simp only [of_apply]
        split
        · rename_i hj; rw [hT i t (by rw [← hj]; exact hij)]; ring
        · split
          · rename_i h1 h2
            rw [hT i j hij, hT i t (lt_trans h2 hij)]; ring
          · exact hT i j hij
      · intro k j
        simp only [of_apply]
        rcases lt_trichotomy j t with hj | hj | hj
        · rw [f1 k j hj, hs k j]
          exact Finset.sum_congr rfl fun i _ => by
            rw [if_neg (ne_of_lt hj), if_neg (not_lt.2 (le_of_lt hj))]
        · subst hj
          rw [f2, hs k j, Finset.sum_mul]
          exact Finset.sum_congr rfl fun i _ => by rw [if_pos rfl]; ring
        · rw [f3 k j hj, f2, hs k j, hs k t, Finset.sum_mul, Finset.sum_mul,
            ← Finset.sum_sub_distrib]
          exact Finset.sum_congr rfl fun i _ => by
            rw [if_neg (ne_of_gt hj), if_pos hj]; ring

theorem orth_fold {m c : Nat} (M : Matrix (Fin m) (Fin c) ℝ) (n : Nat) (hn : n ≤ c) :
    OInv M n (((List.finRange c).take n).foldl orthStep M) := by
  induction n with
  | zero => simpa using OInv.start M
  | succ n ih =>
    have : (List.finRange c).take (n + 1) = (List.finRange c).take n ++ [⟨n, hn⟩] := by
      rw [List.take_succ_eq_append_getElem (by simpa using hn)]
      simp
    rw [this, List.foldl_append]
    exact orthStep_inv (t := ⟨n, hn⟩) (ih (by omega))

theorem orth_inv {m c : Nat} (M : Matrix (Fin m) (Fin c) ℝ) : OInv M c (orthonormalize M) := by
  have := orth_fold M c (Nat.le_refl _)
  rwa [show (List.finRange c).take c = List.finRange c by
    apply List.take_of_length_le; simp] at this

/-- The diagonal of `Qᵀ Q`. -/
noncomputable def kept {m c : Nat} (Q : Matrix (Fin m) (Fin c) ℝ) (i : Fin c) : ℝ := cd Q i i

/-- A matrix with columns that are zero or of length one and orthogonal to each other. -/
structure Ortho {m c : Nat} (Q : Matrix (Fin m) (Fin c) ℝ) : Prop where
  unit : ∀ i : Fin c, cd Q i i = 1 ∨ ∀ k, Q k i = 0
  orth : ∀ i j : Fin c, i ≠ j → cd Q i j = 0

theorem Ortho.gram {m c : Nat} {Q : Matrix (Fin m) (Fin c) ℝ} (h : Ortho Q) :
    Qᵀ * Q = diagonal (kept Q) := by
  ext i j
  simp only [Matrix.mul_apply, transpose_apply, diagonal_apply]
  by_cases hij : i = j
  · subst hij; rw [if_pos rfl]; rfl
  · rw [if_neg hij]; exact h.orth i j hij

theorem Ortho.kept01 {m c : Nat} {Q : Matrix (Fin m) (Fin c) ℝ} (h : Ortho Q) (i : Fin c) :
    kept Q i = 1 ∨ kept Q i = 0 ∧ ∀ k, Q k i = 0 := by
  rcases h.unit i with h1 | h1
  · exact .inl h1
  · exact .inr ⟨cd_of_zero h1 i, h1⟩

theorem Ortho.mul_kept {m c : Nat} {Q : Matrix (Fin m) (Fin c) ℝ} (h : Ortho Q) :
    Q * diagonal (kept Q) = Q := by
  ext k i
  rw [Matrix.mul_diagonal]
  rcases h.kept01 i with h1 | ⟨h1, h2⟩
  · rw [h1, mul_one]
  · rw [h2 k, zero_mul]

/-- `Q Qᵀ` is a projection. -/
theorem Ortho.proj {m c : Nat} {Q : Matrix (Fin m) (Fin c) ℝ} (h : Ortho Q) :
    Q * Qᵀ * Q = Q := by
  rw [Matrix.mul_assoc, h.gram, h.mul_kept]

theorem orth_ortho {m c : Nat} (M : Matrix (Fin m) (Fin c) ℝ) : Ortho (orthonormalize M) :=
  ⟨fun i => (orth_inv M).unit i i.isLt, fun i j h => (orth_inv M).orth i j i.isLt h⟩

/-- The decomposition as matrices. -/
theorem orth_dec {m c : Nat} (M : Matrix (Fin m) (Fin c) ℝ) :
    ∃ R : Matrix (Fin c) (Fin c) ℝ, ∃ E : Matrix (Fin m) (Fin c) ℝ,
      Upper R ∧ M = orthonormalize M * R + E ∧ (∀ j, ∑ k, E k j ^ 2 < eps ^ 2) ∧
      ∀ j, kept (orthonormalize M) j = 1 → ∀ k, E k j = 0 := by
  obtain ⟨R, E, hR, _, hE1, _, _, hE4, hd⟩ := (orth_inv M).dec
  refine ⟨R, E, hR, ?_, hE1, fun j hj => hE4 j j.isLt hj⟩
  ext k j
  rw [hd k j, if_pos j.isLt, Matrix.add_apply, Matrix.mul_apply, add_zero]

theorem orth_span {m c : Nat} (M : Matrix (Fin m) (Fin c) ℝ) :
    ∃ T : Matrix (Fin c) (Fin c) ℝ, Upper T ∧ orthonormalize M = M * T := by
  obtain ⟨T, hT, hs⟩ := (orth_inv M).span
  refine ⟨T, hT, ?_⟩
  ext k j
  rw [hs k j, Matrix.mul_apply]

/-! ## the Frobenius norm and projections -/

theorem frob_eq_trace {m n : Nat} (N : Matrix (Fin m) (Fin n) ℝ) : frob N = trace (Nᵀ * N) := by
  unfold frob
  simp only [trace, diag, Matrix.mul_apply, transpose_apply]
  rw [Finset.sum_comm]
  exact Finset.sum_congr rfl fun j _ => Finset.sum_congr rfl fun i _ => by ring

theorem frob_transpose {m n : Nat} (N : Matrix (Fin m) (Fin n) ℝ) : frob Nᵀ = frob N := by
  unfold frob
  rw [Finset.sum_comm]
  rfl

theorem frob_nonneg {m n : Nat} (N : Matrix (Fin m) (Fin n) ℝ) : 0 ≤ frob N :=
  Finset.sum_nonneg fun _ _ => Finset.sum_nonneg fun _ _ => sq_nonneg _

/-- Pythagoras: a projection splits the norm. -/
theorem frob_split {m n : Nat} (P : Matrix (Fin m) (Fin m) ℝ) (hs : Pᵀ = P) (hp : P * P = P)
    (N : Matrix (Fin m) (Fin n) ℝ) : frob N = frob (P * N) + frob ((1 - P) * N) := by
  simp only [frob_eq_trace]
  rw [← Matrix.trace_add]
  congr 1
  rw [Matrix.transpose_mul, Matrix.transpose_mul, hs, Matrix.transpose_sub, hs,
    Matrix.transpose_one]
  have e1 : Nᵀ * P * (P * N) = Nᵀ * (P * P) * N := by simp only [Matrix.mul_assoc]
  have e2 : Nᵀ * (1 - P) * ((1 - P) * N) = Nᵀ * ((1 - P) * (1 - P)) * N := by
    simp only [Matrix.mul_assoc]
  have e3 : (1 - P) * (1 - P) = 1 - P := by
    rw [Matrix.sub_mul, Matrix.mul_sub, Matrix.mul_sub, hp]
    simp
  rw [e1, e2, e3, hp, ← Matrix.add_mul, ← Matrix.mul_add]
  simp

theorem frob_add_orth {m n : Nat} (P : Matrix (Fin n) (Fin n) ℝ) (hs : Pᵀ = P) (hp : P * P = P)
    (N1 N2 : Matrix (Fin m) (Fin n) ℝ) (h1 : N1 * P = 0) (h2 : N2 * P = N2) :
    frob (N1 + N2) = frob N1 + frob N2 := by
  have e := frob_split P hs hp (N1 + N2)ᵀ
  have a1 : P * (N1 + N2)ᵀ = N2ᵀ := by
    rw [← hs, ← Matrix.transpose_mul, Matrix.add_mul, h1, h2, zero_add]
  have a2 : (1 - P) * (N1 + N2)ᵀ = N1ᵀ := by
    rw [Matrix.sub_mul, a1, Matrix.one_mul, Matrix.transpose_add, add_sub_cancel_right]
  rw [a1, a2, frob_transpose, frob_transpose, frob_transpose] at e
  rw [e, add_comm]

theorem frob_cols {m n : Nat} (N : Matrix (Fin m) (Fin n) ℝ) (b : ℝ)
    (h : ∀ j, ∑ k, N k j ^ 2 ≤ b) : frob N ≤ n * b := by
  unfold frob
  rw [Finset.sum_comm]
  calc _ ≤ ∑ _j : Fin n, b := Finset.sum_le_sum fun j _ => h j
    _ = n * b := by simp

theorem Ortho.sym {m c : Nat} (Q : Matrix (Fin m) (Fin c) ℝ) : (Q * Qᵀ)ᵀ = Q * Qᵀ := by
  rw [Matrix.transpose_mul, Matrix.transpose_transpose]

theorem Ortho.idem {m c : Nat} {Q : Matrix (Fin m) (Fin c) ℝ} (h : Ortho Q) :
    Q * Qᵀ * (Q * Qᵀ) = Q * Qᵀ := by
  rw [← Matrix.mul_assoc, h.proj]

/-- Multiplying by `Qᵀ` on the right does not make the norm larger. -/
theorem Ortho.frob_mul {m c n : Nat} {Q : Matrix (Fin m) (Fin c) ℝ} (h : Ortho Q)
    (N : Matrix (Fin n) (Fin c) ℝ) : frob (N * Qᵀ) ≤ frob N := by
  have e1 : frob (N * Qᵀ) = trace (Nᵀ * N * diagonal (kept Q)) := by
    rw [frob_eq_trace, Matrix.transpose_mul, Matrix.transpose_transpose]
    rw [show Q * Nᵀ * (N * Qᵀ) = Q * (Nᵀ * N * Qᵀ) by simp only [Matrix.mul_assoc]]
    rw [Matrix.trace_mul_comm, Matrix.mul_assoc, h.gram]
  rw [e1, frob_eq_trace]
  simp only [trace, diag]
  apply Finset.sum_le_sum
  intro j _
  rw [Matrix.mul_diagonal]
  have hn : 0 ≤ (Nᵀ * N) j j := by
    rw [Matrix.mul_apply]
    exact Finset.sum_nonneg fun k _ => mul_self_nonneg _
  rcases h.kept01 j with h1 | ⟨h1, _⟩
  · rw [h1, mul_one]
  · rw [h1, mul_zero]; exact hn

/-- What is left of `M` outside of the columns of the orthonormalized matrix. -/
theorem orth_rest {m c : Nat} (M : Matrix (Fin m) (Fin c) ℝ) :
    frob ((1 - orthonormalize M * (orthonormalize M)ᵀ) * M) ≤ c * eps ^ 2 ∧
    ((orthonormalize M)ᵀ * orthonormalize M = 1 →
      (1 - orthonormalize M * (orthonormalize M)ᵀ) * M = 0) := by
  obtain ⟨R, E, _, hM, hE, hE0⟩ := orth_dec M
  have ho := orth_ortho M
  set Q := orthonormalize M with hQ
  have e : (1 - Q * Qᵀ) * M = (1 - Q * Qᵀ) * E := by
    rw [hM, Matrix.mul_add]
    rw [show (1 - Q * Qᵀ) * (Q * R) = (Q - Q * Qᵀ * Q) * R by
      rw [← Matrix.mul_assoc, Matrix.sub_mul, Matrix.one_mul], ho.proj]
    simp
  refine ⟨?_, ?_⟩
  · rw [e]
    have := frob_split (Q * Qᵀ) (Ortho.sym Q) ho.idem E
    have h2 := frob_nonneg (Q * Qᵀ * E)
    have h3 := frob_cols E (eps ^ 2) fun j => (hE j).le
    linarith
  · intro h1
    have : E = 0 := by
      ext k j
      apply hE0
      have := congrFun (congrFun (ho.gram.symm.trans h1) j) j
      simpa using this
    rw [e, this, Matrix.mul_zero]

theorem orth_step_id {m c : Nat} (M : Matrix (Fin m) (Fin c) ℝ) (h : Mᵀ * M = 1) (t : Fin c) :
    orthStep M t = M := by
  have hcd : ∀ i j, cd M i j = if i = j then 1 else 0 := fun i j => by
    have := congrFun (congrFun h i) j
    simp only [Matrix.mul_apply, transpose_apply, Matrix.one_apply] at this
    exact this
  unfold orthStep
  dsimp only
  have hsq : ∑ k, M k t ^ 2 = 1 := by
    have := hcd t t
    simp only [cd, if_true] at this
    rw [← this]
    exact Finset.sum_congr rfl fun k _ => by ring
  rw [hsq, Real.sqrt_one, if_neg (by unfold eps; norm_num)]
  have : (M.updateCol t fun k => M k t * (1 / 1)) = M := by
    ext k j
    by_cases hj : j = t
    · subst hj; simp [updateCol_apply]
    · simp [updateCol_apply, hj]
  rw [this, elim_fold t _ ((List.nodup_finRange c).filter _) (by simp)]
  ext k j
  simp only [of_apply]
  split
  · rename_i hj
    have : t ≠ j := by
      have : t < j := by simpa using hj
      exact ne_of_lt this
    rw [hcd, if_neg this]; ring
  · rfl

theorem orth_id {m c : Nat} (M : Matrix (Fin m) (Fin c) ℝ) (h : Mᵀ * M = 1) :
    orthonormalize M = M := by
  unfold orthonormalize
  generalize List.finRange c = l
  induction l with
  | nil => rfl
  | cons a l ih => rw [List.foldl_cons, orth_step_id M h, ih]

theorem groups_self (n : Nat) : groups n n = 1 := by
  ext i j
  have : i.val * n / n = i.val := Nat.mul_div_cancel _ (by have := i.isLt; omega)
  simp only [groups, of_apply, this, Matrix.one_apply]
  by_cases h : i = j
  · simp [h]
  · have : i.val ≠ j.val := fun h' => h (Fin.ext h')
    simp [h, this]

end Verif.Svd
