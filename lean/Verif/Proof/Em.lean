import Mathlib.Analysis.SpecialFunctions.Log.Basic
import Mathlib.Algebra.Order.BigOperators.Ring.Finset
import Mathlib.Algebra.BigOperators.Field
set_option linter.unusedSimpArgs false

/-!
# One round of expectation maximisation does not lower the likelihood
-/
namespace Verif.Em

open Finset

/-- Gibbs' inequality. -/
theorem gibbs {α : Type} (A : Finset α) (w r : α → ℝ) (hw : ∀ a ∈ A, 0 ≤ w a) (hW : 0 < ∑ a ∈ A, w a)
    (hr : ∀ a ∈ A, 0 ≤ r a) (hr1 : ∑ a ∈ A, r a ≤ 1) (hp : ∀ a ∈ A, 0 < w a → 0 < r a) :
    ∑ a ∈ A, w a * Real.log (r a) ≤ ∑ a ∈ A, w a * Real.log (w a / ∑ b ∈ A, w b) := by
  have key : ∀ a ∈ A, w a * Real.log (r a) - w a * Real.log (w a / ∑ b ∈ A, w b) ≤
      r a * (∑ b ∈ A, w b) - w a := by
    intro a ha
    rcases (hw a ha).eq_or_lt with h | h
    · rw [← h]
      simp only [zero_mul, sub_zero]
      exact mul_nonneg (hr a ha) hW.le
    · have hra := hp a ha h
      have hq : 0 < w a / ∑ b ∈ A, w b := div_pos h hW
      rw [← mul_sub, ← Real.log_div hra.ne' hq.ne']
      have h1 := Real.log_le_sub_one_of_pos (div_pos hra hq)
      calc w a * Real.log (r a / (w a / ∑ b ∈ A, w b))
          ≤ w a * (r a / (w a / ∑ b ∈ A, w b) - 1) := mul_le_mul_of_nonneg_left h1 h.le
        _ = r a * (∑ b ∈ A, w b) - w a := by
            have := h.ne'
            have := hW.ne'
            field_simp
  have hs := Finset.sum_le_sum key
  rw [Finset.sum_sub_distrib, Finset.sum_sub_distrib, ← Finset.sum_mul] at hs
  have : (∑ a ∈ A, r a) * (∑ b ∈ A, w b) ≤ 1 * ∑ b ∈ A, w b := mul_le_mul_of_nonneg_right hr1 hW.le
  linarith

/-- Jensen's inequality for the logarithm. -/
theorem jensen {κ : Type} (S : Finset κ) (q r : κ → ℝ) (hq : ∀ k ∈ S, 0 < q k) (hq1 : ∑ k ∈ S, q k = 1)
    (hr : ∀ k ∈ S, 0 < r k) :
    ∑ k ∈ S, q k * Real.log (r k) ≤ Real.log (∑ k ∈ S, q k * r k) := by
  have hne : S.Nonempty := by
    rcases S.eq_empty_or_nonempty with h | h
    · rw [h] at hq1; simp at hq1
    · exact h
  have hR : 0 < ∑ k ∈ S, q k * r k := Finset.sum_pos (fun k hk => mul_pos (hq k hk) (hr k hk)) hne
  have key : ∀ k ∈ S, q k * Real.log (r k) - q k * Real.log (∑ k ∈ S, q k * r k) ≤
      q k * r k / (∑ k ∈ S, q k * r k) - q k := by
    intro k hk
    rw [← mul_sub, ← Real.log_div (hr k hk).ne' hR.ne']
    have h1 := Real.log_le_sub_one_of_pos (div_pos (hr k hk) hR)
    calc _ ≤ q k * (r k / (∑ k ∈ S, q k * r k) - 1) := mul_le_mul_of_nonneg_left h1 (hq k hk).le
      _ = _ := by rw [mul_sub, mul_one, mul_div_assoc]
  have hs := Finset.sum_le_sum key
  rw [Finset.sum_sub_distrib, Finset.sum_sub_distrib, ← Finset.sum_mul, ← Finset.sum_div, hq1,
    div_self hR.ne', one_mul] at hs
  linarith

theorem fiber {ι α : Type} [DecidableEq α] (I : Finset ι) (A : Finset α) (x : ι → α)
    (hx : ∀ i ∈ I, x i ∈ A) (q : ι → ℝ) (f : α → ℝ) :
    ∑ a ∈ A, (∑ i ∈ I, if x i = a then q i else 0) * f a = ∑ i ∈ I, q i * f (x i) := by
  simp only [Finset.sum_mul]
  rw [Finset.sum_comm]
  apply Finset.sum_congr rfl
  intro i hi
  rw [Finset.sum_eq_single (x i)]
  · simp
  · intro b _ hb
    rw [if_neg (fun h => hb h.symm), zero_mul]
  · intro h
    exact absurd (hx i hi) h

/-- The part of the argument that is about one of the conditional distributions. -/
theorem cond_le {ι α : Type} [DecidableEq α] (I : Finset ι) (A : Finset α) (x : ι → α)
    (hx : ∀ i ∈ I, x i ∈ A) (q : ι → ℝ) (hq : ∀ i ∈ I, 0 < q i) (hI : I.Nonempty) (U : α → ℝ)
    (hU : ∀ a ∈ A, 0 ≤ U a) (hU1 : ∑ a ∈ A, U a ≤ 1) (hp : ∀ i ∈ I, 0 < U (x i)) :
    ∑ i ∈ I, q i * Real.log (U (x i)) ≤
      ∑ i ∈ I, q i * Real.log ((∑ j ∈ I, if x j = x i then q j else 0) / ∑ j ∈ I, q j) := by
  have hsum : ∑ a ∈ A, (∑ i ∈ I, if x i = a then q i else 0) = ∑ i ∈ I, q i := by
    have := fiber I A x hx q (fun _ => 1)
    simpa using this
  rw [← fiber I A x hx q (fun a => Real.log (U a)),
    ← fiber I A x hx q (fun a => Real.log ((∑ j ∈ I, if x j = a then q j else 0) / ∑ j ∈ I, q j)), ← hsum]
  apply gibbs
  · intro a _
    apply Finset.sum_nonneg
    intro i hi
    split
    · exact (hq i hi).le
    · exact le_refl _
  · rw [hsum]
    exact Finset.sum_pos hq hI
  · exact hU
  · exact hU1
  · intro a _ h
    by_contra hc
    have hz : ∀ i ∈ I, x i ≠ a := fun i hi e => hc (e ▸ hp i hi)
    rw [Finset.sum_eq_zero (fun i hi => if_neg (hz i hi))] at h
    exact lt_irrefl _ h

variable {ι κ α β : Type} [DecidableEq α] [DecidableEq β]

theorem own_pos (I : Finset ι) (x : ι → α) (q : ι → ℝ) (hq : ∀ i ∈ I, 0 < q i) (i : ι) (hi : i ∈ I) :
    0 < ∑ j ∈ I, if x j = x i then q j else 0 := by
  apply Finset.sum_pos'
  · intro j hj
    split
    · exact (hq j hj).le
    · exact le_refl _
  · exact ⟨i, hi, by simpa using hq i hi⟩

/-- One round of expectation maximisation for a mixture of products. -/
theorem em_mono (I : Finset ι) (S : Finset κ) (A : Finset α) (B : Finset β) (x : ι → α) (y : ι → β)
    (hI : I.Nonempty) (hS : S.Nonempty) (hx : ∀ i ∈ I, x i ∈ A) (hy : ∀ i ∈ I, y i ∈ B)
    (z : κ → ℝ) (U : κ → α → ℝ) (V : κ → β → ℝ)
    (hz : ∀ k ∈ S, 0 < z k) (hz1 : ∑ k ∈ S, z k ≤ 1)
    (hU : ∀ k ∈ S, ∀ a ∈ A, 0 ≤ U k a) (hU1 : ∀ k ∈ S, ∑ a ∈ A, U k a ≤ 1)
    (hUp : ∀ k ∈ S, ∀ i ∈ I, 0 < U k (x i))
    (hV : ∀ k ∈ S, ∀ b ∈ B, 0 ≤ V k b) (hV1 : ∀ k ∈ S, ∑ b ∈ B, V k b ≤ 1)
    (hVp : ∀ k ∈ S, ∀ i ∈ I, 0 < V k (y i))
    (q : κ → ι → ℝ)
    (hqd : ∀ k ∈ S, ∀ i ∈ I, q k i = z k * U k (x i) * V k (y i) /
      ∑ l ∈ S, z l * U l (x i) * V l (y i)) :
    ∑ i ∈ I, Real.log (∑ k ∈ S, z k * U k (x i) * V k (y i)) ≤
      ∑ i ∈ I, Real.log (∑ k ∈ S, (∑ j ∈ I, q k j) / I.card *
        ((∑ j ∈ I, if x j = x i then q k j else 0) / ∑ j ∈ I, q k j) *
        ((∑ j ∈ I, if y j = y i then q k j else 0) / ∑ j ∈ I, q k j)) := by
  have hp : ∀ k ∈ S, ∀ i ∈ I, 0 < z k * U k (x i) * V k (y i) := fun k hk i hi =>
    mul_pos (mul_pos (hz k hk) (hUp k hk i hi)) (hVp k hk i hi)
  have hP : ∀ i ∈ I, 0 < ∑ l ∈ S, z l * U l (x i) * V l (y i) := fun i hi =>
    Finset.sum_pos (fun k hk => hp k hk i hi) hS
  have hq : ∀ k ∈ S, ∀ i ∈ I, 0 < q k i := fun k hk i hi => by
    rw [hqd k hk i hi]; exact div_pos (hp k hk i hi) (hP i hi)
  have hq1 : ∀ i ∈ I, ∑ k ∈ S, q k i = 1 := by
    intro i hi
    rw [Finset.sum_congr rfl (fun k hk => hqd k hk i hi), ← Finset.sum_div, div_self (hP i hi).ne']
  have hn : (0 : ℝ) < I.card := by exact_mod_cast hI.card_pos
  have hT : ∀ k ∈ S, 0 < ∑ j ∈ I, q k j := fun k hk => Finset.sum_pos (hq k hk) hI
  have hBx : ∀ k ∈ S, ∀ i ∈ I, 0 < (∑ j ∈ I, if x j = x i then q k j else 0) / ∑ j ∈ I, q k j :=
    fun k hk i hi => div_pos (own_pos I x (q k) (hq k hk) i hi) (hT k hk)
  have hBy : ∀ k ∈ S, ∀ i ∈ I, 0 < (∑ j ∈ I, if y j = y i then q k j else 0) / ∑ j ∈ I, q k j :=
    fun k hk i hi => div_pos (own_pos I y (q k) (hq k hk) i hi) (hT k hk)
  have hz' : ∀ k ∈ S, 0 < (∑ j ∈ I, q k j) / I.card := fun k hk => div_pos (hT k hk) hn
  -- the three sums over the observations
  have e1 : ∑ k ∈ S, ∑ i ∈ I, q k i * Real.log (z k) ≤
      ∑ k ∈ S, ∑ i ∈ I, q k i * Real.log ((∑ j ∈ I, q k j) / I.card) := by
    simp only [← Finset.sum_mul]
    have htot : ∑ k ∈ S, ∑ i ∈ I, q k i = I.card := by
      rw [Finset.sum_comm, Finset.sum_congr rfl hq1]
      simp
    rw [← htot]
    apply gibbs
    · exact fun k hk => (hT k hk).le
    · rw [htot]; exact hn
    · exact fun k hk => (hz k hk).le
    · exact hz1
    · exact fun k hk _ => hz k hk
  have e2 : ∑ k ∈ S, ∑ i ∈ I, q k i * Real.log (U k (x i)) ≤ ∑ k ∈ S, ∑ i ∈ I, q k i *
      Real.log ((∑ j ∈ I, if x j = x i then q k j else 0) / ∑ j ∈ I, q k j) :=
    Finset.sum_le_sum fun k hk =>
      cond_le I A x hx (q k) (hq k hk) hI (U k) (hU k hk) (hU1 k hk) (hUp k hk)
  have e3 : ∑ k ∈ S, ∑ i ∈ I, q k i * Real.log (V k (y i)) ≤ ∑ k ∈ S, ∑ i ∈ I, q k i *
      Real.log ((∑ j ∈ I, if y j = y i then q k j else 0) / ∑ j ∈ I, q k j) :=
    Finset.sum_le_sum fun k hk =>
      cond_le I B y hy (q k) (hq k hk) hI (V k) (hV k hk) (hV1 k hk) (hVp k hk)
  -- Jensen for every observation
  have ej : ∀ i ∈ I, (∑ k ∈ S, q k i * (Real.log ((∑ j ∈ I, q k j) / I.card) +
        Real.log ((∑ j ∈ I, if x j = x i then q k j else 0) / ∑ j ∈ I, q k j) +
        Real.log ((∑ j ∈ I, if y j = y i then q k j else 0) / ∑ j ∈ I, q k j))) -
      (∑ k ∈ S, q k i * (Real.log (z k) + Real.log (U k (x i)) + Real.log (V k (y i)))) ≤
      Real.log (∑ k ∈ S, (∑ j ∈ I, q k j) / I.card *
        ((∑ j ∈ I, if x j = x i then q k j else 0) / ∑ j ∈ I, q k j) *
        ((∑ j ∈ I, if y j = y i then q k j else 0) / ∑ j ∈ I, q k j)) -
      Real.log (∑ k ∈ S, z k * U k (x i) * V k (y i)) := by
    intro i hi
    have hp' : ∀ k ∈ S, 0 < (∑ j ∈ I, q k j) / I.card *
        ((∑ j ∈ I, if x j = x i then q k j else 0) / ∑ j ∈ I, q k j) *
        ((∑ j ∈ I, if y j = y i then q k j else 0) / ∑ j ∈ I, q k j) := fun k hk =>
      mul_pos (mul_pos (hz' k hk) (hBx k hk i hi)) (hBy k hk i hi)
    have hj := jensen S (fun k => q k i) (fun k => (∑ j ∈ I, q k j) / I.card *
        ((∑ j ∈ I, if x j = x i then q k j else 0) / ∑ j ∈ I, q k j) *
        ((∑ j ∈ I, if y j = y i then q k j else 0) / ∑ j ∈ I, q k j) /
        (z k * U k (x i) * V k (y i))) (fun k hk => hq k hk i hi) (hq1 i hi)
      (fun k hk => div_pos (hp' k hk) (hp k hk i hi))
    have hr : ∑ k ∈ S, q k i * ((∑ j ∈ I, q k j) / I.card *
        ((∑ j ∈ I, if x j = x i then q k j else 0) / ∑ j ∈ I, q k j) *
        ((∑ j ∈ I, if y j = y i then q k j else 0) / ∑ j ∈ I, q k j) /
        (z k * U k (x i) * V k (y i))) = (∑ k ∈ S, (∑ j ∈ I, q k j) / I.card *
        ((∑ j ∈ I, if x j = x i then q k j else 0) / ∑ j ∈ I, q k j) *
        ((∑ j ∈ I, if y j = y i then q k j else 0) / ∑ j ∈ I, q k j)) /
        ∑ l ∈ S, z l * U l (x i) * V l (y i) := by
      rw [Finset.sum_div]
      apply Finset.sum_congr rfl
      intro k hk
      rw [hqd k hk i hi]
      have h1 := (hp k hk i hi).ne'
      have h2 := (hP i hi).ne'
      generalize z k * U k (x i) * V k (y i) = a at *
      generalize (∑ l ∈ S, z l * U l (x i) * V l (y i)) = b at *
      field_simp
    rw [hr, Real.log_div (Finset.sum_pos hp' hS).ne' (hP i hi).ne'] at hj
    rw [← Finset.sum_sub_distrib]
    refine le_trans (le_of_eq ?_) hj
    apply Finset.sum_congr rfl
    intro k hk
    rw [← mul_sub, Real.log_div (hp' k hk).ne' (hp k hk i hi).ne',
      Real.log_mul (mul_pos (hz' k hk) (hBx k hk i hi)).ne' (hBy k hk i hi).ne',
      Real.log_mul (hz' k hk).ne' (hBx k hk i hi).ne',
      Real.log_mul (mul_pos (hz k hk) (hUp k hk i hi)).ne' (hVp k hk i hi).ne',
      Real.log_mul (hz k hk).ne' (hUp k hk i hi).ne']
  have hs := Finset.sum_le_sum ej
  rw [Finset.sum_sub_distrib, Finset.sum_sub_distrib] at hs
  rw [Finset.sum_comm (s := I), Finset.sum_comm (s := I)] at hs
  simp only [mul_add, Finset.sum_add_distrib] at hs
  linarith

end Verif.Em
