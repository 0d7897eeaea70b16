import Verif.Model.NlpRandom
import Mathlib.Tactic.Linarith
import Mathlib.Tactic.Positivity
import Mathlib.Tactic.NormNum
import Mathlib.Tactic.Ring
import Mathlib.Tactic.FieldSimp
set_option linter.unusedSimpArgs false

namespace Verif.NlpRandom

open Verif.Random

theorem bits53_lt (s : Xs) : (bits53 s).1 < 2 ^ 53 := by
  have h1 : (s.get32.1 >>> 5).toNat < 2 ^ 27 := by
    have := s.get32.1.isLt
    simp only [BitVec.toNat_ushiftRight, Nat.shiftRight_eq_div_pow]
    omega
  have h2 : (s.get32.2.get32.1 >>> 6).toNat < 2 ^ 26 := by
    have := s.get32.2.get32.1.isLt
    simp only [BitVec.toNat_ushiftRight, Nat.shiftRight_eq_div_pow]
    omega
  show (s.get32.1 >>> 5).toNat * 2 ^ 26 + (s.get32.2.get32.1 >>> 6).toNat < 2 ^ 53
  omega

/-- The fraction used by `getDouble`. -/
noncomputable def frac (s : Xs) : ℝ := ((bits53 s).1 : ℝ) * (1 / 2 ^ 53)

theorem frac_nonneg (s : Xs) : 0 ≤ frac s := by unfold frac; positivity

theorem frac_lt (s : Xs) : frac s < 1 := by
  have h : (((bits53 s).1 : ℕ) : ℝ) < 2 ^ 53 := by exact_mod_cast bits53_lt s
  unfold frac
  rw [mul_one_div]
  exact (div_lt_one (by positivity)).2 h

theorem getDouble_eq (g : Uniform) :
    g.getDouble = ((g.b - g.a) * frac g.rg + g.a, { g with rg := (bits53 g.rg).2 }) := rfl

theorem getDouble_range (g : Uniform) (h : g.a < g.b) : g.a ≤ g.getDouble.1 ∧ g.getDouble.1 < g.b := by
  rw [getDouble_eq]
  have h1 := frac_nonneg g.rg
  have h2 := frac_lt g.rg
  have h3 : 0 < g.b - g.a := by linarith
  constructor
  · have := mul_nonneg h3.le h1
    dsimp only
    linarith
  · have := mul_lt_mul_of_pos_left h2 h3
    dsimp only
    linarith

theorem getDouble_keep (g : Uniform) : g.getDouble.2.a = g.a ∧ g.getDouble.2.b = g.b := ⟨rfl, rfl⟩

end Verif.NlpRandom
