import Verif.Proof.NlpRandom
set_option linter.unusedSimpArgs false

/-!
# C70: the generators of `nlp/random.hpp`
-/
namespace Verif.Props.NlpRandom

open Verif.Random Verif.NlpRandom

/-- The fraction is a multiple of `2^-53` in `[0, 1)` (so it is exact in a `double`), made of the upper 27
bits of one 32-bit number and the upper 26 bits of the next one, and the result is
`a + (b - a) * fraction`, which lies in `[a, b)` (in exact arithmetic). -/
theorem C70_uniform (g : Uniform) (h : g.a < g.b) :
    g.a ≤ g.getDouble.1 ∧ g.getDouble.1 < g.b ∧ g.getDouble.2.a = g.a ∧ g.getDouble.2.b = g.b ∧
    ∃ n : Nat, n < 2 ^ 53 ∧ g.getDouble.1 = g.a + (g.b - g.a) * ((n : ℝ) / 2 ^ 53) ∧
      n / 2 ^ 26 = g.rg.get32.1.toNat / 2 ^ 5 ∧ n % 2 ^ 26 = g.rg.get32.2.get32.1.toNat / 2 ^ 6 ∧
      g.getDouble.2.rg = g.rg.get32.2.get32.2 := by
  refine ⟨(getDouble_range g h).1, (getDouble_range g h).2, rfl, rfl, (bits53 g.rg).1, bits53_lt _, ?_, ?_, ?_, rfl⟩
  · rw [getDouble_eq, frac]
    ring
  · show ((g.rg.get32.1 >>> 5).toNat * 2 ^ 26 + (g.rg.get32.2.get32.1 >>> 6).toNat) / 2 ^ 26 = _
    have := g.rg.get32.2.get32.1.isLt
    simp only [BitVec.toNat_ushiftRight, Nat.shiftRight_eq_div_pow]
    omega
  · show ((g.rg.get32.1 >>> 5).toNat * 2 ^ 26 + (g.rg.get32.2.get32.1 >>> 6).toNat) % 2 ^ 26 = _
    have := g.rg.get32.2.get32.1.isLt
    simp only [BitVec.toNat_ushiftRight, Nat.shiftRight_eq_div_pow]
    omega

example : (Uniform.make 0 1 0).a < (Uniform.make 0 1 0).b := by simp [Uniform.make]

/-- `init(seed)` makes the sequence that a new object with this seed makes. -/
theorem C70_reseed (g : Uniform) (seed : BitVec 32) : g.init seed = Uniform.make g.a g.b seed := rfl

theorem sumLoop_range (n : Nat) : ∀ (g : Uniform) (x : ℝ), g.a = 0 → g.b = 1 →
    x ≤ (sumLoop n g x).1 ∧ (sumLoop n g x).1 ≤ x + n := by
  induction n with
  | zero => intro g x _ _; simp [sumLoop]
  | succ n ih =>
    intro g x ha hb
    have h := getDouble_range g (by rw [ha, hb]; norm_num)
    rw [ha, hb] at h
    have h2 := ih g.getDouble.2 (x + g.getDouble.1) ha hb
    rw [sumLoop]
    show x ≤ (sumLoop n g.getDouble.2 (x + g.getDouble.1)).1 ∧ (sumLoop n g.getDouble.2 (x + g.getDouble.1)).1 ≤ _
    push_cast
    constructor <;> linarith [h2.1, h2.2, h.1, h.2]

/-- The results of `n` calls of `get`. -/
noncomputable def draws : Nat → Normal → List ℝ
  | 0, _ => []
  | n + 1, g => g.get.1 :: draws n g.get.2

theorem sumLoop_keep : ∀ (n : Nat) (g : Uniform) (x : ℝ), (sumLoop n g x).2.a = g.a ∧ (sumLoop n g x).2.b = g.b := by
  intro n
  induction n with
  | zero => intro g x; exact ⟨rfl, rfl⟩
  | succ n ih => intro g x; exact ih g.getDouble.2 _

theorem draws_range (n : Nat) : ∀ g : Normal, g.gen.a = 0 → g.gen.b = 1 → 0 ≤ g.s →
    ∀ x ∈ draws n g, g.u - 6 * g.s ≤ x ∧ x ≤ g.u + 6 * g.s := by
  induction n with
  | zero => intro g _ _ _ x hx; cases hx
  | succ n ih =>
    intro g ha hb hs x hx
    rcases List.mem_cons.1 hx with rfl | hx
    · have h := sumLoop_range 12 g.gen (-6) ha hb
      show g.u - 6 * g.s ≤ (sumLoop 12 g.gen (-6)).1 * g.s + g.u ∧ (sumLoop 12 g.gen (-6)).1 * g.s + g.u ≤ _
      push_cast at h
      have h1 := mul_le_mul_of_nonneg_right h.1 hs
      have h2 := mul_le_mul_of_nonneg_right h.2 hs
      constructor <;> linarith
    · have hk := sumLoop_keep 12 g.gen (-6)
      exact ih g.get.2 (hk.1.trans ha) (hk.2.trans hb) hs x hx

/-- With the default seed every value of `NormalRandomGenerator` is within six standard deviations of
the mean. -/
theorem C70_normal_range (u s : ℝ) (hs : 0 ≤ s) (n : Nat) :
    ∀ x ∈ draws n (Normal.make u s 0), u - 6 * s ≤ x ∧ x ≤ u + 6 * s :=
  draws_range n (Normal.make u s 0) (by simp [Normal.make, Uniform.make]) rfl hs

example : (draws 3 (Normal.make 10 2 0)).length = 3 := rfl

theorem sumLoop_one (n : Nat) : ∀ (g : Uniform) (x : ℝ), g.a = 1 → g.b = 1 → (sumLoop n g x).1 = x + n := by
  induction n with
  | zero => intro g x _ _; simp [sumLoop]
  | succ n ih =>
    intro g x ha hb
    rw [sumLoop]
    show (sumLoop n g.getDouble.2 (x + g.getDouble.1)).1 = _
    rw [ih g.getDouble.2 _ ha hb, getDouble_eq, ha, hb]
    push_cast
    ring

theorem draws_one (n : Nat) : ∀ g : Normal, g.gen.a = 1 → g.gen.b = 1 → ∀ x ∈ draws n g, x = g.u + 6 * g.s := by
  induction n with
  | zero => intro g _ _ x hx; cases hx
  | succ n ih =>
    intro g ha hb x hx
    rcases List.mem_cons.1 hx with rfl | hx
    · show (sumLoop 12 g.gen (-6)).1 * g.s + g.u = _
      rw [sumLoop_one 12 _ _ ha hb]
      push_cast
      ring
    · have hk := sumLoop_keep 12 g.gen (-6)
      exact ih g.get.2 (hk.1.trans ha) (hk.2.trans hb) x hx

/-- The constructor of `NormalRandomGenerator` passes the seed as the lower end of the interval
(random.hpp:55).  With `seed = 1` the generator is not random at all: `get` returns `u + 6 s` every time. -/
theorem C70_finding_seed_one (u s : ℝ) (n : Nat) : ∀ x ∈ draws n (Normal.make u s 1), x = u + 6 * s :=
  draws_one n (Normal.make u s 1) (by simp [Normal.make, Uniform.make]) rfl

/-- And whatever the seed is, the numbers drawn from XorShift are those of seed 0. -/
theorem C70_finding_seed_ignored (u s : ℝ) (seed : BitVec 32) :
    (Normal.make u s seed).gen.rg = Xs.init 0 0 0 0 := rfl

end Verif.Props.NlpRandom

#print axioms Verif.Props.NlpRandom.C70_uniform
#print axioms Verif.Props.NlpRandom.C70_normal_range
#print axioms Verif.Props.NlpRandom.C70_finding_seed_one
