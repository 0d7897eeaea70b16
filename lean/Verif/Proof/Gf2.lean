import Mathlib.Dynamics.PeriodicPts.Defs
import Mathlib.NumberTheory.LucasPrimality
import Mathlib.Tactic.NormNum.Prime
import Verif.Proof.Random

/-!
# Order of a linear map over GF(2)

A polynomial over GF(2) is a natural number whose bit `i` is the coefficient of `x ^ i`.
-/
set_option linter.unusedSimpArgs false
namespace Verif.Gf2

variable {n : Nat} (T : BitVec n → BitVec n)

/-- The polynomial `p`, of which `k` coefficients are taken, applied to `T` and then to `s`. -/
def act : Nat → Nat → BitVec n → BitVec n
  | 0, _, _ => 0
  | k + 1, p, s => act k p s ^^^ (bif p.testBit k then T^[k] s else 0)

/-- The same by Horner's rule, on top of `T ^ k` applied to `r`. -/
def hor : Nat → Nat → BitVec n → BitVec n → BitVec n
  | 0, _, _, r => r
  | k + 1, p, s, r => hor k p s (bif p.testBit k then T r ^^^ s else T r)

/-- `x * r` modulo the polynomial `P` of degree 128.  This definition and the next two are written so that the kernel computes them
quickly. -/
def xt (P r : Nat) : Nat := Nat.xor (Nat.shiftLeft r 1) (Nat.mul P (Nat.mod (Nat.shiftRight r 127) 2))

/-- `a * b` modulo `P`, on top of `x ^ k * r`. -/
def mm (P a : Nat) (k : Nat) : Nat → Nat → Nat :=
  Nat.rec (fun _ r => r) (fun k ih b r => ih b (Nat.xor (xt P r) (Nat.mul a (Nat.mod (Nat.shiftRight b k) 2)))) k

/-- `x ^ e` modulo `P`, on top of `r`; the outer `cond` makes the kernel compute `r` before going on. -/
def pw (P : Nat) (k : Nat) : Nat → Nat → Nat :=
  Nat.rec (fun _ r => r) (fun k ih e r =>
    cond (Nat.beq r 0)
      (ih e (bif e.testBit k then xt P (mm P r 128 r 0) else mm P r 128 r 0))
      (ih e (bif e.testBit k then xt P (mm P r 128 r 0) else mm P r 128 r 0))) k

theorem shift_mod (b k : Nat) : Nat.mod (Nat.shiftRight b k) 2 = (b.testBit k).toNat := by
  show (b >>> k) % 2 = _
  rw [Nat.toNat_testBit, Nat.shiftRight_eq_div_pow]

theorem xt_eq (P r : Nat) : xt P r = bif r.testBit 127 then (r <<< 1) ^^^ P else r <<< 1 := by
  rw [xt, shift_mod]
  show (r <<< 1) ^^^ (P * _) = _
  cases r.testBit 127 <;> simp

theorem mm_succ (P a k b r : Nat) : mm P a (k + 1) b r = mm P a k b (bif b.testBit k then xt P r ^^^ a else xt P r) := by
  show mm P a k b (Nat.xor (xt P r) (Nat.mul a (Nat.mod (Nat.shiftRight b k) 2))) = _
  rw [shift_mod]
  show mm P a k b (xt P r ^^^ (a * _)) = _
  cases b.testBit k <;> simp

theorem pw_succ (P k e r : Nat) : pw P (k + 1) e r = pw P k e (bif e.testBit k then xt P (mm P r 128 r 0) else mm P r 128 r 0) := by
  show cond (Nat.beq r 0) (pw P k e _) (pw P k e _) = _
  rw [Bool.cond_self]

variable {T}

theorem act_succ (k p : Nat) (s : BitVec n) : act T (k + 1) p s = act T k p s ^^^ (bif p.testBit k then T^[k] s else 0) := rfl

theorem xor4 (a b c d : BitVec n) : (a ^^^ b) ^^^ (c ^^^ d) = (a ^^^ c) ^^^ (b ^^^ d) := by
  rw [BitVec.xor_assoc, BitVec.xor_assoc, ← BitVec.xor_assoc b c d, BitVec.xor_comm b c, BitVec.xor_assoc c b d]

section
variable (hT : ∀ a b, T (a ^^^ b) = T a ^^^ T b)
include hT

theorem map_zero : T 0 = 0 := by
  have := hT 0 0
  rw [BitVec.xor_self, BitVec.xor_self] at this
  exact this

theorem iter_zero (k : Nat) : T^[k] 0 = 0 := by
  induction k with
  | zero => rfl
  | succ k ih => rw [Function.iterate_succ_apply', ih, map_zero hT]

theorem iter_xor (k : Nat) (a b : BitVec n) : T^[k] (a ^^^ b) = T^[k] a ^^^ T^[k] b := by
  induction k with
  | zero => rfl
  | succ k ih => simp only [Function.iterate_succ_apply', ih, hT]

theorem act_xor (k p : Nat) (a b : BitVec n) : act T k p (a ^^^ b) = act T k p a ^^^ act T k p b := by
  induction k with
  | zero => simp [act]
  | succ k ih =>
    rw [act, act, act, ih, iter_xor hT, xor4]
    cases p.testBit k <;> simp

theorem act_zero (k p : Nat) : act T k p 0 = 0 := by
  have := act_xor hT k p 0 0
  rw [BitVec.xor_self, BitVec.xor_self] at this
  exact this

theorem act_map (k p : Nat) (s : BitVec n) : act T k p (T s) = T (act T k p s) := by
  induction k with
  | zero => exact (map_zero hT).symm
  | succ k ih =>
    rw [act, act, ih, hT]
    cases p.testBit k
    · exact congrArg _ (map_zero hT).symm
    · simp only [cond_true]
      rw [← Function.iterate_succ_apply, Function.iterate_succ_apply']

theorem act_poly_xor (k p q : Nat) (s : BitVec n) : act T k (p ^^^ q) s = act T k p s ^^^ act T k q s := by
  induction k with
  | zero => simp [act]
  | succ k ih =>
    rw [act, act, act, ih, Nat.testBit_xor, xor4]
    cases p.testBit k <;> cases q.testBit k <;> simp

theorem act_shift (k p : Nat) (s : BitVec n) : act T (k + 1) (p <<< 1) s = T (act T k p s) := by
  induction k with
  | zero => simp [act]; exact (map_zero hT).symm
  | succ k ih =>
    rw [act, ih, act, hT]
    have : (p <<< 1).testBit (k + 1) = p.testBit k := by simp [Nat.testBit_shiftLeft]
    rw [this]
    cases p.testBit k
    · exact congrArg _ (map_zero hT).symm
    · simp only [cond_true]
      rw [Function.iterate_succ_apply']

theorem act_one (k : Nat) (s : BitVec n) : act T (k + 1) 1 s = s := by
  induction k with
  | zero => simp [act]
  | succ k ih =>
    rw [act, ih]
    have : (1 : Nat).testBit (k + 1) = false := by rw [← Nat.pow_zero 2, Nat.testBit_two_pow]; simp
    simp [this]

theorem hor_eq (k p : Nat) (s r : BitVec n) : hor T k p s r = act T k p s ^^^ T^[k] r := by
  induction k generalizing r with
  | zero => simp [hor, act]
  | succ k ih =>
    rw [hor, ih, act]
    cases p.testBit k
    · simp [Function.iterate_succ_apply]
    · simp only [cond_true]
      rw [iter_xor hT, ← Function.iterate_succ_apply, BitVec.xor_assoc, BitVec.xor_comm (T^[k] s)]

section
variable {P : Nat} (hb : P.testBit 128 = true) (hP : ∀ s, act T 129 P s = 0)
include hb hP

theorem act_xt (r : Nat) (s : BitVec n) : act T 128 (xt P r) s = T (act T 128 r s) := by
  have h1 : ∀ q : Nat, q.testBit 128 = false → act T 128 q s = act T 129 q s := by
    intro q hq
    rw [act_succ 128 q s, hq]
    simp
  have h2 : (r <<< 1).testBit 128 = r.testBit 127 := by simp [Nat.testBit_shiftLeft]
  have h3 : act T 129 (r <<< 1) s = T (act T 128 r s) := act_shift hT 128 r s
  rw [xt_eq]
  cases hr : r.testBit 127
  · rw [cond_false, h1 _ (by rw [h2, hr]), h3]
  · rw [cond_true, h1 _ (by rw [Nat.testBit_xor, h2, hr, hb]; rfl), act_poly_xor hT, hP, h3]
    simp

theorem act_mm (a k b r : Nat) (s : BitVec n) :
    act T 128 (mm P a k b r) s = act T k b (act T 128 a s) ^^^ T^[k] (act T 128 r s) := by
  induction k generalizing r with
  | zero => simp [mm, act]
  | succ k ih =>
    rw [mm_succ, ih, act_succ k b]
    cases b.testBit k
    · simp only [cond_false]
      rw [act_xt hT hb hP, Function.iterate_succ_apply, BitVec.ofNat_eq_ofNat, BitVec.xor_zero]
    · simp only [cond_true]
      rw [act_poly_xor hT, act_xt hT hb hP, iter_xor hT, ← Function.iterate_succ_apply, BitVec.xor_assoc, BitVec.xor_comm (T^[k] _)]

theorem act_pw (k e r m : Nat) (h : ∀ s, act T 128 r s = T^[m] s) (s : BitVec n) :
    act T 128 (pw P k e r) s = T^[m * 2 ^ k + e % 2 ^ k] s := by
  induction k generalizing r m with
  | zero => simp [pw, h, Nat.mod_one]
  | succ k ih =>
    have hm : ∀ s, act T 128 (mm P r 128 r 0) s = T^[2 * m] s := by
      intro s
      have h0 : ∀ k, act T k 0 s = 0 := by
        intro k
        induction k with
        | zero => rfl
        | succ k ih => rw [act, ih]; simp
      rw [act_mm hT hb hP, h0, iter_zero hT, h, h, ← Function.iterate_add_apply, ← Nat.two_mul]
      simp
    have he : e % 2 ^ (k + 1) = e % 2 ^ k + 2 ^ k * (e.testBit k).toNat := by
      rw [Nat.mod_pow_succ, Nat.toNat_testBit]
    rw [pw_succ]
    cases hk : e.testBit k
    · rw [cond_false, ih _ (2 * m) hm, he, hk]
      congr 2
      simp [Nat.pow_succ]; ring
    · rw [cond_true, ih _ (2 * m + 1) (fun s => by rw [act_xt hT hb hP, hm]; exact (Function.iterate_succ_apply' T (2 * m) s).symm), he, hk]
      refine congrArg (fun j => T^[j] s) ?_
      rw [Bool.toNat_true, Nat.pow_succ]; ring

end
end

/-- The prime factors of `2 ^ 128 - 1`. -/
def factors : List Nat := [3, 5, 17, 257, 641, 65537, 274177, 6700417, 67280421310721]

/-- `a ^ e` modulo `m`, on top of `r`. -/
def pm (m a : Nat) : Nat → Nat → Nat → Nat
  | 0, _, r => r
  | k + 1, e, r => pm m a k e (bif e.testBit k then r * r % m * a % m else r * r % m)

theorem pm_eq (m a k e r j : Nat) (h : r % m = a ^ j % m) : pm m a k e r % m = a ^ (j * 2 ^ k + e % 2 ^ k) % m := by
  induction k generalizing r j with
  | zero => simpa [pm, Nat.mod_one] using h
  | succ k ih =>
    have he : e % 2 ^ (k + 1) = e % 2 ^ k + 2 ^ k * (e.testBit k).toNat := by
      rw [Nat.mod_pow_succ, Nat.toNat_testBit]
    have hs : r * r % m = a ^ (2 * j) % m := by
      rw [Nat.mul_mod, h, ← Nat.mul_mod, two_mul, pow_add]
    rw [pm, he]
    cases e.testBit k
    · rw [cond_false, ih _ (2 * j) (by rw [Nat.mod_mod, hs])]
      congr 2
      rw [Bool.toNat_false, Nat.pow_succ]; ring
    · rw [cond_true, ih _ (2 * j + 1) (by rw [Nat.mod_mod, hs, pow_succ, Nat.mul_mod, Nat.mod_mod, ← Nat.mul_mod])]
      congr 2
      rw [Bool.toNat_true, Nat.pow_succ]; ring

theorem prime9 : Nat.Prime 67280421310721 := by
  have key : ∀ e : Nat, e < 2 ^ 46 → (((3 : Nat) : ZMod 67280421310721) ^ e = 1 ↔ pm 67280421310721 3 46 e 1 % 67280421310721 = 1) := by
    intro e he
    rw [pm_eq 67280421310721 3 46 e 1 0 rfl, Nat.zero_mul, Nat.zero_add, Nat.mod_eq_of_lt he]
    have := ZMod.natCast_eq_natCast_iff' (3 ^ e) 1 67280421310721
    rw [Nat.cast_pow, Nat.cast_one] at this
    exact this
  refine lucas_primality 67280421310721 ((3 : Nat) : ZMod 67280421310721) ?_ ?_
  · rw [key _ (by norm_num)]
    decide +kernel
  · intro q hq hd
    have h : q = 2 ∨ q = 5 ∨ q = 47 ∨ q = 373 ∨ q = 2998279 := by
      rw [show 67280421310721 - 1 = 2 ^ 8 * 5 * 47 * 373 * 2998279 by norm_num] at hd
      rcases (hq.dvd_mul).mp hd with hd | hd
      · rcases (hq.dvd_mul).mp hd with hd | hd
        · rcases (hq.dvd_mul).mp hd with hd | hd
          · rcases (hq.dvd_mul).mp hd with hd | hd
            · exact .inl ((Nat.prime_dvd_prime_iff_eq hq (by norm_num)).mp (hq.dvd_of_dvd_pow hd))
            · exact .inr (.inl ((Nat.prime_dvd_prime_iff_eq hq (by norm_num)).mp hd))
          · exact .inr (.inr (.inl ((Nat.prime_dvd_prime_iff_eq hq (by norm_num)).mp hd)))
        · exact .inr (.inr (.inr (.inl ((Nat.prime_dvd_prime_iff_eq hq (by norm_num)).mp hd))))
      · exact .inr (.inr (.inr (.inr ((Nat.prime_dvd_prime_iff_eq hq (by norm_num)).mp hd))))
    rcases h with rfl | rfl | rfl | rfl | rfl <;>
    · rw [Ne, key _ (by norm_num)]
      decide +kernel

theorem factors_prime : ∀ q ∈ factors, Nat.Prime q := by
  simp only [factors, List.mem_cons, List.not_mem_nil, or_false, forall_eq_or_imp, forall_eq]
  exact ⟨by norm_num, by norm_num, by norm_num, by norm_num, by norm_num, by norm_num, by norm_num, by norm_num, prime9⟩

theorem prime_factor {q : Nat} (hq : q.Prime) (h : q ∣ 2 ^ 128 - 1) : q ∈ factors := by
  rw [show 2 ^ 128 - 1 = factors.prod by decide +kernel, hq.prime.dvd_prod_iff] at h
  obtain ⟨p, hp, hd⟩ := h
  rw [(Nat.prime_dvd_prime_iff_eq hq (factors_prime p hp)).mp hd]
  exact hp

/-- The certificate that a polynomial `P` is primitive: `us` are the inverses of `x ^ (N / q) - 1`. -/
def cert (P : Nat) (us : List Nat) : Bool :=
  P.testBit 128 && Nat.beq (pw P 128 (2 ^ 128 - 1) 1) 1 &&
  (List.zipWith (fun q u => Nat.beq (mm P (pw P 128 ((2 ^ 128 - 1) / q) 1 ^^^ 1) 128 u 0) 1) factors us).all id &&
  Nat.beq us.length 9

theorem period {P : Nat} {us : List Nat} (hc : cert P us = true) (hT : ∀ a b, T (a ^^^ b) = T a ^^^ T b)
    (hP : ∀ s, act T 129 P s = 0) (s : BitVec n) (hs : s ≠ 0) (k : Nat) : T^[k] s = s ↔ 2 ^ 128 - 1 ∣ k := by
  simp only [cert, Bool.and_eq_true, Nat.beq_eq, List.all_eq_true, id] at hc
  obtain ⟨⟨⟨hb, h1⟩, h2⟩, h3⟩ := hc
  have hone : ∀ s, act T 128 1 s = T^[0] s := fun s => act_one hT 127 s
  have hpw : ∀ e s, e < 2 ^ 128 → act T 128 (pw P 128 e 1) s = T^[e] s := by
    intro e s he
    rw [act_pw hT hb hP 128 e 1 0 hone, Nat.zero_mul, Nat.zero_add, Nat.mod_eq_of_lt he]
  have hN : Function.IsPeriodicPt T (2 ^ 128 - 1) s := by
    have := hpw (2 ^ 128 - 1) s (by omega)
    rw [h1, hone] at this
    exact this.symm
  have hq : ∀ q ∈ factors, T^[(2 ^ 128 - 1) / q] s ≠ s := by
    intro q hq he
    obtain ⟨i, hi, rfl⟩ := List.mem_iff_getElem.mp hq
    have hl : factors.length = 9 := rfl
    have := h2 _ (List.getElem_mem (l := List.zipWith _ factors us) (n := i) (by rw [List.length_zipWith]; omega))
    rw [List.getElem_zipWith, Nat.beq_eq] at this
    have h4 := act_mm hT hb hP (pw P 128 ((2 ^ 128 - 1) / factors[i]) 1 ^^^ 1) 128 us[i] 0 s
    rw [this, act_poly_xor hT, hone, hpw _ _ (lt_of_le_of_lt (Nat.div_le_self _ _) (by norm_num)), he, show T^[0] s = s from rfl,
      BitVec.xor_self, show act T 128 us[i] 0#n = 0 from act_zero hT 128 _] at h4
    have h0 : act T 128 0 s = 0 := by
      have := act_poly_xor hT 128 0 0 s
      rw [BitVec.xor_self] at this
      exact this
    rw [h0, iter_zero hT] at h4
    exact hs (by simpa using h4)
  have hm : Function.minimalPeriod T s = 2 ^ 128 - 1 := by
    have hd := hN.minimalPeriod_dvd
    obtain ⟨c, hc⟩ := hd
    by_cases h : c = 1
    · rw [h, Nat.mul_one] at hc; exact hc.symm
    · obtain ⟨q, hq1, c', rfl⟩ := Nat.exists_prime_and_dvd h
      have hmem : q ∈ factors := prime_factor hq1 ⟨Function.minimalPeriod T s * c', by rw [hc]; ring⟩
      refine absurd ?_ (hq q hmem)
      have : (2 ^ 128 - 1) / q = Function.minimalPeriod T s * c' := by
        rw [hc, show Function.minimalPeriod T s * (q * c') = q * (Function.minimalPeriod T s * c') by ring, Nat.mul_div_cancel_left _ hq1.pos]
      rw [this]
      exact (Function.isPeriodicPt_minimalPeriod T s).mul_const c'
  rw [← hm]
  exact Function.isPeriodicPt_iff_minimalPeriod_dvd

/-- A linear map that kills every bit kills every vector. -/
theorem zero_of_bits (f : BitVec n → BitVec n) (hf : ∀ a b, f (a ^^^ b) = f a ^^^ f b) (h : ∀ i, i < n → f (BitVec.twoPow n i) = 0) (s : BitVec n) : f s = 0 := by
  have hf0 : f 0 = 0 := map_zero hf
  have key : ∀ k, k ≤ n → ∀ s : BitVec n, (∀ i, k ≤ i → s.getLsbD i = false) → f s = 0 := by
    intro k
    induction k with
    | zero =>
      intro _ s h0
      have : s = 0 := by
        apply BitVec.eq_of_getLsbD_eq
        intro i _
        rw [h0 i (Nat.zero_le i)]; simp
      rw [this, hf0]
    | succ k ih =>
      intro hk s h0
      by_cases hb : s.getLsbD k = true
      · have h1 : f (s ^^^ BitVec.twoPow n k) = 0 := by
          apply ih (by omega)
          intro i hi
          rw [BitVec.getLsbD_xor, BitVec.getLsbD_twoPow]
          by_cases hik : i = k
          · subst hik; simp [hb, show i < n by omega]
          · rw [h0 i (by omega)]; simp [show ¬ k = i by omega]
        rw [hf, h k (by omega)] at h1
        simpa using h1
      · apply ih (by omega)
        intro i hi
        by_cases hik : i = k
        · subst hik; simpa using hb
        · exact h0 i (by omega)
  exact key n (Nat.le_refl n) s (fun i hi => BitVec.getLsbD_of_ge s i hi)

end Verif.Gf2
