import Verif.Proof.Period

/-!
# C44 (reference sequences) and C66 (periods) of the xorshift generators
-/
set_option linter.unusedSimpArgs false
namespace Verif.Props.Period
open Verif.Random Verif.Spec.Random Verif.Gf2

theorem iter_pack {σ ω : Type} (gen : σ → ω × σ) (pack : σ → BitVec 128) (T : BitVec 128 → BitVec 128)
    (h : ∀ s, T (pack s) = pack (gen s).2) (s : σ) (k : Nat) : T^[k] (pack s) = pack (after gen s k) := by
  induction k with
  | zero => rfl
  | succ k ih => rw [Function.iterate_succ_apply', ih, h, after_succ']

theorem xsStep (s : Xs) : stepXs (packXs s) = packXs s.get32.2 := by rw [stepXs, unpack_packXs]

theorem plusStep (s : S2) : stepPlus (packS2 s) = packS2 (plusGet64 s).2 := by rw [stepPlus, unpack_packS2]

theorem xoroStep (s : S2) : stepXoro (packS2 s) = packS2 (xoroGet64 s).2 := by rw [stepXoro, unpack_packS2]

theorem packXs_inj {s t : Xs} (h : packXs s = packXs t) : s = t := by rw [← unpack_packXs s, h, unpack_packXs]

theorem packS2_inj {s t : S2} (h : packS2 s = packS2 t) : s = t := by rw [← unpack_packS2 s, h, unpack_packS2]

theorem packXs_zero : packXs ⟨0, 0, 0, 0⟩ = 0 := by decide

theorem packS2_zero : packS2 ⟨0, 0⟩ = 0 := by decide


/-! ## C66: one cycle through all states but zero -/

/-- C66: the states of `XorShift` come back after a multiple of `2 ^ 128 - 1` calls and never before, from every state but zero. -/
theorem C66_xorshift_period (s : Xs) (hs : s ≠ ⟨0, 0, 0, 0⟩) (k : Nat) : after Xs.get32 s k = s ↔ 2 ^ 128 - 1 ∣ k := by
  rw [← xsCycle (packXs s) (fun h => hs (packXs_inj (h.trans packXs_zero.symm))) k, iter_pack _ _ _ xsStep]
  exact ⟨fun h => by rw [h], packXs_inj⟩

/-- C66: the same for `XorShift128Plus`. -/
theorem C66_plus_period (s : S2) (hs : s ≠ ⟨0, 0⟩) (k : Nat) : after plusGet64 s k = s ↔ 2 ^ 128 - 1 ∣ k := by
  rw [← plusCycle (packS2 s) (fun h => hs (packS2_inj (h.trans packS2_zero.symm))) k, iter_pack _ _ _ plusStep]
  exact ⟨fun h => by rw [h], packS2_inj⟩

/-- C66: the same for `Xoroshiro128Plus`. -/
theorem C66_xoroshiro_period (s : S2) (hs : s ≠ ⟨0, 0⟩) (k : Nat) : after xoroGet64 s k = s ↔ 2 ^ 128 - 1 ∣ k := by
  rw [← xoroCycle (packS2 s) (fun h => hs (packS2_inj (h.trans packS2_zero.symm))) k, iter_pack _ _ _ xoroStep]
  exact ⟨fun h => by rw [h], packS2_inj⟩

/-- C66: from every state but zero `XorShift` reaches every other. -/
theorem C66_xorshift_reaches_all (s t : Xs) (hs : s ≠ ⟨0, 0, 0, 0⟩) (ht : t ≠ ⟨0, 0, 0, 0⟩) : ∃ k, k < 2 ^ 128 - 1 ∧ after Xs.get32 s k = t := by
  obtain ⟨k, h1, h2⟩ := xsCycle.surj (map_zero stepXs_xor) (packXs s) (packXs t) (fun h => hs (packXs_inj (h.trans packXs_zero.symm)))
    (fun h => ht (packXs_inj (h.trans packXs_zero.symm)))
  rw [iter_pack _ _ _ xsStep] at h2
  exact ⟨k, h1, packXs_inj h2⟩

/-- C66: the same for the two other generators. -/
theorem C66_others_reach_all (s t : S2) (hs : s ≠ ⟨0, 0⟩) (ht : t ≠ ⟨0, 0⟩) :
    (∃ k, k < 2 ^ 128 - 1 ∧ after plusGet64 s k = t) ∧ (∃ k, k < 2 ^ 128 - 1 ∧ after xoroGet64 s k = t) := by
  have hs' : packS2 s ≠ 0 := fun h => hs (packS2_inj (h.trans packS2_zero.symm))
  have ht' : packS2 t ≠ 0 := fun h => ht (packS2_inj (h.trans packS2_zero.symm))
  obtain ⟨k, h1, h2⟩ := plusCycle.surj (map_zero stepPlus_xor) _ _ hs' ht'
  obtain ⟨k', h1', h2'⟩ := xoroCycle.surj (map_zero stepXoro_xor) _ _ hs' ht'
  rw [iter_pack _ _ _ plusStep] at h2
  rw [iter_pack _ _ _ xoroStep] at h2'
  exact ⟨⟨k, h1, packS2_inj h2⟩, ⟨k', h1', packS2_inj h2'⟩⟩

/-- The result of call number `n` (from 0). -/
def out {σ ω : Type} (gen : σ → ω × σ) (s : σ) (n : Nat) : ω := (gen (after gen s n)).1

theorem after_add' {σ ω : Type} (gen : σ → ω × σ) (s : σ) (m n : Nat) : after gen s (m + n) = after gen (after gen s m) n := by
  induction n with
  | zero => rfl
  | succ n ih => rw [← Nat.add_assoc, after_succ', after_succ', ih]

/-- Four results are the whole state. -/
theorem outs_state (s : Xs) (n : Nat) :
    after Xs.get32 s (n + 4) = ⟨out Xs.get32 s n, out Xs.get32 s (n + 1), out Xs.get32 s (n + 2), out Xs.get32 s (n + 3)⟩ := by
  simp only [out, after_succ' _ s (n + 3), after_succ' _ s (n + 2), after_succ' _ s (n + 1), after_succ' _ s n]
  rfl

/-- C66: the results of `XorShift` repeat with the period `p` iff `2 ^ 128 - 1` divides `p`, from every seed. -/
theorem C66_xorshift_output_period (x y z w : BitVec 32) (p : Nat) :
    (∀ n, out Xs.get32 (Xs.init x y z w) (n + p) = out Xs.get32 (Xs.init x y z w) n) ↔ 2 ^ 128 - 1 ∣ p := by
  have hs : Xs.init x y z w ≠ ⟨0, 0, 0, 0⟩ := by
    intro h
    rw [Xs.init, Xs.mk.injEq] at h
    have h1 := h.1
    by_cases hx : x = 0
    · rw [if_neg (by simpa using hx)] at h1; exact absurd h1 (by decide)
    · rw [if_pos hx] at h1; exact hx h1
  generalize Xs.init x y z w = s at hs
  constructor
  · intro h
    have hn : after Xs.get32 s 4 ≠ ⟨0, 0, 0, 0⟩ := by
      intro h0
      have := xsCycle.nonzero (map_zero stepXs_xor) (packXs s) (fun h => hs (packXs_inj (h.trans packXs_zero.symm))) 4
      rw [iter_pack _ _ _ xsStep, h0] at this
      exact this packXs_zero
    rw [← C66_xorshift_period _ hn, ← after_add', Nat.add_comm 4 p, outs_state, show (4 : Nat) = 0 + 4 from rfl, outs_state]
    have h0 := h 0
    have h1 := h 1
    have h2 := h 2
    have h3 := h 3
    rw [Nat.add_comm] at h0 h1 h2 h3
    rw [← h0, ← h1, ← h2, ← h3]
    simp only [Nat.add_zero]
  · intro h n
    rw [out, out, Nat.add_comm, after_add', (C66_xorshift_period s hs p).mpr h]

theorem get32_mk (a b c d : BitVec 32) :
    Xs.get32 ⟨a, b, c, d⟩ = (a ^^^ (a <<< 11) ^^^ ((a ^^^ (a <<< 11)) >>> 8) ^^^ d ^^^ (d >>> 19),
      ⟨b, c, d, a ^^^ (a <<< 11) ^^^ ((a ^^^ (a <<< 11)) >>> 8) ^^^ d ^^^ (d >>> 19)⟩) := by
  unfold Xs.get32
  dsimp only
  generalize a ^^^ (a <<< 11) = e
  generalize e >>> 8 = f
  generalize d >>> 19 = g
  have : d ^^^ g ^^^ (e ^^^ f) = e ^^^ f ^^^ d ^^^ g := by ac_rfl
  rw [this]

theorem plusGet64_mk (c d : BitVec 64) :
    plusGet64 ⟨c, d⟩ = ((c ^^^ (c <<< 23) ^^^ ((c ^^^ (c <<< 23)) >>> 18) ^^^ d ^^^ (d >>> 5)) + d,
      ⟨d, c ^^^ (c <<< 23) ^^^ ((c ^^^ (c <<< 23)) >>> 18) ^^^ d ^^^ (d >>> 5)⟩) := by
  unfold plusGet64
  dsimp only
  generalize c ^^^ (c <<< 23) = e
  generalize e >>> 18 = f
  generalize d >>> 5 = g
  have : e ^^^ d ^^^ f ^^^ g = e ^^^ f ^^^ d ^^^ g := by ac_rfl
  rw [this]

/-! ## C44: the sequences are the published ones -/

/-- C44: the results of `XorShift` are Marsaglia's sequence after its four seeds; a seed 0 stands for his seed. -/
theorem C44_xorshift_reference (x y z w : BitVec 32) (n : Nat) :
    out Xs.get32 (Xs.init x y z w) n =
      marsaglia (seedOr x 123456789) (seedOr y 362436069) (seedOr z 521288629) (seedOr w 88675123) (n + 4) := by
  have hi : ∀ v d : BitVec 32, (if v ≠ 0 then v else d) = seedOr v d := by
    intro v d
    rw [seedOr]
    by_cases h : v = 0 <;> simp [h]
  rw [Xs.init, hi, hi, hi, hi]
  generalize seedOr x 123456789 = x
  generalize seedOr y 362436069 = y
  generalize seedOr z 521288629 = z
  generalize seedOr w 88675123 = w
  have h : ∀ n, after Xs.get32 ⟨x, y, z, w⟩ n = ⟨marsaglia x y z w n, marsaglia x y z w (n + 1), marsaglia x y z w (n + 2), marsaglia x y z w (n + 3)⟩ := by
    intro n
    induction n with
    | zero => simp [after, Nat.repeat, marsaglia]
    | succ n ih =>
      rw [after_succ', ih, marsaglia, get32_mk]
  rw [out, h, get32_mk, marsaglia]

/-- C44: the results of `XorShift128Plus` are those of the reference: sums of consecutive words. -/
theorem C44_plus_reference (a b : BitVec 64) (n : Nat) :
    out plusGet64 (S2.init a b) n = plusWord a b (n + 2) + plusWord a b (n + 1) := by
  have h : ∀ n, after plusGet64 (S2.init a b) n = ⟨plusWord a b n, plusWord a b (n + 1)⟩ := by
    intro n
    induction n with
    | zero => simp [after, Nat.repeat, plusWord, S2.init]
    | succ n ih =>
      rw [after_succ', ih, plusWord, plusGet64_mk]
  rw [out, h, plusGet64_mk, plusWord]

theorem rotl_eq (x : BitVec 64) (k : Nat) (hk : k < 64) : rotl x k = x.rotateLeft k := by
  rw [rotl, BitVec.rotateLeft_def, Nat.mod_eq_of_lt hk]

/-- C44: the results of `Xoroshiro128Plus` are those of the reference: the sums of the two words. -/
theorem C44_xoroshiro_reference (a b : BitVec 64) (n : Nat) :
    out xoroGet64 (S2.init a b) n = (xoroWords a b n).1 + (xoroWords a b n).2 := by
  have h : ∀ n, after xoroGet64 (S2.init a b) n = ⟨(xoroWords a b n).1, (xoroWords a b n).2⟩ := by
    intro n
    induction n with
    | zero => rfl
    | succ n ih =>
      rw [after_succ', ih, xoroWords, xoroGet64]
      simp only [S2.mk.injEq]
      rw [← rotl_eq _ _ (by decide), ← rotl_eq _ _ (by decide)]
      generalize (xoroWords a b n).1 = c
      generalize (xoroWords a b n).2 = d
      constructor
      · rw [BitVec.xor_comm d c, ← BitVec.xor_assoc]
      · rw [BitVec.xor_comm d c]
  rw [out, h, xoroGet64]

/-- C44: `get64` of `XorShift` is two results, the first one above. -/
theorem C44_xorshift_get64 (s : Xs) :
    s.get64.1.toNat = (out Xs.get32 s 0).toNat * 2 ^ 32 + (out Xs.get32 s 1).toNat ∧ s.get64.2 = after Xs.get32 s 2 := by
  refine ⟨?_, rfl⟩
  show ((s.get32.1.setWidth 64 <<< 32) ||| s.get32.2.get32.1.setWidth 64).toNat = _
  rw [show (out Xs.get32 s 0) = s.get32.1 from rfl, show out Xs.get32 s 1 = s.get32.2.get32.1 from rfl]
  generalize s.get32.1 = a
  generalize s.get32.2.get32.1 = b
  have ha : a.toNat % 2 ^ 64 = a.toNat := Nat.mod_eq_of_lt (by omega)
  have hb : b.toNat % 2 ^ 64 = b.toNat := Nat.mod_eq_of_lt (by omega)
  have hs : (a.toNat <<< 32) % 2 ^ 64 = a.toNat * 2 ^ 32 := by rw [Nat.shiftLeft_eq]; omega
  rw [BitVec.toNat_or, BitVec.toNat_shiftLeft, BitVec.toNat_setWidth, BitVec.toNat_setWidth, ha, hb, hs, Nat.mul_comm,
    Nat.two_pow_add_eq_or_of_lt b.isLt]

/-- The default seed is not zero, and its first results are the known ones (3701687786 for Marsaglia's program). -/
example : Xs.init 0 0 0 0 ≠ ⟨0, 0, 0, 0⟩ ∧ out Xs.get32 (Xs.init 0 0 0 0) 0 = 3701687786 := by decide +kernel
example : S2.init 123456789 987654321 ≠ ⟨0, 0⟩ ∧ out xoroGet64 (S2.init 123456789 987654321) 0 = 1111111110 := by decide +kernel

#print axioms C66_xorshift_period
#print axioms C66_plus_period
#print axioms C66_xoroshiro_period
#print axioms C66_xorshift_reaches_all
#print axioms C66_others_reach_all
#print axioms C66_xorshift_output_period
#print axioms C44_xorshift_reference
#print axioms C44_plus_reference
#print axioms C44_xoroshiro_reference
#print axioms C44_xorshift_get64

end Verif.Props.Period
