import Verif.Model.Random
import Verif.Spec.Random
import Verif.Proof.Endian
import Mathlib.Data.Fintype.EquivFin
import Mathlib.Data.Fintype.Pigeonhole
import Mathlib.Data.Finite.Prod
import Mathlib.Logic.Function.Iterate
import Mathlib.Tactic.Ring
import Mathlib.Data.Nat.ModEq

set_option linter.unusedSimpArgs false

namespace Verif.Random
open Verif.Endian Verif.Spec.Endian Verif.Spec.Random

/-! ## Injectivity of the steps -/

theorem xor_eq_xor {n : Nat} {a b c d : BitVec n} (h : a ^^^ b = c ^^^ d) : a ^^^ c = b ^^^ d := by
  have : a ^^^ b ^^^ (b ^^^ c) = c ^^^ d ^^^ (b ^^^ c) := by rw [h]
  apply BitVec.eq_of_getLsbD_eq
  intro i hi
  have := congrArg (fun x => x.getLsbD i) this
  simp only [BitVec.getLsbD_xor] at this ⊢
  revert this
  cases a.getLsbD i <;> cases b.getLsbD i <;> cases c.getLsbD i <;> cases d.getLsbD i <;> simp

theorem shl_fix {n k : Nat} (hk : 0 < k) {z : BitVec n} (h : z = z <<< k) : z = 0 := by
  have : ∀ i, z.getLsbD i = false := by
    intro i
    induction i using Nat.strongRecOn with
    | _ i ih =>
      by_cases hi : i < k
      · rw [h, BitVec.getLsbD_shiftLeft]; simp [hi]
      · rw [h, BitVec.getLsbD_shiftLeft, ih (i - k) (by omega)]; simp
  apply BitVec.eq_of_getLsbD_eq
  intro i _
  rw [this]; simp

theorem shr_fix {n k : Nat} (hk : 0 < k) {z : BitVec n} (h : z = z >>> k) : z = 0 := by
  have : ∀ d i, n - i = d → z.getLsbD i = false := by
    intro d
    induction d using Nat.strongRecOn with
    | _ d ih =>
      intro i hi
      by_cases hn : n ≤ i
      · exact BitVec.getLsbD_of_ge _ _ hn
      · rw [h, BitVec.getLsbD_ushiftRight, ih (n - (k + i)) (by omega) (k + i) rfl]
  apply BitVec.eq_of_getLsbD_eq
  intro i _
  rw [this _ i rfl]; simp

theorem xor_shl_inj {n k : Nat} (hk : 0 < k) {x y : BitVec n} (h : x ^^^ (x <<< k) = y ^^^ (y <<< k)) : x = y := by
  have h1 := xor_eq_xor h
  rw [← BitVec.shiftLeft_xor_distrib] at h1
  exact BitVec.xor_eq_zero_iff.1 (shl_fix hk h1)

theorem xor_shr_inj {n k : Nat} (hk : 0 < k) {x y : BitVec n} (h : x ^^^ (x >>> k) = y ^^^ (y >>> k)) : x = y := by
  have h1 := xor_eq_xor h
  rw [← BitVec.ushiftRight_xor_distrib] at h1
  exact BitVec.xor_eq_zero_iff.1 (shr_fix hk h1)

theorem rotl_inj {k : Nat} (hk : k < 64) {x y : BitVec 64} (h : rotl x k = rotl y k) : x = y := by
  have e : ∀ z : BitVec 64, rotl z k = z.rotateLeft k := by
    intro z; rw [rotl, BitVec.rotateLeft_eq_rotateLeftAux_of_lt hk, BitVec.rotateLeftAux]
  rw [e, e] at h
  apply BitVec.eq_of_getLsbD_eq
  intro i hi
  have g : ∀ z : BitVec 64, z.getLsbD i = (z.rotateLeft k).getLsbD ((i + k) % 64) := by
    intro z
    rw [BitVec.getLsbD_rotateLeft_of_le hk]
    by_cases hik : i + k < 64
    · rw [Nat.mod_eq_of_lt hik]
      have : ¬ i + k < k := by omega
      simp [this, hik]
    · have e2 : (i + k) % 64 = i + k - 64 := by omega
      have : i + k - 64 < k := by omega
      simp only [e2, this, decide_true, cond_true]
      congr 1; omega
  rw [g, g, h]

theorem get32_inj {s t : Xs} (h : s.get32.2 = t.get32.2) : s = t := by
  obtain ⟨x, y, z, w⟩ := s
  obtain ⟨x', y', z', w'⟩ := t
  simp only [Xs.get32, Xs.mk.injEq] at h
  obtain ⟨rfl, rfl, rfl, h⟩ := h
  have := xor_shl_inj (by decide) (xor_shr_inj (by decide) ((BitVec.xor_right_inj _).1 h))
  rw [this]

theorem plus_inj {s t : S2} (h : (plusGet64 s).2 = (plusGet64 t).2) : s = t := by
  obtain ⟨x, y⟩ := s
  obtain ⟨x', y'⟩ := t
  simp only [plusGet64, S2.mk.injEq] at h
  obtain ⟨rfl, h⟩ := h
  have h := (BitVec.xor_left_inj _).1 h
  generalize hx : x ^^^ x <<< 23 = p at h
  generalize hx' : x' ^^^ x' <<< 23 = p' at h
  rw [BitVec.xor_assoc, BitVec.xor_assoc, BitVec.xor_comm y, BitVec.xor_comm y, ← BitVec.xor_assoc,
    ← BitVec.xor_assoc] at h
  have := xor_shr_inj (by decide) ((BitVec.xor_left_inj _).1 h)
  rw [← hx, ← hx'] at this
  have := xor_shl_inj (by decide) this
  rw [this]

theorem xoro_inj {s t : S2} (h : (xoroGet64 s).2 = (xoroGet64 t).2) : s = t := by
  obtain ⟨x, y⟩ := s
  obtain ⟨x', y'⟩ := t
  simp only [xoroGet64, S2.mk.injEq] at h
  obtain ⟨h0, h1⟩ := h
  have h1 := rotl_inj (by decide) h1
  rw [h1] at h0
  have h0 := rotl_inj (by decide) ((BitVec.xor_left_inj _).1 ((BitVec.xor_left_inj _).1 h0))
  rw [h0] at h1
  rw [h0, (BitVec.xor_left_inj _).1 h1]

/-! ## Periodicity -/

theorem after_zero {σ ω : Type} (gen : σ → ω × σ) (s : σ) : after gen s 0 = s := rfl

theorem after_succ' {σ ω : Type} (gen : σ → ω × σ) (s : σ) (k : Nat) :
    after gen s (k + 1) = (gen (after gen s k)).2 := rfl

theorem after_succ {σ ω : Type} (gen : σ → ω × σ) (s : σ) (k : Nat) :
    after gen s (k + 1) = after gen (gen s).2 k := by
  induction k generalizing s with
  | zero => rfl
  | succ k ih => rw [after_succ', ih, ← after_succ']

theorem after_add {σ ω : Type} (gen : σ → ω × σ) (s : σ) (j k : Nat) :
    after gen s (j + k) = after gen (after gen s j) k := by
  induction k with
  | zero => rfl
  | succ k ih => rw [← Nat.add_assoc, after_succ', ih, after_succ']

theorem after_inj {σ ω : Type} (gen : σ → ω × σ) (hi : ∀ s t, (gen s).2 = (gen t).2 → s = t) (k : Nat) :
    ∀ s t, after gen s k = after gen t k → s = t := by
  induction k with
  | zero => intro s t h; exact h
  | succ k ih => intro s t h; rw [after_succ', after_succ'] at h; exact ih _ _ (hi _ _ h)

theorem periodic {σ ω : Type} [Finite σ] (gen : σ → ω × σ) (hi : ∀ s t, (gen s).2 = (gen t).2 → s = t) (s : σ) :
    ∃ p, 0 < p ∧ ∀ n, after gen s (n + p) = after gen s n := by
  obtain ⟨a, b, hne, hab⟩ := Finite.exists_ne_map_eq_of_infinite (fun n => after gen s n)
  have key : ∀ a b, a < b → after gen s a = after gen s b →
      ∃ p, 0 < p ∧ ∀ n, after gen s (n + p) = after gen s n := by
    intro a b hlt hab
    refine ⟨b - a, by omega, ?_⟩
    have h0 : after gen s (b - a) = s := by
      apply after_inj gen hi a
      rw [← after_add, show b - a + a = b by omega]; exact hab.symm
    intro n
    rw [Nat.add_comm, after_add, h0]
  rcases Nat.lt_or_gt_of_ne hne with h | h
  · exact key a b h hab
  · exact key b a h hab.symm

instance (n : Nat) : Finite (BitVec n) :=
  Finite.of_injective (fun x : BitVec n => x.toFin) (fun x y h => by
    apply BitVec.eq_of_toFin_eq; exact h)

instance : Finite Xs :=
  Finite.of_injective (fun s : Xs => (s.x, s.y, s.z, s.w)) (fun s t h => by
    cases s; cases t; simpa using h)

instance : Finite S2 :=
  Finite.of_injective (fun s : S2 => (s.s0, s.s1)) (fun s t h => by
    cases s; cases t; simpa using h)

/-! ## Reading bytes -/

theorem copyBytes_eq (a : List UInt8) : ∀ (cnt i off : Nat) (buf : List UInt8),
    i + cnt ≤ a.length → off + i + cnt ≤ buf.length →
    copyBytes a cnt i off buf = .ok (overwrite buf (off + i) ((a.drop i).take cnt)) := by
  intro cnt
  induction cnt with
  | zero => intro i off buf _ h; simp [copyBytes, overwrite]
  | succ cnt ih =>
    intro i off buf h1 h2
    rw [copyBytes, at?_eq_ok (by omega)]
    simp only [Res.ok_bind]
    rw [wr_eq (by omega)]
    simp only [Res.ok_bind]
    rw [ih (i + 1) off _ (by omega) (by rw [overwrite_length (by simp; omega)]; omega),
      overwrite_overwrite (by simp; omega) (by simp; omega)]
    congr 2
    rw [List.drop_eq_getElem_cons (by omega : i < a.length), List.take_succ_cons]
    simp

theorem outputs_succ {σ ω : Type} (gen : σ → ω × σ) (s : σ) (k : Nat) :
    outputs gen s (k + 1) = (gen s).1 :: outputs gen (gen s).2 k := by
  rw [outputs, outputs, List.range_succ_eq_map, List.map_cons, List.map_map]
  congr 1
  apply List.map_congr_left
  intro i _
  simp only [Function.comp, after_succ]

theorem outputBytes_succ {σ : Type} {w : Nat} (u : Nat) (gen : σ → BitVec w × σ) (s : σ) (k : Nat) :
    outputBytes u gen s (k + 1) = bytesLE u (gen s).1.toNat ++ outputBytes u gen (gen s).2 k := by
  rw [outputBytes, outputs_succ, List.flatMap_cons, outputBytes]

theorem outputBytes_add {σ : Type} {w : Nat} (u : Nat) (gen : σ → BitVec w × σ) (s : σ) (j k : Nat) :
    outputBytes u gen s (j + k) = outputBytes u gen s j ++ outputBytes u gen (after gen s j) k := by
  induction j generalizing s with
  | zero => simp [outputBytes, outputs, after_zero]
  | succ j ih =>
    rw [show j + 1 + k = j + k + 1 by omega, outputBytes_succ, ih, outputBytes_succ, after_succ,
      List.append_assoc]

theorem outputBytes_length {σ : Type} {w : Nat} (u : Nat) (gen : σ → BitVec w × σ) (s : σ) (k : Nat) :
    (outputBytes u gen s k).length = u * k := by
  induction k generalizing s with
  | zero => simp [outputBytes, outputs]
  | succ k ih => rw [outputBytes_succ, List.length_append, ih, bytesLE_length, Nat.mul_succ, Nat.add_comm]

theorem readLocal_eq {σ : Type} {w : Nat} (u : Nat) (hu : 0 < u) (gen : σ → BitVec w × σ) :
    ∀ (fuel : Nat) (s : σ) (off n : Nat) (buf : List UInt8), n < fuel → off + n ≤ buf.length →
    readLocal u gen fuel s off n buf =
      .ok (overwrite buf off ((outputBytes u gen s ((n + u - 1) / u)).take n), after gen s ((n + u - 1) / u)) := by
  intro fuel
  induction fuel with
  | zero => intro s off n buf h; omega
  | succ fuel ih =>
    intro s off n buf hf hb
    rw [readLocal]
    by_cases h : u ≤ n
    · rw [if_pos h]
      simp only
      rw [copyBytes_eq _ _ _ _ _ (by simp) (by omega)]
      simp only [Res.ok_bind]
      have hd : (n + u - 1) / u = (n - u + u - 1) / u + 1 := by
        rw [← Nat.add_div_right _ hu]; congr 1; omega
      rw [ih _ _ _ _ (by omega) (by rw [overwrite_length (by simp; omega)]; omega), hd, outputBytes_succ, after_succ,
        List.take_append, List.take_of_length_le (by simp; omega : (bytesLE u (gen s).1.toNat).length ≤ n),
        overwrite_overwrite (by simp) (by simp; omega), memBytes_eq]
      simp
      rw [List.take_of_length_le (by simp)]
    · rw [if_neg h]
      by_cases h0 : 0 < n
      · rw [if_pos h0]
        simp only
        rw [copyBytes_eq _ _ _ _ _ (by simp; omega) (by omega)]
        have hd : (n + u - 1) / u = 0 + 1 := by
          rw [show n + u - 1 = (n - 1) + u by omega, Nat.add_div_right _ hu, Nat.div_eq_of_lt (by omega)]
        rw [hd, outputBytes_succ, after_succ, List.take_append_of_le_length (by simp; omega), memBytes_eq]
        simp [after_zero]
      · have : n = 0 := by omega
        subst this
        rw [if_neg h0]
        have hd : (0 + u - 1) / u = 0 := Nat.div_eq_of_lt (by omega)
        rw [hd]
        simp [overwrite, after_zero]

/-! ## Full period of the linear congruential generator -/

/-- `1 + a + … + a^(k-1)`. -/
def geo (a : Nat) : Nat → Nat
  | 0 => 0
  | k + 1 => a * geo a k + 1

theorem geo_mul (a : Nat) (k : Nat) : a * geo a k + 1 = geo a k + a ^ k := by
  induction k with
  | zero => simp [geo]
  | succ k ih =>
    rw [geo, Nat.pow_succ]
    have : a * (a * geo a k + 1) = a * geo a k + a ^ k * a := by rw [ih]; ring
    omega

theorem geo_add (a j k : Nat) : geo a (j + k) = geo a j + a ^ j * geo a k := by
  induction k with
  | zero => simp [geo]
  | succ k ih =>
    rw [← Nat.add_assoc, geo, ih, geo]
    have := geo_mul a j
    have e : a ^ j * (a * geo a k + 1) = a * (a ^ j * geo a k) + a ^ j := by ring
    rw [e, Nat.mul_add]; omega

theorem pow_mod4 {a : Nat} (ha : a % 4 = 1) (k : Nat) : a ^ k % 4 = 1 := by
  rw [Nat.pow_mod, ha]; simp

theorem geo_mod2 {a : Nat} (ha : a % 2 = 1) (k : Nat) : geo a k % 2 = k % 2 := by
  induction k with
  | zero => rfl
  | succ k ih =>
    rw [geo, Nat.add_mod, Nat.mul_mod, ha, ih]; omega

theorem geo_dvd {a : Nat} (ha : a % 4 = 1) (e : Nat) : ∀ k, 2 ^ e ∣ geo a k ↔ 2 ^ e ∣ k := by
  induction e with
  | zero => intro k; simp
  | succ e ih =>
    intro k
    have h2 := geo_mod2 (a := a) (by omega) k
    by_cases hk : k % 2 = 0
    · obtain ⟨m, rfl⟩ : ∃ m, k = 2 * m := ⟨k / 2, by omega⟩
      have hp := pow_mod4 ha m
      have e1 : geo a (2 * m) = geo a m * (1 + a ^ m) := by
        rw [Nat.two_mul, geo_add]; ring
      obtain ⟨q, hq⟩ : ∃ q, 1 + a ^ m = 2 * (2 * q + 1) := ⟨a ^ m / 4, by omega⟩
      have hco : Nat.Coprime (2 ^ e) (2 * q + 1) := Nat.Coprime.pow_left _ (by
        rw [Nat.coprime_comm]; simp)
      rw [e1, hq, Nat.pow_succ, show geo a m * (2 * (2 * q + 1)) = geo a m * (2 * q + 1) * 2 by ring,
        Nat.mul_comm 2 m, Nat.mul_dvd_mul_iff_right (by decide), Nat.mul_dvd_mul_iff_right (by decide), ← ih m]
      exact ⟨fun h => hco.dvd_of_dvd_mul_right h, fun h => Dvd.dvd.mul_right h _⟩
    · constructor
      · intro h
        have : 2 ∣ geo a k := Dvd.dvd.trans (Dvd.intro_left _ (Nat.pow_succ ..).symm) h
        omega
      · intro h
        have : 2 ∣ k := Dvd.dvd.trans (Dvd.intro_left _ (Nat.pow_succ ..).symm) h
        omega

/-- The step of a linear congruential generator. -/
def lcg {w : Nat} (a c : BitVec w) (x : BitVec w) : BitVec w := x * a + c

theorem lcg_toNat {w : Nat} (a c x : BitVec w) (k : Nat) :
    (Nat.repeat (lcg a c) k x).toNat = (a.toNat ^ k * x.toNat + c.toNat * geo a.toNat k) % 2 ^ w := by
  induction k with
  | zero => simp [Nat.repeat, geo, Nat.mod_eq_of_lt x.isLt]
  | succ k ih =>
    show (lcg a c (Nat.repeat (lcg a c) k x)).toNat = _
    rw [lcg, BitVec.toNat_add, BitVec.toNat_mul, ih, geo]
    have : a.toNat ^ (k + 1) * x.toNat + c.toNat * (a.toNat * geo a.toNat k + 1) =
        (a.toNat ^ k * x.toNat + c.toNat * geo a.toNat k) * a.toNat + c.toNat := by ring
    rw [this, Nat.mod_add_mod, Nat.add_mod, Nat.mod_mul_mod, ← Nat.add_mod]

theorem lcg_fix {w : Nat} (a c : BitVec w) (ha : a.toNat % 4 = 1) (hc : c.toNat % 2 = 1) (x : BitVec w) (k : Nat) :
    Nat.repeat (lcg a c) k x = x ↔ 2 ^ w ∣ k := by
  rw [← geo_dvd ha w k]
  have hg := geo_mul a.toNat k
  have h1 : a.toNat ^ k * x.toNat + c.toNat * geo a.toNat k =
      x.toNat + geo a.toNat k * ((a.toNat - 1) * x.toNat + c.toNat) := by
    obtain ⟨b, hb⟩ : ∃ b, a.toNat = b + 1 := ⟨a.toNat - 1, by omega⟩
    rw [hb] at hg ⊢
    have h2 : (b + 1) ^ k = b * geo (b + 1) k + 1 := by
      have : (b + 1) * geo (b + 1) k = b * geo (b + 1) k + geo (b + 1) k := by ring
      omega
    rw [h2, Nat.add_sub_cancel]; ring
  have hodd : ∃ q, (a.toNat - 1) * x.toNat + c.toNat = 2 * q + 1 := by
    obtain ⟨b, hb⟩ : ∃ b, a.toNat - 1 = 2 * b := ⟨(a.toNat - 1) / 2, by omega⟩
    refine ⟨b * x.toNat + c.toNat / 2, ?_⟩
    rw [hb, show 2 * b * x.toNat = 2 * (b * x.toNat) by ring]; omega
  obtain ⟨q, hq⟩ := hodd
  have hco : Nat.Coprime (2 ^ w) (2 * q + 1) := Nat.Coprime.pow_left _ (by
    rw [Nat.coprime_comm]; simp)
  rw [← BitVec.toNat_inj, lcg_toNat, h1, hq]
  have hx := x.isLt
  constructor
  · intro h
    have h3 : x.toNat + geo a.toNat k * (2 * q + 1) ≡ x.toNat + 0 [MOD 2 ^ w] := by
      show _ % _ = _ % _
      rw [h, Nat.add_zero, Nat.mod_eq_of_lt hx]
    have h4 := (Nat.modEq_zero_iff_dvd).1 (Nat.ModEq.add_left_cancel' _ h3)
    exact hco.dvd_of_dvd_mul_right h4
  · intro h
    have h4 : 2 ^ w ∣ geo a.toNat k * (2 * q + 1) := Dvd.dvd.mul_right h _
    rw [Nat.add_mod, Nat.mod_eq_zero_of_dvd h4, Nat.add_zero, Nat.mod_mod, Nat.mod_eq_of_lt hx]

theorem repeat_add {α : Type} (f : α → α) (j k : Nat) (x : α) :
    Nat.repeat f (j + k) x = Nat.repeat f k (Nat.repeat f j x) := by
  induction k with
  | zero => rfl
  | succ k ih => exact congrArg f ih

theorem lcg_orbit_inj {w : Nat} (a c : BitVec w) (ha : a.toNat % 4 = 1) (hc : c.toNat % 2 = 1) (x : BitVec w)
    {j k : Nat} (hj : j < 2 ^ w) (hk : k < 2 ^ w) (h : Nat.repeat (lcg a c) j x = Nat.repeat (lcg a c) k x) : j = k := by
  have key : ∀ j k, j ≤ k → k < 2 ^ w → Nat.repeat (lcg a c) j x = Nat.repeat (lcg a c) k x → j = k := by
    intro j k hjk hk h
    rw [show k = j + (k - j) by omega, repeat_add] at h
    have := (lcg_fix a c ha hc _ _).1 h.symm
    rcases Nat.eq_zero_or_pos (k - j) with h0 | h0
    · omega
    · have := Nat.le_of_dvd h0 this; omega
  rcases Nat.le_total j k with h' | h'
  · exact key j k h' hk h
  · exact (key k j h' hj h.symm).symm

theorem lcg_orbit_surj {w : Nat} (a c : BitVec w) (ha : a.toNat % 4 = 1) (hc : c.toNat % 2 = 1) (x y : BitVec w) :
    ∃ k, k < 2 ^ w ∧ Nat.repeat (lcg a c) k x = y := by
  have hinj : Function.Injective fun k : Fin (2 ^ w) => (Nat.repeat (lcg a c) k.val x).toFin := by
    intro j k h
    apply Fin.eq_of_val_eq
    exact lcg_orbit_inj a c ha hc x j.isLt k.isLt (BitVec.eq_of_toFin_eq h)
  obtain ⟨k, hk⟩ := Finite.surjective_of_injective hinj y.toFin
  exact ⟨k.val, k.isLt, BitVec.eq_of_toFin_eq hk⟩

/-! ## Shuffling -/

theorem swapAt_ok {α : Type} {v : List α} {i r : Nat} (hi : i < v.length) (hr : r < v.length) :
    swapAt v i r = .ok ((v.set i v[r]).set r v[i]) := by
  rw [swapAt, at?_eq_ok hi, at?_eq_ok hr]
  simp only [Res.ok_bind, putAt]
  rw [if_pos hi]
  simp only [Res.ok_bind, List.length_set]
  rw [if_pos hr]

theorem swap_perm {α : Type} {v : List α} {i r : Nat} (hi : i < v.length) (hr : r < v.length) :
    ((v.set i v[r]).set r v[i]).Perm v := by
  have := Array.swap_perm (xs := v.toArray) (i := i) (j := r) (by simpa using hi) (by simpa using hr)
  simpa [Array.swap_def, Array.perm_iff_toList_perm] using this

theorem swap_take {α : Type} {v : List α} {i r : Nat} (hi : i < v.length) (hr : r < v.length) (h : i ≤ r) :
    ((v.set i v[r]).set r v[i]).take i = v.take i := by
  rw [List.take_set_of_le h, List.take_set_of_le (Nat.le_refl _)]

theorem swap_take_succ {α : Type} {v : List α} {i r : Nat} (hi : i < v.length) (hr : r < v.length) (h : i ≤ r) :
    ((v.set i v[r]).set r v[i]).take (i + 1) = v.take i ++ [v[r]] := by
  have hl : i < ((v.set i v[r]).set r v[i]).length := by simpa using hi
  rw [← List.take_append_getElem hl, swap_take hi hr h]
  congr 2
  rw [List.getElem_set]
  by_cases e : r = i
  · subst e; simp
  · rw [if_neg e]; simp

theorem shuffleLoop_ok {α : Type} (n : Nat) : ∀ (cnt i : Nat) (g : Nat → BitVec 64) (v : List α),
    v.length = n → i + cnt < n → ∃ v', shuffleLoop n cnt i g v = .ok v' ∧ v'.Perm v ∧ v'.take i = v.take i := by
  intro cnt
  induction cnt with
  | zero => intro i g v _ _; exact ⟨v, rfl, List.Perm.refl _, rfl⟩
  | succ cnt ih =>
    intro i g v hn hi
    rw [shuffleLoop]
    have hr : (g i).toNat % (n - i) < n - i := Nat.mod_lt _ (by omega)
    rw [swapAt_ok (by omega) (by omega)]
    simp only [Res.ok_bind]
    obtain ⟨v', e, hp, ht⟩ := ih (i + 1) g ((v.set i (v[i + (g i).toNat % (n - i)]'(by omega))).set
      (i + (g i).toNat % (n - i)) (v[i]'(by omega))) (by simpa using hn) (by omega)
    refine ⟨v', e, hp.trans (swap_perm (by omega) (by omega)), ?_⟩
    have := congrArg (List.take i) ht
    rwa [List.take_take, List.take_take, Nat.min_eq_left (by omega), swap_take (by omega) (by omega) (by omega)] at this

theorem shuffleLoop_congr {α : Type} (n : Nat) : ∀ (cnt i : Nat) (g g' : Nat → BitVec 64) (v : List α),
    (∀ k, i ≤ k → g k = g' k) → shuffleLoop n cnt i g v = shuffleLoop n cnt i g' v := by
  intro cnt
  induction cnt with
  | zero => intro i g g' v _; rfl
  | succ cnt ih =>
    intro i g g' v h
    rw [shuffleLoop, shuffleLoop, h i (Nat.le_refl _)]
    cases swapAt v i (i + (g' i).toNat % (n - i)) with
    | ok v' => simp only [Res.ok_bind]; exact ih _ _ _ _ (fun k hk => h k (by omega))
    | throw => rfl
    | ub => rfl

/-- Every arrangement is reachable. -/
theorem shuffleLoop_reach {α : Type} (n : Nat) (h64 : n ≤ 2 ^ 64) : ∀ (cnt i : Nat) (v t : List α),
    v.length = n → i + cnt + 1 = n → t.Perm v → t.take i = v.take i →
    ∃ g : Nat → BitVec 64, shuffleLoop n cnt i g v = .ok t := by
  intro cnt
  induction cnt with
  | zero =>
    intro i v t hn hi hp ht
    refine ⟨fun _ => 0, ?_⟩
    rw [shuffleLoop]
    have hl := hp.length_eq
    have hd : (t.drop i).Perm (v.drop i) := by
      rw [← List.take_append_drop i t, ← List.take_append_drop i v, ht] at hp
      exact (List.perm_append_left_iff _).1 hp
    have h1 : t.drop i = v.drop i := by
      obtain ⟨x, hx⟩ : ∃ x, v.drop i = [x] := List.length_eq_one_iff.1 (by simp; omega)
      rw [hx] at hd ⊢
      exact List.perm_singleton.1 hd
    rw [← List.take_append_drop i t, ← List.take_append_drop i v, ht, h1]
  | succ cnt ih =>
    intro i v t hn hi hp ht
    have hl := hp.length_eq
    have hd : (t.drop i).Perm (v.drop i) := by
      rw [← List.take_append_drop i t, ← List.take_append_drop i v, ht] at hp
      exact (List.perm_append_left_iff _).1 hp
    have hti : t[i]'(by omega) ∈ v.drop i := by
      rw [← hd.mem_iff]; exact List.mem_iff_getElem.2 ⟨0, by simp; omega, by simp⟩
    obtain ⟨j, hj, ej⟩ := List.mem_iff_getElem.1 hti
    rw [List.length_drop] at hj
    rw [List.getElem_drop] at ej
    have hij : i + j < v.length := by omega
    obtain ⟨g, hg⟩ := ih (i + 1) ((v.set i v[i + j]).set (i + j) (v[i]'(by omega))) t (by simpa using hn) (by omega)
      (hp.trans (swap_perm (by omega) hij).symm) (by
        rw [swap_take_succ (by omega) hij (by omega), ej, ← ht, List.take_append_getElem])
    refine ⟨fun k => if k = i then BitVec.ofNat 64 j else g k, ?_⟩
    rw [shuffleLoop]
    simp only [if_true]
    have hm : (BitVec.ofNat 64 j).toNat % (n - i) = j := by
      rw [BitVec.toNat_ofNat, Nat.mod_eq_of_lt (by omega), Nat.mod_eq_of_lt (by omega)]
    simp only [hm]
    rw [swapAt_ok (by omega) hij]
    simp only [Res.ok_bind]
    rw [← hg]
    exact shuffleLoop_congr n cnt (i + 1) _ _ _ (fun k hk => by simp [show k ≠ i by omega])

/-- The choices are determined by the result if the elements are different. -/
theorem shuffleLoop_inj {α : Type} (n : Nat) : ∀ (cnt i : Nat) (v t : List α) (g g' : Nat → BitVec 64),
    v.length = n → i + cnt < n → v.Nodup → shuffleLoop n cnt i g v = .ok t → shuffleLoop n cnt i g' v = .ok t →
    ∀ k, i ≤ k → k < i + cnt → (g k).toNat % (n - k) = (g' k).toNat % (n - k) := by
  intro cnt
  induction cnt with
  | zero => intro i v t g g' _ _ _ _ _ k h1 h2; omega
  | succ cnt ih =>
    intro i v t g g' hn hi hnd h h' k h1 h2
    rw [shuffleLoop] at h h'
    have hr : (g i).toNat % (n - i) < n - i := Nat.mod_lt _ (by omega)
    have hr' : (g' i).toNat % (n - i) < n - i := Nat.mod_lt _ (by omega)
    rw [swapAt_ok (by omega) (by omega)] at h h'
    simp only [Res.ok_bind] at h h'
    have e1 : t.take (i + 1) = v.take i ++ [v[i + (g i).toNat % (n - i)]'(by omega)] := by
      obtain ⟨v', e, _, ht⟩ := shuffleLoop_ok n cnt (i + 1) g _ (by simpa using hn) (by omega) |>
        fun f => (f : ∃ v', shuffleLoop n cnt (i + 1) g ((v.set i (v[i + (g i).toNat % (n - i)]'(by omega))).set
          (i + (g i).toNat % (n - i)) (v[i]'(by omega))) = .ok v' ∧ _ ∧ _)
      rw [e] at h
      rw [← Res.ok.inj h, ht, swap_take_succ (by omega) (by omega) (by omega)]
    have e2 : t.take (i + 1) = v.take i ++ [v[i + (g' i).toNat % (n - i)]'(by omega)] := by
      obtain ⟨v', e, _, ht⟩ := shuffleLoop_ok n cnt (i + 1) g' _ (by simpa using hn) (by omega) |>
        fun f => (f : ∃ v', shuffleLoop n cnt (i + 1) g' ((v.set i (v[i + (g' i).toNat % (n - i)]'(by omega))).set
          (i + (g' i).toNat % (n - i)) (v[i]'(by omega))) = .ok v' ∧ _ ∧ _)
      rw [e] at h'
      rw [← Res.ok.inj h', ht, swap_take_succ (by omega) (by omega) (by omega)]
    rw [e1] at e2
    have e3 := List.cons.inj (List.append_cancel_left e2)
    have e4 := (List.Nodup.getElem_inj_iff hnd).1 e3.1
    have e5 : (g i).toNat % (n - i) = (g' i).toNat % (n - i) := by omega
    by_cases hk : k = i
    · rw [hk]; exact e5
    · simp only [← e5] at h'
      exact ih (i + 1) _ t g g' (by simpa using hn) (by omega)
        ((swap_perm (by omega) (by omega)).nodup_iff.2 hnd) h h' k (by omega) (by omega)

end Verif.Random
