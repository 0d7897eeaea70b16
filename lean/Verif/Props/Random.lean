import Verif.Proof.Random

/-!
# C44 xorshift generators, C45 PCG, C46 shuffle
-/
namespace Verif.Props.Random
open Verif.Random Verif.Spec.Random Verif.Spec.Endian

/-! ## C44 -/

/-- C44: the step of `XorShift` does not merge two states. -/
theorem C44_xorshift_injective (s t : Xs) (h : s.get32.2 = t.get32.2) : s = t := get32_inj h

/-- C44: the same for `XorShift128Plus`. -/
theorem C44_plus_injective (s t : S2) (h : (plusGet64 s).2 = (plusGet64 t).2) : s = t := plus_inj h

/-- C44: the same for `Xoroshiro128Plus`. -/
theorem C44_xoroshiro_injective (s t : S2) (h : (xoroGet64 s).2 = (xoroGet64 t).2) : s = t := xoro_inj h

/-- C44: from every seed `XorShift` never reaches the all-zero state. -/
theorem C44_xorshift_nonzero (x y z w : BitVec 32) (k : Nat) :
    after Xs.get32 (Xs.init x y z w) k ≠ ⟨0, 0, 0, 0⟩ := by
  induction k with
  | zero =>
    intro h
    rw [after_zero, Xs.init, Xs.mk.injEq] at h
    have h1 := h.1
    by_cases hx : x = 0
    · rw [if_neg (by simpa using hx)] at h1; exact absurd h1 (by decide)
    · rw [if_pos hx] at h1; exact hx h1
  | succ k ih =>
    intro h
    rw [after_succ'] at h
    exact ih (get32_inj (h.trans (by decide : (⟨0, 0, 0, 0⟩ : Xs) = (Xs.get32 ⟨0, 0, 0, 0⟩).2)))

/-- C44: the two 128-bit generators never reach the all-zero state from a seed that is not all
zero. -/
theorem C44_plus_nonzero (a b : BitVec 64) (h : ¬ (a = 0 ∧ b = 0)) (k : Nat) :
    after plusGet64 (S2.init a b) k ≠ ⟨0, 0⟩ ∧ after xoroGet64 (S2.init a b) k ≠ ⟨0, 0⟩ := by
  constructor
  · induction k with
    | zero => rw [after_zero, S2.init]; simpa using h
    | succ k ih =>
      intro h
      rw [after_succ'] at h
      exact ih (plus_inj (h.trans (by decide : (⟨0, 0⟩ : S2) = (plusGet64 ⟨0, 0⟩).2)))
  · induction k with
    | zero => rw [after_zero, S2.init]; simpa using h
    | succ k ih =>
      intro h
      rw [after_succ'] at h
      exact ih (xoro_inj (h.trans (by decide : (⟨0, 0⟩ : S2) = (xoroGet64 ⟨0, 0⟩).2)))

/-- C44: the state sequence of each generator is purely periodic. -/
theorem C44_periodic (s : Xs) (t : S2) :
    (∃ p, 0 < p ∧ ∀ n, after Xs.get32 s (n + p) = after Xs.get32 s n) ∧
    (∃ p, 0 < p ∧ ∀ n, after plusGet64 t (n + p) = after plusGet64 t n) ∧
    (∃ p, 0 < p ∧ ∀ n, after xoroGet64 t (n + p) = after xoroGet64 t n) :=
  ⟨periodic _ (fun _ _ h => get32_inj h) s, periodic _ (fun _ _ h => plus_inj h) t,
    periodic _ (fun _ _ h => xoro_inj h) t⟩

/-- C44, finding: unlike `XorShift`, the two other generators accept the all-zero seed and then return
0 for ever. -/
theorem C44_finding_zero_seed (k : Nat) :
    (plusGet64 (after plusGet64 (S2.init 0 0) k)).1 = 0 ∧ (xoroGet64 (after xoroGet64 (S2.init 0 0) k)).1 = 0 := by
  have h1 : after plusGet64 (S2.init 0 0) k = S2.init 0 0 := by
    induction k with
    | zero => rfl
    | succ k ih => rw [after_succ', ih]; decide
  have h2 : after xoroGet64 (S2.init 0 0) k = S2.init 0 0 := by
    clear h1
    induction k with
    | zero => rfl
    | succ k ih => rw [after_succ', ih]; decide
  rw [h1, h2]; decide

/-- C44: `read` stores the first `n` bytes of the words the generator returns, in order, at the given
place, changes nothing else and uses as few calls as possible.  `u` is the word size (4 or 8). -/
theorem C44_read {σ : Type} {w : Nat} (u : Nat) (hu : 0 < u) (gen : σ → BitVec w × σ) (s : σ) (off n : Nat)
    (buf : List UInt8) (h : off + n ≤ buf.length) :
    readLocal u gen (n + 1) s off n buf =
      .ok (overwrite buf off ((outputBytes u gen s ((n + u - 1) / u)).take n), after gen s ((n + u - 1) / u)) :=
  readLocal_eq u hu gen (n + 1) s off n buf (by omega) h

/-- C44: reading whole words and then `n` bytes more is reading all at once. -/
theorem C44_read_split {σ : Type} {w : Nat} (u : Nat) (hu : 0 < u) (gen : σ → BitVec w × σ) (s : σ) (off m n : Nat)
    (buf : List UInt8) (h : off + (u * m + n) ≤ buf.length) :
    (do
      let (buf, s) ← readLocal u gen (u * m + 1) s off (u * m) buf
      readLocal u gen (n + 1) s (off + u * m) n buf) =
    readLocal u gen (u * m + n + 1) s off (u * m + n) buf := by
  have hd : (u * m + u - 1) / u = m := by
    rw [show u * m + u - 1 = u * m + (u - 1) by omega, Nat.mul_add_div hu, Nat.div_eq_of_lt (by omega)]; rfl
  have hd2 : (u * m + n + u - 1) / u = m + (n + u - 1) / u := by
    rw [show u * m + n + u - 1 = u * m + (n + u - 1) by omega, Nat.mul_add_div hu]
  rw [C44_read u hu gen s off _ buf (by omega), C44_read u hu gen s off _ buf h, hd, hd2]
  simp only [Res.ok_bind]
  have hl := outputBytes_length u gen s m
  rw [List.take_of_length_le (by omega)]
  have hl2 := outputBytes_length u gen (after gen s m) ((n + u - 1) / u)
  rw [C44_read u hu gen _ _ n _ (by rw [Verif.Endian.overwrite_length (by omega)]; omega),
    Verif.Endian.overwrite_overwrite (by omega) (by simp [hl]; omega), after_add, outputBytes_add, List.take_append, hl,
    List.take_of_length_le (by omega : (outputBytes u gen s m).length ≤ u * m + n)]
  congr 4
  rw [Nat.add_sub_cancel_left]

/-! ## C45 -/

theorem after_pcg (s : BitVec 64) (k : Nat) :
    after pcgGet32 s k = Nat.repeat (lcg 6364136223846793005 0x6d) k s := rfl

/-- C45: from every seed `s` every state is reached within the first 2^64 calls. -/
theorem C45_reaches_all (s t : BitVec 64) : ∃ k, k < 2 ^ 64 ∧ after pcgGet32 s k = t := by
  obtain ⟨k, h, e⟩ := lcg_orbit_surj (6364136223846793005 : BitVec 64) 0x6d (by decide) (by decide) s t
  exact ⟨k, h, e⟩

/-- C45: no state repeats within the first 2^64 calls. -/
theorem C45_no_repeat (s : BitVec 64) (j k : Nat) (hj : j < 2 ^ 64) (hk : k < 2 ^ 64)
    (h : after pcgGet32 s j = after pcgGet32 s k) : j = k :=
  lcg_orbit_inj (6364136223846793005 : BitVec 64) 0x6d (by decide) (by decide) s hj hk h

/-- C45: a seed comes back exactly after the multiples of 2^64 calls. -/
theorem C45_period (s : BitVec 64) (k : Nat) : after pcgGet32 s k = s ↔ 2 ^ 64 ∣ k :=
  lcg_fix (6364136223846793005 : BitVec 64) 0x6d (by decide) (by decide) s k

/-- C45: the result is the upper middle word of `old ^ (old >> 18)` rotated right by the top five
bits; the portable rotation (pcg.hpp:26) is a rotation, like the instruction used on x86. -/
theorem C45_output (s : BitVec 64) :
    (pcgGet32 s).1 = ((((s >>> 18) ^^^ s).extractLsb' 27 32)).rotateRight (s.toNat / 2 ^ 59) := by
  have hr : ((s >>> 59).setWidth 32 : BitVec 32).toNat = s.toNat / 2 ^ 59 := by
    have := s.isLt
    rw [BitVec.toNat_setWidth, BitVec.toNat_ushiftRight, Nat.shiftRight_eq_div_pow]; omega
  have hlt : s.toNat / 2 ^ 59 < 32 := by have := s.isLt; omega
  have hx : ((((s >>> 18) ^^^ s) >>> 27).setWidth 32 : BitVec 32) = ((s >>> 18) ^^^ s).extractLsb' 27 32 := by
    apply BitVec.eq_of_getLsbD_eq; intro i hi; simp [hi]
  rw [pcgGet32]
  simp only [hx]
  generalize ((s >>> 18) ^^^ s).extractLsb' 27 32 = x
  rw [rotr, hr, BitVec.rotateRight_eq_rotateRightAux_of_lt hlt, BitVec.rotateRightAux]
  have hm : ((-((s >>> 59).setWidth 32 : BitVec 32)) &&& 31).toNat = (32 - s.toNat / 2 ^ 59) % 32 := by
    rw [BitVec.toNat_and, BitVec.toNat_neg, hr, show (31 : BitVec 32).toNat = 2 ^ 5 - 1 from rfl, Nat.and_two_pow_sub_one_eq_mod]
    omega
  rw [hm]
  by_cases h0 : s.toNat / 2 ^ 59 = 0
  · rw [h0]; simp
  · rw [Nat.mod_eq_of_lt (by omega)]

theorem pcgFill_eq {α : Type} (get : BitVec 64 → α × BitVec 64) : ∀ (cnt : Nat) (s : BitVec 64) (pre rest : List α), cnt ≤ rest.length →
    pcgFill get cnt pre.length s (pre ++ rest) = .ok (pre ++ outputs get s cnt ++ rest.drop cnt, after get s cnt) := by
  intro cnt
  induction cnt with
  | zero => intro s pre rest _; simp [pcgFill, outputs, after, Nat.repeat]
  | succ cnt ih =>
    intro s pre rest h
    cases rest with
    | nil => simp at h
    | cons y rest =>
      have e : (pre ++ y :: rest).set pre.length (get s).1 = (pre ++ [(get s).1]) ++ rest := by simp
      have ho : outputs get s (cnt + 1) = (get s).1 :: outputs get (get s).2 cnt := by
        simp only [outputs, List.range_succ_eq_map, List.map_cons, List.map_map]
        congr 1
        apply List.map_congr_left
        intro i _
        simp only [Function.comp]
        rw [show i.succ = 1 + i by omega, after_add]
        rfl
      have ha : after get s (cnt + 1) = after get (get s).2 cnt := by
        rw [show cnt + 1 = 1 + cnt by omega, after_add]
        rfl
      rw [pcgFill, putAt, if_pos (by simp), Res.ok_bind, e]
      have := ih (get s).2 (pre ++ [(get s).1]) rest (by simpa using h)
      rw [List.length_append, List.length_cons, List.length_nil] at this
      rw [this, ho, ha]
      simp

theorem pcgGet64_snd (s : BitVec 64) : (pcgGet64 s).2 = (pcgGet32 (pcgGet32 s).2).2 := rfl

theorem pcgGet64_fst (s : BitVec 64) : (pcgGet64 s).1 = (pcgGet32 s).1 ++ (pcgGet32 (pcgGet32 s).2).1 := by
  have : (pcgGet64 s).1 = ((pcgGet32 s).1.setWidth 64 <<< 32) ||| (pcgGet32 (pcgGet32 s).2).1.setWidth 64 := rfl
  rw [this]
  generalize (pcgGet32 (pcgGet32 s).2).1 = b
  generalize (pcgGet32 s).1 = a
  apply BitVec.eq_of_getLsbD_eq
  intro i hi
  rw [BitVec.getLsbD_append, BitVec.getLsbD_or, BitVec.getLsbD_shiftLeft, BitVec.getLsbD_setWidth, BitVec.getLsbD_setWidth]
  by_cases h : i < 32
  · simp [h, hi]
  · have : b.getLsbD i = false := BitVec.getLsbD_of_ge _ _ (by omega)
    simp [h, hi, this]
    omega

theorem after_get8 (s : BitVec 64) (k : Nat) : after pcgGet8 s k = after pcgGet32 s k := by
  induction k with
  | zero => rfl
  | succ k ih => rw [after_succ', after_succ', ih]; rfl

theorem after_get64 (s : BitVec 64) (k : Nat) : after pcgGet64 s k = after pcgGet32 s (2 * k) := by
  induction k with
  | zero => rw [Nat.mul_zero, after, after, Nat.repeat, Nat.repeat]
  | succ k ih => rw [after_succ', ih, pcgGet64_snd, show 2 * (k + 1) = 2 * k + 1 + 1 by omega, after_succ', after_succ']

/-- C45: the three `read`s store the next `n` results in order, a byte being the low byte of a 32-bit result and a 64-bit word two 32-bit results, high
one first; they change nothing else. -/
theorem C45_read (s : BitVec 64) (n : Nat) :
    (∀ x : List (BitVec 8), n ≤ x.length →
      pcgRead8 s x n = .ok ((outputs pcgGet32 s n).map (·.setWidth 8) ++ x.drop n, after pcgGet32 s n)) ∧
    (∀ x : List (BitVec 32), n ≤ x.length → pcgRead32 s x n = .ok (outputs pcgGet32 s n ++ x.drop n, after pcgGet32 s n)) ∧
    (∀ x : List (BitVec 64), n ≤ x.length → ∃ v : List (BitVec 64), pcgRead64 s x n = .ok (v ++ x.drop n, after pcgGet32 s (2 * n)) ∧
      v.length = n ∧ ∀ i, i < n → ∃ a b, (outputs pcgGet32 s (2 * n))[2 * i]? = some a ∧ (outputs pcgGet32 s (2 * n))[2 * i + 1]? = some b ∧
        v[i]? = some (a ++ b)) := by
  refine ⟨fun x h => ?_, fun x h => ?_, fun x h => ?_⟩
  · have := pcgFill_eq pcgGet8 n s [] x h
    simp only [List.nil_append, List.length_nil] at this
    rw [pcgRead8, this, after_get8]
    simp only [outputs, List.map_map, after_get8]
    rfl
  · have := pcgFill_eq pcgGet32 n s [] x h
    rw [pcgRead32]
    simpa only [List.nil_append, List.length_nil] using this
  · have := pcgFill_eq pcgGet64 n s [] x h
    simp only [List.nil_append, List.length_nil] at this
    refine ⟨outputs pcgGet64 s n, by rw [pcgRead64, this, after_get64], by simp [outputs], fun i hi => ?_⟩
    refine ⟨(pcgGet32 (after pcgGet32 s (2 * i))).1, (pcgGet32 (after pcgGet32 s (2 * i + 1))).1, ?_, ?_, ?_⟩
    · simp only [outputs, List.getElem?_map]
      rw [List.getElem?_range (by omega)]
      rfl
    · simp only [outputs, List.getElem?_map]
      rw [List.getElem?_range (by omega)]
      rfl
    · simp only [outputs, List.getElem?_map]
      rw [List.getElem?_range hi]
      rw [Option.map_some, after_get64, pcgGet64_fst, after_succ']

/-- C45: reading in two parts is reading at once. -/
theorem C45_read_split (s : BitVec 64) (m n : Nat) (x y : List (BitVec 32)) (hx : x.length = m) (hy : y.length = n) :
    (do
      let r ← pcgRead32 s x m
      let t ← pcgRead32 r.2 y n
      return (r.1 ++ t.1, t.2)) = pcgRead32 s (x ++ y) (m + n) := by
  have hu : outputs pcgGet32 s (m + n) = outputs pcgGet32 s m ++ outputs pcgGet32 (after pcgGet32 s m) n := by
    simp only [outputs, List.range_add, List.map_append, List.map_map]
    congr 1
    apply List.map_congr_left
    intro i _
    simp only [Function.comp, after_add]
  rw [(C45_read s m).2.1 x (by omega), (C45_read s (m + n)).2.1 (x ++ y) (by simp; omega), Res.ok_bind,
    (C45_read _ n).2.1 y (by omega), Res.ok_bind, after_add, hu, List.drop_of_length_le (by omega), List.drop_of_length_le (by omega),
    List.drop_of_length_le (by simp; omega)]
  simp

example : pcgRead8 0x185706b82c2e03f8 [0, 0, 7] 2 =
    .ok ([(pcgGet32 0x185706b82c2e03f8).1.setWidth 8, (pcgGet32 (pcgStep 0x185706b82c2e03f8)).1.setWidth 8, 7],
      pcgStep (pcgStep 0x185706b82c2e03f8)) := by decide +kernel

/-! ## C46 -/

/-- C46: whatever numbers the generator returns, `shuffle` stays inside the array and leaves a
permutation of it. -/
theorem C46_shuffle_perm {α : Type} (v : List α) (g : Nat → BitVec 64) :
    ∃ v', shuffle v g = .ok v' ∧ v'.Perm v := by
  rw [shuffle]
  by_cases h : v.length ≤ 1
  · rw [if_pos h]; exact ⟨v, rfl, List.Perm.refl _⟩
  · rw [if_neg h]
    obtain ⟨v', e, hp, _⟩ := shuffleLoop_ok v.length (v.length - 1) 0 g v rfl (by omega)
    exact ⟨v', e, hp⟩

/-- C46: every arrangement of the array can result (arrays of at most 2^64 elements). -/
theorem C46_reachable {α : Type} (v t : List α) (h64 : v.length ≤ 2 ^ 64) (h : t.Perm v) :
    ∃ g, shuffle v g = .ok t := by
  by_cases hl : v.length ≤ 1
  · refine ⟨fun _ => 0, ?_⟩
    rw [shuffle, if_pos hl]
    refine congrArg Res.ok ?_
    match v, hl with
    | [], _ => exact (List.perm_nil.1 h).symm
    | [x], _ => exact (List.perm_singleton.1 h).symm
  · obtain ⟨g, hg⟩ := shuffleLoop_reach v.length h64 (v.length - 1) 0 v t rfl (by omega) h (by simp)
    exact ⟨g, by simp only [shuffle, if_neg hl, hg]⟩

/-- C46: no arrangement is favoured: if the elements are different, an arrangement results from
exactly one sequence of choices `g i % (n - i)`, `i < n - 1`. -/
theorem C46_choices_unique {α : Type} (v t : List α) (g g' : Nat → BitVec 64) (hnd : v.Nodup)
    (h : shuffle v g = .ok t) (h' : shuffle v g' = .ok t) (i : Nat) (hi : i < v.length - 1) :
    (g i).toNat % (v.length - i) = (g' i).toNat % (v.length - i) := by
  rw [shuffle, if_neg (by omega)] at h h'
  exact shuffleLoop_inj v.length (v.length - 1) 0 v t g g' rfl (by omega) hnd h h' i (by omega) (by omega)

example : shuffle [10, 20, 30] (fun i => if i = 0 then 5 else 4) = .ok [30, 20, 10] := by decide
example : ([30, 10, 20] : List Nat).Perm [10, 20, 30] := by decide
example : ([10, 20, 30] : List Nat).Nodup := by decide
/-- The first results of the default `XorShift` object (Marsaglia's xor128). -/
example : outputs Xs.get32 (Xs.init 0 0 0 0) 2 = [3701687786, 458299110] := by decide
example : (readLocal 4 Xs.get32 6 (Xs.init 0 0 0 0) 1 5 (List.replicate 7 0)) =
    .ok ([0] ++ (bytesLE 4 3701687786 ++ bytesLE 4 458299110).take 5 ++ [0], after Xs.get32 (Xs.init 0 0 0 0) 2) := by
  decide +kernel

#print axioms C44_xorshift_nonzero
#print axioms C44_periodic
#print axioms C44_read_split
#print axioms C45_reaches_all
#print axioms C45_output
#print axioms C45_read
#print axioms C45_read_split
#print axioms C46_reachable
#print axioms C46_choices_unique

end Verif.Props.Random
