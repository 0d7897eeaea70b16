import Verif.Proof.BitVector
set_option linter.unusedSimpArgs false
namespace Verif.BitVector
open Verif.Spec.BitVector

variable {w : Nat}

theorem value_cons (x : BitVec w) (v : List (BitVec w)) : value (x :: v) = x.toNat + 2 ^ w * value v := rfl

theorem testBit_value (hw : 0 < w) (v : List (BitVec w)) (i : Nat) : (value v).testBit i = bitAt v i := by
  induction v generalizing i with
  | nil => simp [value, bitAt, wd]
  | cons x v ih =>
    rw [value_cons, Nat.add_comm, Nat.testBit_two_pow_mul_add _ x.isLt]
    obtain ⟨k, p, hp, rfl⟩ := split_index hw i
    rw [bitAt_mul_add hw _ hp]
    cases k with
    | zero => simp [hp, wd, BitVec.testBit_toNat]
    | succ k =>
      rw [if_neg (by rw [Nat.add_mul]; omega), ih,
        show (k + 1) * w + p - w = k * w + p by rw [Nat.add_mul]; omega, bitAt_mul_add hw _ hp]
      rfl

/-- The array the source words are read from. -/
def srcArr (same : Bool) (dst src : List (BitVec w)) : List (BitVec w) := if same then dst else src

theorem pubCopy_spec (same : Bool) (src : List (BitVec w)) (i : Nat) :
    ∀ dst : List (BitVec w), i < dst.length → (same = false → i < src.length) →
    ∃ dst', shiftLeftPubCopy same src i dst = .ok dst' ∧ dst'.length = dst.length ∧
      ∀ k, wd dst' k = if 1 ≤ k ∧ k ≤ i then wd (srcArr same dst src) k else wd dst k := by
  induction i with
  | zero =>
    intro dst h1 h2
    exact ⟨dst, rfl, rfl, fun k => by rw [if_neg (by omega)]⟩
  | succ i ih =>
    intro dst h1 h2
    have hrd : rdSrc same src dst (i + 1) = .ok (wd (srcArr same dst src) (i + 1)) := by
      rw [rdSrc, srcArr]
      cases same
      · simp only [Bool.false_eq_true, if_false]; exact at?_wd (h2 rfl)
      · simp only [if_true]; exact at?_wd h1
    simp only [shiftLeftPubCopy]
    rw [hrd, Res.ok_bind, setAt?_ok _ h1, Res.ok_bind]
    obtain ⟨d, e1, e2, e3⟩ := ih (dst.set (i + 1) (wd (srcArr same dst src) (i + 1)))
      (by simp; omega) (fun h => by have := h2 h; omega)
    refine ⟨d, e1, by simpa using e2, fun k => ?_⟩
    rw [e3]
    have hs : ∀ k, k ≠ i + 1 → wd (srcArr same (dst.set (i + 1) (wd (srcArr same dst src) (i + 1))) src) k
        = wd (srcArr same dst src) k := by
      intro k hk
      cases same
      · simp [srcArr]
      · simp only [srcArr, if_true]; rw [wd_set h1, if_neg hk]
    by_cases hk : k = i + 1
    · subst hk
      rw [if_neg (by omega), wd_set h1, if_pos rfl, if_pos (by omega)]
    · by_cases hk2 : 1 ≤ k ∧ k ≤ i
      · rw [if_pos hk2, if_pos (by omega), hs k hk]
      · rw [if_neg hk2, if_neg (by omega), wd_set h1, if_neg hk]

theorem pubLoop_spec (same : Bool) (src : List (BitVec w)) (s : Nat) (i : Nat) :
    ∀ (dst : List (BitVec w)) (prev : BitVec w), i < dst.length → (same = false → i ≤ src.length) →
    ∃ dst', shiftLeftPubLoop same src s i dst prev = .ok (dst', srcW (srcArr same dst src) i prev 0) ∧
      dst'.length = dst.length ∧
      ∀ k, wd dst' k =
        if 0 < k ∧ k ≤ i then
          (srcW (srcArr same dst src) i prev k <<< s) |||
            (wd (srcArr same dst src) (k - 1) >>> (w - s))
        else wd dst k := by
  induction i with
  | zero =>
    intro dst prev h1 h2
    exact ⟨dst, by simp [shiftLeftPubLoop, srcW], rfl, fun k => by rw [if_neg (by omega)]⟩
  | succ i ih =>
    intro dst prev h1 h2
    have hrd : rdSrc same src dst i = .ok (wd (srcArr same dst src) i) := by
      rw [rdSrc, srcArr]
      cases same
      · simp only [Bool.false_eq_true, if_false]; exact at?_wd (h2 rfl)
      · simp only [if_true]; exact at?_wd (by omega)
    simp only [shiftLeftPubLoop]
    rw [hrd, Res.ok_bind, setAt?_ok _ h1, Res.ok_bind]
    generalize hx : (prev <<< s) ||| (wd (srcArr same dst src) i >>> (w - s)) = x
    have hs : ∀ k, k ≠ i + 1 → wd (srcArr same (dst.set (i + 1) x) src) k = wd (srcArr same dst src) k := by
      intro k hk
      cases same
      · simp [srcArr]
      · simp only [srcArr, if_true]; rw [wd_set h1, if_neg hk]
    obtain ⟨d, e1, e2, e3⟩ := ih (dst.set (i + 1) x) (wd (srcArr same dst src) i)
      (by simp; omega) (fun h => by have := h2 h; omega)
    have hsw : ∀ k, k ≤ i → srcW (srcArr same (dst.set (i + 1) x) src) i (wd (srcArr same dst src) i) k
        = srcW (srcArr same dst src) (i + 1) prev k := by
      intro k hk
      simp only [srcW]
      rw [if_neg (show ¬ k = i + 1 by omega)]
      split
      · subst_vars; rfl
      · exact hs k (by omega)
    refine ⟨d, ?_, by simpa using e2, fun k => ?_⟩
    · rw [e1, hsw 0 (by omega)]
    · rw [e3]
      by_cases hk : k = i + 1
      · subst hk
        rw [if_neg (by omega), wd_set h1, if_pos rfl, if_pos (by omega), srcW, if_pos rfl,
          Nat.add_sub_cancel, hx]
      · by_cases hk2 : 0 < k ∧ k ≤ i
        · rw [if_pos hk2, if_pos (by omega), hsw k hk2.2, hs (k - 1) (by omega)]
        · rw [if_neg hk2, if_neg (by omega), wd_set h1, if_neg hk]

/-- All result bits of `ShiftLeftBit`. -/
theorem shiftLeftPub_bits (hw : 0 < w) (same : Bool) (dst src : List (BitVec w)) (n s : Nat)
    (ext : BitVec w) (hn : 0 < n) (hs : s < w) (hov : n + w ≤ 2 ^ 64)
    (h1 : (n + w - 1) / w ≤ dst.length) (h2 : same = false → (n + w - 1) / w ≤ src.length) :
    ∃ dst' ret, shiftLeftPub same dst src n s ext = .ok (dst', ret) ∧ dst'.length = dst.length ∧
      (∀ k p, p < w → (wd dst' k).getLsbD p =
        if k < (n + w - 1) / w then
          ((decide (s ≤ k * w + p) && cut (srcArr same dst src) n (k * w + p - s)) ||
            (decide (k = 0) && ext.getLsbD p))
        else (wd dst k).getLsbD p) ∧
      (∀ p, p < w → ret.getLsbD p =
        cut (srcArr same dst src) n ((n + w - 1) / w * w + p - s) ) := by
  have b1 : 0 < (n + w - 1) / w := Nat.div_pos (by omega) hw
  have hcut := fun k p hp => cut_word hw (srcArr same dst src) hn (k := k) (p := p) hp
  have hge : ∀ i, (n + w - 1) / w * w ≤ i → cut (srcArr same dst src) n i = false := by
    intro i hi
    have hlt := Nat.lt_mul_div_succ (n + w - 1) hw
    rw [Nat.mul_succ, Nat.mul_comm] at hlt
    rw [cut]; simp [show ¬ i < n by omega]
  rw [shiftLeftPub, if_neg (by omega), if_neg (by omega)]
  simp only [roundupBit_eq w hov]
  generalize hN : (n + w - 1) / w = N at *
  have hrd : ∀ k, k < N → rdSrc same src dst k = .ok (wd (srcArr same dst src) k) := by
    intro k hk
    rw [rdSrc, srcArr]
    cases same
    · simp only [Bool.false_eq_true, if_false]; exact at?_wd (by have := h2 rfl; omega)
    · simp only [if_true]; exact at?_wd (by omega)
  have hin : ∀ k p, p < w → k + 1 < N →
      (wd (srcArr same dst src) k).getLsbD p = cut (srcArr same dst src) n (k * w + p) := by
    intro k p hp hk
    have := hcut k p hp (by omega)
    rwa [srcW, if_neg (by omega)] at this
  have hlast : ∀ p, p < w → (wd (srcArr same dst src) (N - 1) &&& lastMask w (n % w)).getLsbD p =
      cut (srcArr same dst src) n ((N - 1) * w + p) := by
    intro p hp
    have := hcut (N - 1) p hp (by omega)
    rwa [srcW, if_pos rfl] at this
  by_cases hs0 : s = 0
  · subst hs0
    rw [if_pos rfl]
    have hret : ∀ p, p < w → (0 : BitVec w).getLsbD p = cut (srcArr same dst src) n (N * w + p - 0) := by
      intro p hp
      rw [hge _ (by omega)]; simp
    by_cases hone : N = 1
    · subst hone
      rw [if_pos rfl, hrd 0 (by omega), Res.ok_bind, setAt?_ok _ (by omega), Res.ok_bind, Res.pure_eq]
      refine ⟨_, _, rfl, by simp, fun k p hp => ?_, hret⟩
      rw [wd_set (by omega)]
      by_cases hk : k = 0
      · subst hk
        rw [if_pos rfl, if_pos (by omega), BitVec.getLsbD_or]
        have := hlast p hp
        simp only [Nat.sub_self] at this
        rw [this]; simp
      · rw [if_neg hk, if_neg (by omega)]
    · rw [if_neg hone, hrd _ (by omega), Res.ok_bind, setAt?_ok _ (by omega), Res.ok_bind]
      generalize hx : wd (srcArr same dst src) (N - 1) &&& lastMask w (n % w) = x at *
      obtain ⟨d, e1, e2, e3⟩ := pubCopy_spec same src (N - 2) (dst.set (N - 1) x)
        (by simp; omega) (fun h => by have := h2 h; omega)
      have hsrc : ∀ k, k < N - 1 → wd (srcArr same (dst.set (N - 1) x) src) k = wd (srcArr same dst src) k := by
        intro k hk
        cases same
        · simp [srcArr]
        · simp only [srcArr, if_true]; rw [wd_set (by omega), if_neg (by omega)]
      have hd0 : rdSrc same src d 0 = .ok (wd (srcArr same dst src) 0) := by
        cases hal : same
        · have := hrd 0 (by omega)
          rw [hal] at this
          simpa [rdSrc] using this
        · simp only [rdSrc, if_true]
          rw [at?_wd (by rw [e2]; simp; omega), e3, if_neg (by omega)]
          have := hsrc 0 (by omega)
          rw [hal] at this
          simp only [srcArr, if_true] at this ⊢
          rw [this]
      rw [e1, Res.ok_bind, hd0, Res.ok_bind, setAt?_ok _ (by rw [e2]; simp; omega), Res.ok_bind,
        Res.pure_eq]
      refine ⟨_, _, rfl, by simp [e2], fun k p hp => ?_, hret⟩
      rw [wd_set (by rw [e2]; simp; omega)]
      by_cases hk : k = 0
      · subst hk
        rw [if_pos rfl, if_pos (by omega), BitVec.getLsbD_or, hin 0 p hp (by omega)]; simp
      · rw [if_neg hk, e3]
        by_cases hk2 : 1 ≤ k ∧ k ≤ N - 2
        · rw [if_pos hk2, if_pos (by omega), hsrc k (by omega), hin k p hp (by omega)]; simp [hk]
        · rw [if_neg hk2, wd_set (by omega)]
          by_cases hk3 : k = N - 1
          · rw [if_pos hk3, if_pos (by omega), hlast p hp, hk3]; simp [show ¬ N - 1 = 0 by omega]
          · rw [if_neg hk3, if_neg (by omega)]
  · rw [if_neg hs0, hrd _ (by omega), Res.ok_bind]
    obtain ⟨d, e1, e2, e3⟩ := pubLoop_spec same src s (N - 1) dst
      (wd (srcArr same dst src) (N - 1) &&& lastMask w (n % w)) (by omega)
      (fun h => by have := h2 h; omega)
    rw [e1, Res.ok_bind]
    simp only
    rw [setAt?_ok _ (by omega), Res.ok_bind, Res.pure_eq]
    have hmulN : N * w = (N - 1) * w + w := by rw [← Nat.succ_mul]; congr 1; omega
    refine ⟨_, _, rfl, by simp [e2], fun k p hp => ?_, fun p hp => ?_⟩
    · rw [wd_set (by omega)]
      by_cases hk : k = 0
      · subst hk
        rw [if_pos rfl, if_pos (by omega), BitVec.getLsbD_or, BitVec.getLsbD_shiftLeft]
        simp only [Nat.zero_mul, Nat.zero_add]
        by_cases hps : p < s
        · simp [hps, show ¬ s ≤ p by omega]
        · rw [hcut 0 (p - s) (by omega) (by omega)]
          simp [hps, hp, show s ≤ p by omega]
      · rw [if_neg hk, e3]
        by_cases hk2 : 0 < k ∧ k ≤ N - 1
        · have hmul : k * w = (k - 1) * w + w := by rw [← Nat.succ_mul]; congr 1; omega
          rw [if_pos hk2, if_pos (by omega), shl_or s (by omega) hs _ _ hp]
          simp only [hk, decide_false, Bool.false_and, Bool.or_false]
          rw [decide_eq_true (show s ≤ k * w + p by omega), Bool.true_and]
          by_cases hps : p < s
          · rw [if_pos hps, hin _ _ (by omega) (by omega)]; congr 1; omega
          · rw [if_neg hps, hcut _ _ (by omega) (by omega)]; congr 1; omega
        · rw [if_neg hk2, if_neg (by omega)]
    · rw [BitVec.getLsbD_ushiftRight]
      by_cases hps : p < s
      · rw [hlast _ (by omega)]; congr 1; omega
      · rw [BitVec.getLsbD_of_ge _ _ (by omega), hge _ (by omega)]

/-- `ShiftLeftBit` as arithmetic on the numbers the arrays write. -/
theorem shiftLeftPub_value (hw : 0 < w) (same : Bool) (dst src : List (BitVec w)) (n s : Nat)
    (ext : BitVec w) (hn : 0 < n) (hs : s < w) (hov : n + w ≤ 2 ^ 64)
    (h1 : (n + w - 1) / w ≤ dst.length) (h2 : same = false → (n + w - 1) / w ≤ src.length) :
    ∃ dst' ret, shiftLeftPub same dst src n s ext = .ok (dst', ret) ∧ dst'.length = dst.length ∧
      dst'.drop ((n + w - 1) / w) = dst.drop ((n + w - 1) / w) ∧
      value (dst'.take ((n + w - 1) / w)) + 2 ^ ((n + w - 1) / w * w) * ret.toNat =
        ((value (if same then dst else src) % 2 ^ n) <<< s) ||| ext.toNat := by
  obtain ⟨d, ret, e1, e2, e3, e4⟩ := shiftLeftPub_bits hw same dst src n s ext hn hs hov h1 h2
  have b1 : 0 < (n + w - 1) / w := Nat.div_pos (by omega) hw
  have hnN : n ≤ (n + w - 1) / w * w := by
    have hlt := Nat.lt_mul_div_succ (n + w - 1) hw
    rw [Nat.mul_succ, Nat.mul_comm] at hlt
    omega
  refine ⟨d, ret, e1, e2, ?_, ?_⟩
  · generalize (n + w - 1) / w = N at *
    apply List.ext_getElem
    · simp [e2]
    · intro k hk1 hk2
      rw [List.getElem_drop, List.getElem_drop]
      apply BitVec.eq_of_getLsbD_eq
      intro p hp
      have := e3 (N + k) p hp
      simp only [List.length_drop] at hk1 hk2
      rw [if_neg (by omega), wd, wd, List.getD_eq_getElem _ _ (by omega),
        List.getD_eq_getElem _ _ (by omega)] at this
      exact this
  · generalize (n + w - 1) / w = N at *
    have hlt : value (d.take N) < 2 ^ (N * w) := by
      have : (d.take N).length = N := by simp; omega
      apply Nat.lt_pow_two_of_testBit
      intro j hj
      rw [testBit_value hw, bitAt_ge hw (by rw [this]; exact hj)]
    apply Nat.eq_of_testBit_eq
    intro i
    rw [Nat.add_comm, Nat.testBit_two_pow_mul_add _ hlt, Nat.testBit_or, Nat.testBit_shiftLeft,
      Nat.testBit_mod_two_pow, testBit_value hw, testBit_value hw]
    have hcut : ∀ j, (decide (j < n) && bitAt (if same = true then dst else src) j) =
        cut (srcArr same dst src) n j := fun j => rfl
    rw [hcut]
    obtain ⟨k, p, hp, rfl⟩ := split_index hw i
    have hext : ext.toNat.testBit (k * w + p) = (decide (k = 0) && ext.getLsbD p) := by
      by_cases hk : k = 0
      · subst hk; simp [BitVec.testBit_toNat]
      · rw [BitVec.testBit_toNat, BitVec.getLsbD_of_ge]
        · simp [hk]
        · have := Nat.mul_le_mul_right w (show 1 ≤ k by omega); omega
    rw [hext]
    by_cases hk : k < N
    · have := (lt_iff (w := w) hp hw (k := k) (q := N)).mpr (Or.inl hk)
      rw [if_pos (by omega), bitAt_mul_add hw _ hp]
      have : wd (d.take N) k = wd d k := by
        simp only [wd, List.getD_eq_getElem?_getD, List.getElem?_take, hk, if_true]
      rw [this, e3 k p hp, if_pos hk]
    · have hmul := Nat.mul_le_mul_right w (show N ≤ k by omega)
      rw [if_neg (by omega)]
      have hk0 : k ≠ 0 := by omega
      simp only [hk0, decide_false, Bool.false_and, Bool.or_false]
      by_cases hkN : k = N
      · subst hkN
        rw [Nat.add_sub_cancel_left, BitVec.testBit_toNat, e4 p hp]
        have : s ≤ k * w + p := by
          have := Nat.mul_le_mul_right w (show 1 ≤ k by omega); omega
        simp [this]
      · have hmul := Nat.mul_le_mul_right w (show N + 1 ≤ k by omega)
        rw [Nat.add_mul] at hmul
        rw [BitVec.testBit_toNat, BitVec.getLsbD_of_ge _ _ (by omega), cut]
        simp [show ¬ (k * w + p - s < n) by omega]

end Verif.BitVector
