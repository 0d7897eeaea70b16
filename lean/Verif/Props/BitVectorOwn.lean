import Verif.Model.BitVectorOwn
import Verif.Proof.BitVector

set_option linter.unusedSimpArgs false

/-! # C145: a bit vector as its own argument -/
namespace Verif.Props.BitVectorOwn
open Verif Verif.BitVector Verif.Spec.BitVector

variable {w : Nat}

/-! ## The loops in one storage do what they do in two -/

theorem at?_congr {u v : List (BitVec w)} {i j : Nat} (h : u[i]? = v[j]?) : at? u i = at? v j := by
  unfold at?
  rw [h]

theorem copyLoop_own (off k : Nat) (src : List (BitVec w)) (cnt : Nat) : ∀ i v, (∀ j, i ≤ j → j < i + cnt → v[k + j]? = src[j]?) →
    (∀ j j', i ≤ j → j < j' → j' < i + cnt → off + j ≠ k + j') →
    BitVectorOwn.copyLoop off k cnt i v = copyLoop off src cnt i v := by
  induction cnt with
  | zero => intro i v _ _; rfl
  | succ cnt ih =>
    intro i v h hne
    rw [BitVectorOwn.copyLoop, copyLoop, at?_congr (h i (Nat.le_refl _) (by omega))]
    cases hx : at? src i with
    | ok x =>
      simp only [Res.ok_bind]
      unfold setAt?
      split
      · simp only [Res.ok_bind]
        apply ih
        · intro j h1 h2
          rw [List.getElem?_set_ne (hne i j (Nat.le_refl _) (by omega) (by omega))]
          exact h j (by omega) (by omega)
        · intro j j' h1 h2 h3
          exact hne j j' (by omega) h2 (by omega)
      · rfl
    | throw => rfl
    | ub => rfl

theorem copyLoop_get (off : Nat) (src : List (BitVec w)) (cnt : Nat) : ∀ i v v', copyLoop off src cnt i v = .ok v' →
    ∀ m, (∀ j, i ≤ j → j < i + cnt → m ≠ off + j) → v'[m]? = v[m]? := by
  induction cnt with
  | zero => intro i v v' h m _; rw [copyLoop] at h; injection h with h; rw [h]
  | succ cnt ih =>
    intro i v v' h m hm
    rw [copyLoop, Res.bind_eq_ok] at h
    obtain ⟨x, _, h⟩ := h
    rw [Res.bind_eq_ok] at h
    obtain ⟨v1, h1, h⟩ := h
    rw [ih _ _ _ h m (fun j a b => hm j (by omega) (by omega))]
    unfold setAt? at h1
    split at h1
    · injection h1 with h1
      subst h1
      exact List.getElem?_set_ne (Ne.symm (hm i (Nat.le_refl _) (by omega)))
    · cases h1

/-- `CopyBit` in one storage, for a source that ends before the destination or a destination not after the source. -/
theorem copyBit_own (v : List (BitVec w)) (off k n : Nat) (hne : (∀ j j', j < j' → j' ≤ n / w → (n % w = 0 → j' < n / w) → off + j ≠ k + j')) :
    BitVectorOwn.copyBit v off k n = copyBit v off (v.drop k) n := by
  unfold BitVectorOwn.copyBit copyBit
  dsimp only
  rw [copyLoop_own off k (v.drop k) (n / w) 0 v (fun j _ _ => by rw [List.getElem?_drop])
    (fun j j' h1 h2 h3 => hne j j' h2 (by omega) (fun _ => by omega))]
  cases hc : copyLoop off (v.drop k) (n / w) 0 v with
  | ok v1 =>
    simp only [Res.ok_bind]
    by_cases hr : n % w = 0
    · rw [if_pos hr, if_pos hr]
    · rw [if_neg hr, if_neg hr]
      have e : at? v1 (k + n / w) = at? (v.drop k) (n / w) := by
        apply at?_congr
        rw [copyLoop_get off _ _ _ _ _ hc, List.getElem?_drop]
        intro j _ h2
        exact Ne.symm (hne j (n / w) (by omega) (Nat.le_refl _) (fun h => absurd h hr))
      rw [e]
  | throw => rfl
  | ub => rfl

theorem shiftLeftLoop_own (off k s : Nat) (hk : k ≤ off) (src : List (BitVec w)) (i : Nat) : ∀ v prev, (∀ j, j < i → v[k + j]? = src[j]?) →
    BitVectorOwn.shiftLeftLoop off k s i v prev = shiftLeftLoop off src s i v prev := by
  induction i with
  | zero => intro v prev _; rfl
  | succ i ih =>
    intro v prev h
    rw [BitVectorOwn.shiftLeftLoop, shiftLeftLoop, at?_congr (h i (by omega))]
    cases hx : at? src i with
    | ok x =>
      simp only [Res.ok_bind]
      unfold setAt?
      split
      · simp only [Res.ok_bind]
        apply ih
        intro j hj
        rw [List.getElem?_set_ne (by omega)]
        exact h j (by omega)
      · rfl
    | throw => rfl
    | ub => rfl

/-- `shiftLeftBit` in one storage, to a place not before the source. -/
theorem shiftLeftBit_own (v : List (BitVec w)) (off k n s : Nat) (hk : k ≤ off) (hn : roundupBit w n ≠ 0) :
    BitVectorOwn.shiftLeftBit v off k n s = shiftLeftBit v off (v.drop k) n s := by
  unfold BitVectorOwn.shiftLeftBit shiftLeftBit
  split
  · rfl
  · dsimp only
    rw [at?_congr (show v[k + (roundupBit w n - 1)]? = (v.drop k)[roundupBit w n - 1]? by rw [List.getElem?_drop])]
    cases hx : at? (v.drop k) (roundupBit w n - 1) with
    | ok x =>
      simp only [Res.ok_bind]
      have hp : ∀ y v1, putExtra v off (roundupBit w (n + s)) (roundupBit w n) y = .ok v1 →
          ∀ j, j < roundupBit w n - 1 → v1[k + j]? = (v.drop k)[j]? := by
        intro y v1 h j hj
        unfold putExtra at h
        split at h
        · unfold setAt? at h
          split at h
          · injection h with h
            subst h
            rw [List.getElem?_set_ne (by omega), List.getElem?_drop]
          · cases h
        · injection h with h
          subst h
          rw [List.getElem?_drop]
      cases hv2 : putExtra v off (roundupBit w (n + s)) (roundupBit w n) ((x &&& lastMask w (n % w)) >>> (w - s)) with
      | ok v2 =>
        simp only [Res.ok_bind]
        rw [shiftLeftLoop_own off k s hk (v.drop k) _ v2 _ (hp _ _ hv2)]
      | throw => rfl
      | ub => rfl
    | throw => rfl
    | ub => rfl

theorem shiftRightLoop_own (soff s : Nat) (src : List (BitVec w)) (cnt : Nat) : ∀ i v prev, (∀ j, i ≤ j → v[soff + (j + 1)]? = src[soff + (j + 1)]?) →
    BitVectorOwn.shiftRightLoop soff s cnt i v prev = shiftRightLoop src soff s cnt i v prev := by
  induction cnt with
  | zero => intro i v prev _; rfl
  | succ cnt ih =>
    intro i v prev h
    rw [BitVectorOwn.shiftRightLoop, shiftRightLoop, at?_congr (h i (Nat.le_refl _))]
    cases hx : at? src (soff + (i + 1)) with
    | ok x =>
      simp only [Res.ok_bind]
      unfold setAt?
      split
      · simp only [Res.ok_bind]
        apply ih
        intro j hj
        rw [List.getElem?_set_ne (by omega)]
        exact h j (by omega)
      · rfl
    | throw => rfl
    | ub => rfl

theorem shiftRightLoop_get (src : List (BitVec w)) (soff s cnt : Nat) : ∀ i v prev v' p', shiftRightLoop src soff s cnt i v prev = .ok (v', p') →
    ∀ m, i + cnt ≤ m → v'[m]? = v[m]? := by
  induction cnt with
  | zero =>
    intro i v prev v' p' h m _
    rw [shiftRightLoop] at h
    injection h with h
    rw [(Prod.mk.inj h).1]
  | succ cnt ih =>
    intro i v prev v' p' h m hm
    rw [shiftRightLoop, Res.bind_eq_ok] at h
    obtain ⟨x, _, h⟩ := h
    rw [Res.bind_eq_ok] at h
    obtain ⟨v1, h1, h⟩ := h
    rw [ih _ _ _ _ _ h m (by omega)]
    unfold setAt? at h1
    split at h1
    · injection h1 with h1
      subst h1
      exact List.getElem?_set_ne (by omega)
    · cases h1

/-- `shiftRightBit` in one storage, to its beginning. -/
theorem shiftRightBit_own (v : List (BitVec w)) (soff n s : Nat) :
    BitVectorOwn.shiftRightBit v soff n s = shiftRightBit v v soff n s := by
  unfold BitVectorOwn.shiftRightBit shiftRightBit
  split
  · rfl
  · dsimp only
    split
    · rfl
    · cases hx : at? v soff with
      | ok x =>
        simp only [Res.ok_bind]
        rw [shiftRightLoop_own soff s v _ 0 v x (fun _ _ => rfl)]
        cases hl : shiftRightLoop v soff s (roundupBit w (n + s) - 2) 0 v x with
        | ok r =>
          obtain ⟨v1, p1⟩ := r
          simp only [Res.ok_bind]
          rw [at?_congr (shiftRightLoop_get v soff s _ _ _ _ _ _ hl (soff + (roundupBit w (n + s) - 1)) (by omega))]
        | throw => rfl
        | ub => rfl
      | throw => rfl
      | ub => rfl

/-! ## The properties -/

/-- Without a new storage, appending an own part is appending a copy of it. -/
theorem appendOwn_eq (hw : 0 < w) {st st1 : BV w} (cap k n : Nat) (hn : n ≠ 0) (hnw : n + w ≤ 2 ^ 64) (hk : k * w + n ≤ st.bitLen)
    (e1 : resize st ((st.bitLen + n) % 2 ^ 64) = .ok st1) (hc : ¬ cap < st1.v.length) :
    BitVectorOwn.appendOwn st cap k n = appendPtr st (st1.v.drop k) n := by
  unfold BitVectorOwn.appendOwn appendPtr
  rw [if_neg hn, if_neg hn]
  dsimp only
  rw [e1]
  simp only [Res.ok_bind]
  rw [if_neg hc]
  have hq : k * w + n ≤ st.bitLen / w * w + st.bitLen % w := by
    rw [Nat.div_add_mod']
    exact hk
  have hr := Nat.mod_lt st.bitLen hw
  by_cases h0 : st.bitLen % w = 0
  · rw [if_pos h0, if_pos h0, copyBit_own]
    intro j j' h1 h2 h3
    have hq' : k + (if n % w = 0 then n / w else n / w + 1) ≤ st.bitLen / w := by
      have hnd := Nat.div_add_mod n w
      apply Nat.le_of_mul_le_mul_right (c := w) _ hw
      split
      · rw [Nat.add_mul, Nat.mul_comm (n / w) w]
        omega
      · have hlt : k * w + (n / w) * w < st.bitLen / w * w := by
          rw [Nat.mul_comm (n / w) w]
          omega
        rw [← Nat.add_mul] at hlt
        have := Nat.lt_of_mul_lt_mul_right hlt
        exact Nat.mul_le_mul_right w (by omega)
    split at hq'
    · have := h3 (by assumption)
      omega
    · omega
  · rw [if_neg h0, if_neg h0, shiftLeftBit_own]
    · apply Nat.le_of_lt_succ
      apply Nat.lt_of_mul_lt_mul_right (a := w)
      rw [Nat.succ_mul]
      omega
    · rw [roundupBit_eq w hnw]
      intro h
      have := (Nat.div_eq_zero_iff_lt hw).1 h
      omega

/-- C145: appending a part of the vector itself, from a word boundary on, gives the bits and then that part, if the storage is
large enough; otherwise the source has been freed when it is read. -/
theorem C145_append_own (hw : 0 < w) {st : BV w} {l : List Bool} (h : Rep st l) (cap k n : Nat) (hn : n ≠ 0) (hk : k * w + n ≤ l.length)
    (hov : l.length + n + w ≤ 2 ^ 64) :
    ((l.length + n + w - 1) / w ≤ cap → ∃ st', BitVectorOwn.appendOwn st cap k n = .ok st' ∧ Rep st' (l ++ range l (k * w) n)) ∧
    (cap < (l.length + n + w - 1) / w → BitVectorOwn.appendOwn st cap k n = .ub) := by
  obtain ⟨st1, e1, r1, r2, r3⟩ := resize_rep hw h (n := l.length + n) (by omega)
  have hrl : (Spec.BitVector.resize l (l.length + n)).length = l.length + n := by
    simp [Spec.BitVector.resize]
  rw [hrl] at r1 r2
  have hbl := h.1
  have e1' : resize st ((st.bitLen + n) % 2 ^ 64) = .ok st1 := by rw [hbl, Nat.mod_eq_of_lt (by omega), e1]
  constructor
  · intro hc
    rw [appendOwn_eq hw cap k n hn (by omega) (by omega) e1' (by omega)]
    have hlen : (n + w - 1) / w ≤ (st1.v.drop k).length := by
      rw [List.length_drop, r2]
      have : (k * w + n + w - 1) / w ≤ (l.length + n + w - 1) / w := Nat.div_le_div_right (by omega)
      rw [show k * w + n + w - 1 = w * k + (n + w - 1) by rw [Nat.mul_comm]; omega, Nat.mul_add_div hw] at this
      omega
    obtain ⟨st', a1, a2⟩ := appendPtr_rep hw h (st1.v.drop k) n hlen (by omega)
    refine ⟨st', a1, ?_⟩
    have e : (bitsOf (st1.v.drop k)).take n = range l (k * w) n := by
      apply list_ext
      · rw [len_take_bits hlen hw, range, List.length_take, List.length_drop]
        omega
      · intro i
        rw [getD_take, bitsOf_getD hw, bitAt_drop hw, r3, getD_range]
        split
        · rw [Spec.BitVector.resize, getD_append', List.take_of_length_le (by omega), if_pos (by omega)]
        · rfl
    rw [← e]
    exact a2
  · intro hc
    unfold BitVectorOwn.appendOwn
    rw [if_neg hn]
    dsimp only
    rw [e1']
    simp only [Res.ok_bind]
    rw [if_pos (by omega)]

/-- C145: `v.append(v)` doubles the vector exactly if the storage has room for it (for example after `reserve`); otherwise it reads
freed storage. -/
theorem C145_append_self (hw : 0 < w) {st : BV w} {l : List Bool} (h : Rep st l) (cap : Nat) (hov : l.length + l.length + w ≤ 2 ^ 64) (hl : l ≠ []) :
    ((l.length + l.length + w - 1) / w ≤ cap → ∃ st', BitVectorOwn.appendSelf st cap = .ok st' ∧ Rep st' (l ++ l)) ∧
    (cap < (l.length + l.length + w - 1) / w → BitVectorOwn.appendSelf st cap = .ub) := by
  have hn : l.length ≠ 0 := fun e => hl (List.length_eq_zero_iff.1 e)
  have := C145_append_own hw h cap 0 l.length hn (by omega) hov
  have e : range l (0 * w) l.length = l := by simp [range]
  rw [e] at this
  unfold BitVectorOwn.appendSelf
  rw [h.1]
  exact this

theorem extractOwn_eq (st : BV w) (pos n : Nat) :
    BitVectorOwn.extractOwn st pos n = (extractPtr st st.v pos n).bind fun v => .ok ⟨st.bitLen, v⟩ := by
  unfold BitVectorOwn.extractOwn extractPtr
  split
  · rfl
  · split
    · rfl
    · dsimp only
      split
      · rw [copyBit_own]
        · rfl
        · intro j j' _ _ _
          generalize pos / w = q
          omega
      · rw [shiftRightBit_own]
        rfl

/-- C145: a range can be extracted into the storage of the vector itself: its first words then hold the range, filled up with zeros, and
the size stays. -/
theorem C145_extract_in_place (hw : 0 < w) {st : BV w} {l : List Bool} (h : Rep st l) (pos n : Nat) (hov : pos + n < 2 ^ 64)
    (hl : l.length + w ≤ 2 ^ 64) (hp : pos + n ≤ l.length) :
    ∃ st', BitVectorOwn.extractOwn st pos n = .ok st' ∧ st'.bitLen = l.length ∧
      bitsOf st'.v = range l pos n ++ List.replicate ((n + w - 1) / w * w - n) false ++ (bitsOf st.v).drop ((n + w - 1) / w * w) := by
  have hdst : (n + w - 1) / w ≤ st.v.length := by
    rw [h.2.1]
    exact roundup_mono (by omega)
  obtain ⟨d, g1, g2, g3⟩ := (extractPtr_rep hw h st.v pos n hdst hov hl).2 hp
  refine ⟨⟨st.bitLen, d⟩, by rw [extractOwn_eq, g1]; rfl, h.1, ?_⟩
  have hb := roundup_bounds hw (n := n) (s := 0)
  have hlen : (range l pos n).length = n := by simp [range]; omega
  have hnb : n ≤ (n + w - 1) / w * w := by
    have h1 := Nat.lt_mul_div_succ (n + w - 1) hw
    rw [Nat.mul_succ, Nat.mul_comm] at h1
    omega
  have hmul := Nat.mul_le_mul_right w hdst
  apply list_ext
  · simp only [List.length_append, List.length_replicate, List.length_drop, bitsOf_length, hlen, g2]
    omega
  · intro i
    rw [bitsOf_getD hw]
    obtain ⟨k, p, hp, rfl⟩ := split_index hw i
    rw [bitAt_mul_add hw _ hp, g3 k p hp, getD_append', getD_append', getD_replicate, List.length_append, hlen, List.length_replicate, getD_drop,
      bitsOf_getD hw]
    by_cases hk : k < (n + w - 1) / w
    · have h2 := Nat.mul_le_mul_right w (show k + 1 ≤ (n + w - 1) / w from hk)
      rw [Nat.succ_mul] at h2
      rw [if_pos hk, if_pos (by omega)]
      split
      · rfl
      · rw [getD_ge (by omega)]
    · have h2 := Nat.mul_le_mul_right w (show (n + w - 1) / w ≤ k by omega)
      rw [if_neg hk, if_neg (by omega), show (n + w - 1) / w * w + (k * w + p - (n + ((n + w - 1) / w * w - n))) = k * w + p by omega,
        bitAt_mul_add hw _ hp]

/-- C145, finding: `v.extract(v, pos, n)` never extracts anything but the beginning: for `pos = 0` it is `resize`, also when `n` is larger
than the vector (no exception); for other positions it throws for every range, after having cut the vector to `n` bits. -/
theorem C145_finding_extract_self (hw : 0 < w) {st : BV w} {l : List Bool} (h : Rep st l) (pos n : Nat) (hn : n ≠ 0) (hov : pos + n < 2 ^ 64)
    (hnw : n + w ≤ 2 ^ 64) :
    ∃ st', BitVectorOwn.extractSelf st pos n = .ok (decide (pos = 0), st') ∧ Rep st' (Spec.BitVector.resize l n) := by
  obtain ⟨st1, e1, r1⟩ := resize_rep hw h hnw
  have hrl : (Spec.BitVector.resize l n).length = n := by simp [Spec.BitVector.resize]; omega
  have hdst : (n + w - 1) / w ≤ st1.v.length := by
    rw [r1.2.1, hrl]
    exact Nat.le_refl _
  obtain ⟨x1, x2⟩ := extractPtr_rep hw r1 st1.v pos n hdst hov (by omega)
  unfold BitVectorOwn.extractSelf
  rw [e1]
  simp only [Res.ok_bind]
  by_cases hp : pos = 0
  · subst hp
    obtain ⟨d, g1, g2, g3⟩ := x2 (by omega)
    rw [extractOwn_eq, g1]
    refine ⟨⟨st1.bitLen, d⟩, rfl, r1.1, g2.trans r1.2.1, fun i => ?_⟩
    obtain ⟨k, p, hp, rfl⟩ := split_index hw i
    rw [bitAt_mul_add hw _ hp, g3 k p hp]
    split
    · rw [getD_range, Nat.zero_add]
      split
      · rfl
      · rw [getD_ge (by omega)]
    · rw [← bitAt_mul_add hw _ hp, r1.2.2]
  · rw [extractOwn_eq, x1 hn (by omega)]
    exact ⟨st1, by rw [decide_eq_false hp]; rfl, r1⟩

/-- C145, finding: the bits 1 and 2 of `011` cannot be extracted into the vector itself: the call throws and `01` is left. -/
theorem C145_finding_example : BitVectorOwn.extractSelf (⟨3, [6]⟩ : BV 64) 1 2 = .ok (false, ⟨2, [2]⟩) ∧
    extractVec (⟨3, [6]⟩ : BV 64) empty 1 2 = .ok ⟨2, [3]⟩ := by decide +kernel

/-- C145, finding: as with two vectors (`C10_extract_wrap_ub`) the range check wraps around: the call reads outside the storage. -/
theorem C145_finding_wrap : BitVectorOwn.extractSelf (⟨3, [6]⟩ : BV 64) (2 ^ 64 - 1) 2 = .ub := by decide +kernel

/-- The hypotheses hold: 70 bits over two words, with room for three words but not for two. -/
example : Rep (⟨70, [5, 33]⟩ : BV 64) ((bitsOf [(5 : BitVec 64), 33]).take 70) ∧ (70 + 70 + 64 - 1) / 64 = 3 := by
  refine ⟨⟨by decide +kernel, by decide +kernel, fun i => ?_⟩, by decide⟩
  rw [getD_cut (by decide), cut]
  by_cases h : i < 70
  · rw [decide_eq_true h, Bool.true_and]
  · rw [decide_eq_false h, Bool.false_and]
    by_cases h2 : i < 128
    · have : ∀ i : Fin 128, ¬ i.val < 70 → bitAt [(5 : BitVec 64), 33] i.val = false := by decide +kernel
      exact this ⟨i, h2⟩ h
    · exact bitAt_ge (by decide) (by simpa using Nat.le_of_not_lt h2)
example : BitVectorOwn.appendSelf (⟨70, [5, 33]⟩ : BV 64) 3 = .ok ⟨140, [5, 353, 2112]⟩ ∧
    BitVectorOwn.appendSelf (⟨70, [5, 33]⟩ : BV 64) 2 = .ub := by decide +kernel
example : BitVectorOwn.appendOwn (⟨128, [5, 33]⟩ : BV 64) 4 1 40 = .ok ⟨168, [5, 33, 33]⟩ := by decide +kernel
example : BitVectorOwn.extractOwn (⟨70, [5, 33]⟩ : BV 64) 2 66 = .ok ⟨70, [0x4000000000000001, 0]⟩ := by decide +kernel

#print axioms C145_append_own
#print axioms C145_append_self
#print axioms C145_extract_in_place
#print axioms C145_finding_extract_self
#print axioms C145_finding_example
#print axioms C145_finding_wrap

end Verif.Props.BitVectorOwn
