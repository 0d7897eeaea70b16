import Verif.Proof.SucVector
set_option linter.unusedSimpArgs false
set_option maxRecDepth 8000

namespace Verif.SucVector
open Verif.BitOp Verif.BitVector Verif.Spec.BitVector Verif.Spec.SucVector

/-- A finished succinct vector over the words `W`, of which `blkNum` belong to the caller. -/
structure Rep (big sel : Bool) (s : SV) (W : List (BitVec 64)) (blkNum : Nat) : Prop where
  good : Good big s.blk W
  size : s.bitSize ≤ 64 * blkNum
  num : blkNum ≤ W.length
  max : 256 * s.blk.length ≤ 2 ^ 40
  num1 : s.num1 = (bitsOf W).count true
  num0 : s.num0 = rankOf (bitsOf W) false (64 * blkNum)
  tail : rankOf (bitsOf W) true (64 * blkNum) = (bitsOf W).count true
  tbl0 : sel = true → TblOk W false s.blk.length s.num0 s.sel0
  tbl1 : sel = true → TblOk W true s.blk.length s.num1 s.sel1
  frz : s.freezed = true

theorem wd_append (a b : List (BitVec 64)) (k : Nat) :
    wd (a ++ b) k = if k < a.length then wd a k else wd b (k - a.length) := by
  simp only [wd, List.getD_eq_getElem?_getD]
  split
  · rw [List.getElem?_append_left ‹_›]
  · rw [List.getElem?_append_right (by omega)]

theorem wd_replicate_zero (n k : Nat) : wd (List.replicate n (0 : BitVec 64)) k = 0 := by
  simp only [wd, List.getD_eq_getElem?_getD, List.getElem?_replicate]
  split <;> rfl

theorem bitsOf_append (a b : List (BitVec 64)) : bitsOf (a ++ b) = bitsOf a ++ bitsOf b := by
  simp [bitsOf]

theorem bitsOf_zeros (n : Nat) : bitsOf (List.replicate n (0 : BitVec 64)) = List.replicate (n * 64) false := by
  apply BitVector.list_ext
  · rw [bitsOf_length]; simp
  · intro i
    rw [bitsOf_getD (by omega), getD_replicate, bitAt, wd_replicate_zero]; simp

/-- `initBlock` from any source of words. -/
theorem initBlock_rep {big sel : Bool} {s : SV} {buf : Option (List (BitVec 64))} {blkNum : Nat}
    {W : List (BitVec 64)} (P : Nat → Nat) (hP : P 0 = 0) (hlen : W.length = 4 * s.blk.length)
    (hmax : W.length * 64 ≤ maxBitSize big) (hsel : sel = true → W.length * 64 < 2 ^ 40)
    (hnum : blkNum ≤ W.length) (hsize : s.bitSize ≤ 64 * blkNum)
    (htail : rankOf (bitsOf W) true (64 * blkNum) = (bitsOf W).count true)
    (hnw : ∀ j (h : j < s.blk.length), ∀ x', x'.org = s.blk[j].org → nextWords buf blkNum (P j) x' =
      .ok ((wd W (4 * j), wd W (4 * j + 1), wd W (4 * j + 2), wd W (4 * j + 3)), P (j + 1))) :
    ∃ s', initBlock big sel s buf blkNum = .ok s' ∧ Rep big sel s' W blkNum ∧ s'.bitSize = s.bitSize := by
  obtain ⟨ys, e1, e2, e3⟩ := initBlocks_spec big buf blkNum W P hmax s.blk 0 (by omega)
    (fun j h x' hx => by have := hnw j h x' hx; rwa [Nat.zero_add])
  rw [hP, Nat.zero_mul, rank_zero] at e1
  have hg : Good big ys W := ⟨by omega, fun i h => by have := e3 i h; rwa [Nat.zero_add] at this⟩
  have hm40 : maxBitSize big ≤ 2 ^ 40 := by cases big <;> simp [maxBitSize]
  have hle := rank_le (bitsOf W) true (64 * blkNum)
  have hbl : (bitsOf W).length = 64 * W.length := by rw [bitsOf_length]; omega
  have hboth := rank_both (bitsOf W) (p := 64 * blkNum) (by omega)
  have hnum0 : sub64 (blkNum * 64) ((bitsOf W).count true) = rankOf (bitsOf W) false (64 * blkNum) := by
    rw [sub64_eq (by omega) (by omega)]; omega
  simp only [initBlock]
  rw [e1, Res.ok_bind]
  simp only [hnum0, initSelTbl]
  cases sel
  · simp only [Bool.false_eq_true, if_false, Res.ok_bind, Res.pure_eq]
    exact ⟨_, rfl, ⟨hg, hsize, hnum, by simp only; omega, rfl, rfl, htail, by simp, by simp, rfl⟩, rfl⟩
  · have hs := hsel rfl
    have hall : rankOf (bitsOf W) true (256 * ys.length) = (bitsOf W).count true := rank_ge _ _ (by omega)
    obtain ⟨t0, f1, f2⟩ := initSelTblSub_spec hg (by omega) false
      (num := rankOf (bitsOf W) false (64 * blkNum)) (rank_mono _ _ (by omega))
    obtain ⟨t1, g1, g2⟩ := initSelTblSub_spec hg (by omega) true
      (num := (bitsOf W).count true) (by omega)
    simp only [if_true]
    rw [f1, Res.ok_bind, g1, Res.ok_bind]
    simp only [Res.ok_bind, Res.pure_eq]
    exact ⟨_, rfl, ⟨hg, hsize, hnum, by simp only; omega, rfl, rfl, htail, fun _ => f2, fun _ => g2, rfl⟩, rfl⟩

/-! ### `init` -/

theorem nextWord_some (l : List (BitVec 64)) (blkNum m : Nat) (h : blkNum ≤ l.length) (x : Block) (j k : Nat) :
    nextWord (some l) blkNum (min k blkNum) x j =
      .ok (wd (l.take blkNum ++ List.replicate m 0) k, min (k + 1) blkNum) := by
  simp only [nextWord]
  have hl : (l.take blkNum).length = blkNum := by simp; omega
  rw [wd_append, hl, wd_replicate_zero]
  by_cases hk : k < blkNum
  · rw [Nat.min_eq_left (by omega), if_pos hk, if_pos hk, at?_wd (by omega), Res.ok_bind, Res.pure_eq,
      Nat.min_eq_left (by omega)]
    congr 2
    simp only [wd, List.getD_eq_getElem?_getD, List.getElem?_take, hk, if_true]
  · rw [Nat.min_eq_right (by omega), if_neg (by omega), if_neg hk, Nat.min_eq_right (by omega)]

theorem nextWords_some (l : List (BitVec 64)) (blkNum m : Nat) (h : blkNum ≤ l.length) (x : Block) (k : Nat) :
    nextWords (some l) blkNum (min k blkNum) x =
      .ok ((wd (l.take blkNum ++ List.replicate m 0) k, wd (l.take blkNum ++ List.replicate m 0) (k + 1),
        wd (l.take blkNum ++ List.replicate m 0) (k + 2), wd (l.take blkNum ++ List.replicate m 0) (k + 3)),
        min (k + 4) blkNum) := by
  simp only [nextWords]
  rw [nextWord_some l blkNum m h, Res.ok_bind]
  simp only
  rw [nextWord_some l blkNum m h, Res.ok_bind]
  simp only
  rw [nextWord_some l blkNum m h, Res.ok_bind]
  simp only
  rw [nextWord_some l blkNum m h, Res.ok_bind, Res.pure_eq]

theorem vresize_len (l : List Block) (n : Nat) : (vresize l n).length = n := by
  simp [vresize]; omega

/-- The padded words of a vector made by `init`. -/
def padWords (buf : List (BitVec 64)) (n : Nat) : List (BitVec 64) :=
  buf.take ((n + 63) / 64) ++ List.replicate (((n + 63) / 64 + 3) / 4 * 4 - (n + 63) / 64) 0

theorem padWords_bits {buf : List (BitVec 64)} {n : Nat} :
    bitsOf (padWords buf n) = bitsOf (buf.take ((n + 63) / 64)) ++
      List.replicate ((((n + 63) / 64 + 3) / 4 * 4 - (n + 63) / 64) * 64) false := by
  rw [padWords, bitsOf_append, bitsOf_zeros]

theorem init_rep {big sel : Bool} (s : SV) (buf : List (BitVec 64)) (n : Nat) (hn : n ≤ maxBitSize big)
    (hsel : sel = true → n ≤ 2 ^ 40 - 256) (hbuf : (n + 63) / 64 ≤ buf.length) :
    ∃ s', init big sel s buf n = .ok s' ∧ Rep big sel s' (padWords buf n) ((n + 63) / 64) ∧ s'.bitSize = n := by
  have hm40 : maxBitSize big % 256 = 0 := by cases big <;> simp [maxBitSize]
  have hlen : (padWords buf n).length = ((n + 63) / 64 + 3) / 4 * 4 := by
    simp [padWords]; omega
  simp only [init, resize]
  rw [if_neg (by omega)]
  simp only [Bool.false_eq_true, if_false, Res.ok_bind]
  have htl : (bitsOf (buf.take ((n + 63) / 64))).length = 64 * ((n + 63) / 64) := by
    rw [bitsOf_length]; simp; omega
  apply initBlock_rep (fun i => min (4 * i) ((n + 63) / 64))
  · simp
  · simp only [hlen, vresize_len]; omega
  · omega
  · intro h; have := hsel h; omega
  · omega
  · simp only; omega
  · rw [padWords_bits, rankOf, List.take_append_of_le_length (by omega), List.take_of_length_le (by omega),
      List.count_append]
    simp [List.count_replicate]
  · intro j h x' hx
    have := nextWords_some buf ((n + 63) / 64) (((n + 63) / 64 + 3) / 4 * 4 - (n + 63) / 64) hbuf x' (4 * j)
    rw [this]; rfl

/-! ### `resize`, `set`, `ready` -/

/-- The words of unfinished blocks. -/
def flat (blk : List Block) : List (BitVec 64) := blk.flatMap Block.org

theorem flat_len {blk : List Block} (h : ∀ x ∈ blk, x.org.length = 4) : (flat blk).length = 4 * blk.length := by
  induction blk with
  | nil => rfl
  | cons x blk ih =>
    have h1 := ih (fun y hy => h y (by simp [hy]))
    have h2 := h x (by simp)
    simp only [flat, List.flatMap_cons, List.length_append, List.length_cons] at h1 ⊢
    omega

theorem flat_wd {blk : List Block} (h : ∀ x ∈ blk, x.org.length = 4) (i j : Nat) (hi : i < blk.length)
    (hj : j < 4) : wd (flat blk) (4 * i + j) = wd blk[i].org j := by
  induction blk generalizing i with
  | nil => simp at hi
  | cons x blk ih =>
    have h2 := h x (by simp)
    rw [show flat (x :: blk) = x.org ++ flat blk by simp [flat], wd_append, h2]
    cases i with
    | zero => rw [if_pos (by omega)]; simp
    | succ i =>
      rw [if_neg (by omega), show 4 * (i + 1) + j - 4 = 4 * i + j by omega,
        ih (fun y hy => h y (by simp [hy])) i (by simpa using hi)]
      simp

/-- A vector under construction holding the bits `l`. -/
structure Building (big : Bool) (s : SV) (l : List Bool) : Prop where
  frz : s.freezed = false
  size : s.bitSize = l.length
  max : l.length ≤ maxBitSize big
  len : s.blk.length = ((l.length + 63) / 64 + 3) / 4
  org : ∀ x ∈ s.blk, x.org.length = 4
  bits : ∀ i, bitAt (flat s.blk) i = l.getD i false

theorem resize_building {big : Bool} (s : SV) {n : Nat} (hn : n ≤ maxBitSize big) :
    ∃ s' k, resize big s n true = .ok (s', k) ∧ Building big s' (List.replicate n false) := by
  refine ⟨_, _, by rw [resize, if_neg (by omega)], rfl, by simp, by simpa using hn, by simp, ?_, ?_⟩
  · intro x hx
    simp only [if_true] at hx
    rw [List.eq_of_mem_replicate hx]; rfl
  · intro i
    simp only [if_true]
    rw [getD_replicate]
    have : flat (List.replicate (((n + 63) / 64 + 3) / 4) Block.zero) =
        List.replicate (4 * (((n + 63) / 64 + 3) / 4)) 0 := by
      generalize ((n + 63) / 64 + 3) / 4 = m
      induction m with
      | zero => rfl
      | succ m ih =>
        rw [List.replicate_succ, flat, List.flatMap_cons]
        show Block.zero.org ++ flat _ = _
        rw [ih, show 4 * (m + 1) = 4 + 4 * m by omega, ← List.replicate_append_replicate]
        rfl
    rw [this, bitAt, wd_replicate_zero]; simp

theorem set_building {big : Bool} {s : SV} {l : List Bool} (h : Building big s l) {i : Nat} (hi : i < l.length) :
    ∃ s', set s i = .ok s' ∧ Building big s' (l.set i true) := by
  have hm40 : maxBitSize big ≤ 2 ^ 40 := by cases big <;> simp [maxBitSize]
  have hlen := h.len
  have hq : i / 256 < s.blk.length := by omega
  have ho := h.org _ (List.getElem_mem hq)
  rw [set, if_neg (by rw [h.frz]; simp), if_neg (by rw [h.size]; omega)]
  simp only
  rw [at?_eq_ok hq, Res.ok_bind, at?_wd (by omega), Res.ok_bind, Res.pure_eq]
  refine ⟨_, rfl, h.frz, by simp [h.size], by simpa using h.max, by simpa using hlen, ?_, ?_⟩
  · intro x hx
    rcases List.mem_or_eq_of_mem_set hx with hx | hx
    · exact h.org x hx
    · rw [hx]; simpa using ho
  · intro k
    have horg : ∀ x ∈ s.blk.set (i / 256) { s.blk[i / 256] with org := (s.blk[i / 256].org.set (i % 256 / 64)
        (wd s.blk[i / 256].org (i % 256 / 64) ||| (1 : BitVec 64) <<< (i % 256 % 64))) }, x.org.length = 4 := by
      intro x hx
      rcases List.mem_or_eq_of_mem_set hx with hx | hx
      · exact h.org x hx
      · rw [hx]; simpa using ho
    have hb := h.bits k
    have hset : (l.set i true).getD k false = if k = i then true else l.getD k false := by
      simp only [List.getD_eq_getElem?_getD, List.getElem?_set]
      by_cases hk : i = k
      · subst hk; simp [hi]
      · simp [hk, show ¬ k = i by omega]
    rw [hset, ← hb]
    simp only
    by_cases hin : k / 256 < s.blk.length
    · have e : k / 64 = 4 * (k / 256) + k % 256 / 64 := by omega
      have hm : k % 64 = k % 256 % 64 := by omega
      rw [bitAt, bitAt, e, flat_wd horg _ _ (by simpa using hin) (by omega),
        flat_wd h.org _ _ hin (by omega), List.getElem_set]
      by_cases hqk : i / 256 = k / 256
      · rw [if_pos hqk]
        simp only
        rw [wd_set (by omega)]
        by_cases hjk : k % 256 / 64 = i % 256 / 64
        · rw [if_pos hjk, BitVec.getLsbD_or, one_shift_bit (by omega)]
          have hbe : s.blk[i / 256] = s.blk[k / 256] := by congr 1
          rw [hbe, hjk]
          by_cases hki : k = i
          · rw [if_pos hki, decide_eq_true (by omega), Bool.or_true]
          · rw [if_neg hki, decide_eq_false (by omega), Bool.or_false]
        · rw [if_neg hjk, if_neg (by omega)]
          have hbe : s.blk[i / 256] = s.blk[k / 256] := by congr 1
          rw [hbe]
      · rw [if_neg hqk, if_neg (by omega)]
    · have l1 := flat_len horg
      have l2 := flat_len h.org
      rw [List.length_set] at l1
      rw [if_neg (by omega), bitAt_ge (by omega) (by rw [l1]; omega), bitAt_ge (by omega) (by rw [l2]; omega)]

theorem ready_rep {big sel : Bool} {s : SV} {l : List Bool} (h : Building big s l)
    (hsel : sel = true → l.length ≤ 2 ^ 40 - 256) :
    ∃ s', ready big sel s = .ok s' ∧ Rep big sel s' (flat s.blk) (s.blk.length * 4) ∧ s'.bitSize = l.length := by
  have hm256 : maxBitSize big % 256 = 0 := by cases big <;> simp [maxBitSize]
  have hmax := h.max
  have hfl := flat_len h.org
  have hlen := h.len
  rw [ready, ← h.size]
  apply initBlock_rep (fun _ => 0) rfl hfl
  · omega
  · intro hs; have := hsel hs; omega
  · omega
  · rw [h.size]; omega
  · exact rank_ge _ _ (by rw [bitsOf_length]; omega)
  · intro j hj x' hx
    have ho := h.org _ (List.getElem_mem hj)
    have hw := fun k (hk : k < 4) => flat_wd h.org j k hj hk
    have hr : ∀ k, k < 4 → nextWord none (s.blk.length * 4) 0 x' k = .ok (wd (flat s.blk) (4 * j + k), 0) := by
      intro k hk
      rw [nextWord]
      rw [hx, at?_wd (by omega), Res.ok_bind, Res.pure_eq, hw k hk]
    simp only [nextWords]
    rw [hr 0 (by omega), Res.ok_bind]
    simp only
    rw [hr 1 (by omega), Res.ok_bind]
    simp only
    rw [hr 2 (by omega), Res.ok_bind]
    simp only
    rw [hr 3 (by omega), Res.ok_bind, Res.pure_eq]
    rfl

/-! ### queries on a finished vector -/

variable {big sel : Bool} {s : SV} {W : List (BitVec 64)} {blkNum : Nat}

theorem Rep.bits_len (h : Rep big sel s W blkNum) : (bitsOf W).length = 256 * s.blk.length := h.good.bits_len

theorem and3 (p : Nat) : p / 64 &&& 3 = p % 256 / 64 := by
  rw [show (3 : Nat) = 2 ^ 2 - 1 from rfl, Nat.and_two_pow_sub_one_eq_mod]; omega

theorem and63 (p : Nat) : p &&& 63 = p % 64 := by
  rw [show (63 : Nat) = 2 ^ 6 - 1 from rfl, Nat.and_two_pow_sub_one_eq_mod]

theorem Rep.rank1_lt (h : Rep big sel s W blkNum) {p : Nat} (hp : p < s.bitSize) :
    rank1 big s p = .ok (rankOf (bitsOf W) true p) := by
  have h1 := h.size
  have h2 := h.num
  have h3 := h.good.len
  have h4 := h.max
  have hq : p / 256 < s.blk.length := by omega
  rw [rank1, if_neg (by omega)]
  simp only
  rw [at?_eq_ok hq, Res.ok_bind, and3, and63]
  have hgb := h.good.blks _ hq
  have hsub : ∃ c, subCount s.blk[p / 256] (p % 256 / 64) = .ok c ∧
      rankOf (bitsOf W) true (p / 256 * 256) + c = rankOf (bitsOf W) true (p / 256 * 256 + 64 * (p % 256 / 64)) := by
    rw [subCount]
    by_cases hr : p % 256 / 64 > 0
    · rw [if_pos hr]
      obtain ⟨c, c1, c2⟩ := h.good.getB true hq hr (by omega) (by omega)
      rw [getB, at?_eq_ok hq, Res.ok_bind] at c1
      refine ⟨c, ?_, c2⟩
      cases hx : s.blk[p / 256].getB (p % 256 / 64) with
      | ok a => rw [hx] at c1; simpa using c1
      | throw => rw [hx] at c1; simp at c1
      | ub => rw [hx] at c1; simp at c1
    · rw [if_neg hr]
      refine ⟨0, rfl, ?_⟩
      rw [show p % 256 / 64 = 0 by omega]; rfl
  obtain ⟨c, c1, c2⟩ := hsub
  rw [c1, Res.ok_bind, h.good.word hq (by omega), Res.ok_bind, makeBitMask64, if_pos (by omega), Res.ok_bind,
    Res.pure_eq, popcnt_mask _ (by omega), hgb.head, c2]
  have hw := rank_words W true (m := 4 * (p / 256) + p % 256 / 64) (r := p % 64) (by omega) (by omega)
  rw [cntb_true] at hw
  have e1 : (4 * (p / 256) + p % 256 / 64) * 64 + p % 64 = p := by omega
  have e2 : (4 * (p / 256) + p % 256 / 64) * 64 = p / 256 * 256 + 64 * (p % 256 / 64) := by omega
  rw [e1, e2] at hw
  rw [hw]

theorem Rep.rank1_ge (h : Rep big sel s W blkNum) {p : Nat} (hp : s.bitSize ≤ p) :
    rank1 big s p = .ok ((bitsOf W).count true) := by
  rw [rank1, if_pos hp, h.num1]

theorem Rep.get_eq (h : Rep big sel s W blkNum) {p : Nat} (hp : p < s.bitSize) :
    get s p = .ok (bitAt W p) := by
  have h1 := h.size
  have h2 := h.num
  have h3 := h.good.len
  have hq : p / 256 < s.blk.length := by omega
  rw [get, if_neg (by omega)]
  simp only
  rw [at?_eq_ok hq, Res.ok_bind, and3, and63, h.good.word hq (by omega), Res.ok_bind, Res.pure_eq]
  congr 1
  rw [bitAt, show 4 * (p / 256) + p % 256 / 64 = p / 64 by omega]
  have hb := fun k => one_shift_bit (w := 64) (r := p % 64) (by omega) k
  cases hv : (wd W (p / 64)).getLsbD (p % 64)
  · rw [decide_eq_false]
    simp only [ne_eq, Decidable.not_not]
    apply BitVec.eq_of_getLsbD_eq
    intro i hi
    rw [BitVec.getLsbD_and, hb]
    by_cases hip : i = p % 64
    · rw [hip, hv]; simp
    · simp [hip]
  · rw [decide_eq_true]
    intro h0
    have : (wd W (p / 64) &&& 1#64 <<< (p % 64)).getLsbD (p % 64) = false := by
      have h0' : wd W (p / 64) &&& 1#64 <<< (p % 64) = 0#64 := h0
      rw [h0']; simp
    rw [BitVec.getLsbD_and, hv] at this
    have hb' := hb (p % 64)
    simp only [decide_true] at hb'
    have hb'' : (1#64 <<< (p % 64)).getLsbD (p % 64) = true := hb'
    rw [hb''] at this
    cases this

theorem Rep.select_lt (h : Rep big true s W blkNum) (hs : 256 * s.blk.length < 2 ^ 40) {b : Bool} {r : Nat}
    (hr : r < numOf s b) : ∃ p, selectSub big true s b r = .ok p ∧ IsSelect (bitsOf W) b r p := by
  have h2 := h.num
  have h3 := h.good.len
  have hl := h.bits_len
  refine selectSub_core h.good hs b s rfl (num := numOf s b) rfl ?_ ?_ r hr
  · cases b
    · simp only [numOf, Bool.false_eq_true, if_false, h.num0]
      exact rank_mono _ _ (by omega)
    · simp only [numOf, if_true, h.num1]
      rw [rank_ge _ _ (by omega)]; omega
  · cases b
    · simp only [numOf, Bool.false_eq_true, if_false]; exact h.tbl0 rfl
    · simp only [numOf, if_true]; exact h.tbl1 rfl

theorem Rep.select_ge {b : Bool} {r : Nat} (hr : numOf s b ≤ r) :
    selectSub big true s b r = .ok NotFound := by
  rw [selectSub, if_neg (by simp), if_pos hr]

end Verif.SucVector

namespace Verif.SucVector
open Verif.BitOp Verif.BitVector Verif.Spec.BitVector Verif.Spec.SucVector

/-- The finished vector `s` stores exactly the bits `l`: reads below the size. -/
structure Stores (big : Bool) (s : SV) (l : List Bool) : Prop where
  size : s.bitSize = l.length
  rank1 : ∀ p, p < l.length → rank1 big s p = .ok (rankOf l true p)
  get : ∀ p (h : p < l.length), get s p = .ok l[p]

theorem Rep.stores {big sel : Bool} {s : SV} {W : List (BitVec 64)} {blkNum : Nat} {l : List Bool}
    (h : Rep big sel s W blkNum) (hsz : s.bitSize = l.length) (hl : l = (bitsOf W).take l.length) :
    Stores big s l := by
  refine ⟨hsz, fun p hp => ?_, fun p hp => ?_⟩
  · rw [h.rank1_lt (by omega)]
    conv => rhs; rw [hl, rank_take _ _ (by omega)]
  · rw [h.get_eq (by omega), ← bitsOf_getD (by omega)]
    congr 1
    have : l.getD p false = l[p] := List.getD_eq_getElem _ _ hp
    rw [← this]
    conv => rhs; rw [hl]
    rw [getD_take, if_pos hp]

theorem Stores.rank0 {big : Bool} {s : SV} {l : List Bool} (h : Stores big s l) (hl : l.length < 2 ^ 64)
    {p : Nat} (hp : p < l.length) : rank0 big s p = .ok (rankOf l false p) := by
  rw [SucVector.rank0, h.rank1 p hp, Res.ok_bind, Res.pure_eq]
  have := rank_both l (p := p) (by omega)
  rw [sub64_eq (by omega) (by omega)]
  congr 1; omega

/-- Select on the stored bits, for occurrences that exist. -/
theorem Rep.select {big : Bool} {s : SV} {W : List (BitVec 64)} {blkNum : Nat} {l : List Bool}
    (h : Rep big true s W blkNum) (hs : 256 * s.blk.length < 2 ^ 40) (hsz : s.bitSize = l.length)
    (hl : l = (bitsOf W).take l.length) {b : Bool} {r : Nat} (hr : r < l.count b) :
    ∃ p, selectSub big true s b r = .ok p ∧ IsSelect l b r p := by
  have hcnt : l.count b = rankOf (bitsOf W) b l.length := by rw [rankOf, ← hl]
  have hle : l.count b ≤ numOf s b := by
    rw [hcnt]
    have h1 := h.size
    have h2 := rank_mono (bitsOf W) b (show l.length ≤ 64 * blkNum by omega)
    cases b
    · simp only [numOf, Bool.false_eq_true, if_false, h.num0]; exact h2
    · simp only [numOf, if_true, h.num1]
      rw [← h.tail]; exact h2
  obtain ⟨p, p1, p2, p3⟩ := h.select_lt hs (b := b) (r := r) (by omega)
  have hpl : p < l.length := by
    apply Nat.lt_of_not_le
    intro hge
    have := rank_mono (bitsOf W) b hge
    omega
  refine ⟨p, p1, ?_, ?_⟩
  · rw [hl, List.getElem?_take, if_pos hpl]; exact p2
  · rw [hl, rank_take _ _ (by omega)]; exact p3

theorem padWords_take {buf : List (BitVec 64)} {n : Nat} (h : (n + 63) / 64 ≤ buf.length) :
    (bitsOf (padWords buf n)).take n = (bitsOf buf).take n := by
  have hb : bitsOf buf = bitsOf (buf.take ((n + 63) / 64)) ++ bitsOf (buf.drop ((n + 63) / 64)) := by
    rw [← bitsOf_append, List.take_append_drop]
  have hl : (bitsOf (buf.take ((n + 63) / 64))).length = (n + 63) / 64 * 64 := by
    rw [bitsOf_length]; simp; omega
  rw [padWords_bits, hb, List.take_append_of_le_length (by omega), List.take_append_of_le_length (by omega)]

/-- Number of ones of a vector made by `init` from a buffer whose bits behind the size are zero. -/
theorem padWords_count {buf : List (BitVec 64)} {n : Nat} (h : (n + 63) / 64 ≤ buf.length)
    (hc : ∀ i, n ≤ i → i < (n + 63) / 64 * 64 → bitAt buf i = false) :
    (bitsOf (padWords buf n)).count true = ((bitsOf buf).take n).count true := by
  have hl : (bitsOf (buf.take ((n + 63) / 64))).length = (n + 63) / 64 * 64 := by
    rw [bitsOf_length]; simp; omega
  have e : bitsOf (buf.take ((n + 63) / 64)) = (bitsOf buf).take n ++
      List.replicate ((n + 63) / 64 * 64 - n) false := by
    apply BitVector.list_ext
    · rw [hl]; simp [bitsOf_length]; omega
    · intro i
      rw [bitsOf_getD (by omega), getD_append', getD_take, getD_replicate, bitsOf_getD (by omega)]
      have hlt : ((bitsOf buf).take n).length = n := by simp [bitsOf_length]; omega
      rw [hlt]
      have ht : bitAt (buf.take ((n + 63) / 64)) i = if i < (n + 63) / 64 * 64 then bitAt buf i else false := by
        simp only [bitAt, wd, List.getD_eq_getElem?_getD, List.getElem?_take]
        by_cases hi : i / 64 < (n + 63) / 64
        · rw [if_pos hi, if_pos (by omega)]
        · rw [if_neg hi, if_neg (by omega)]; simp
      rw [ht]
      by_cases h1 : i < n
      · rw [if_pos (by omega), if_pos h1, if_pos h1]
      · rw [if_neg h1]
        by_cases h2 : i < (n + 63) / 64 * 64
        · rw [if_pos h2, hc i (by omega) h2]
        · rw [if_neg h2]
  rw [padWords_bits, e, List.count_append, List.count_append]
  simp [List.count_replicate]

theorem flat_bits {big : Bool} {s : SV} {l : List Bool} (h : Building big s l) :
    bitsOf (flat s.blk) = l ++ List.replicate (256 * s.blk.length - l.length) false := by
  have h1 := flat_len h.org
  have h2 := h.len
  apply BitVector.list_ext
  · rw [bitsOf_length]; simp; omega
  · intro i
    rw [bitsOf_getD (by omega), h.bits, getD_append', getD_replicate]
    split
    · rfl
    · rw [getD_ge (by omega)]

end Verif.SucVector
