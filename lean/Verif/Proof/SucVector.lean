import Verif.Proof.Select64
import Verif.Proof.BitVector
import Verif.Spec.SucVector
set_option linter.unusedSimpArgs false
set_option maxRecDepth 8000

namespace Verif.SucVector
open Verif.BitOp Verif.BitVector Verif.Spec.BitVector Verif.Spec.SucVector

/-! ### counting bits in lists -/

theorem rank_zero (l : List Bool) (b : Bool) : rankOf l b 0 = 0 := by simp [rankOf]

theorem rank_add (l : List Bool) (b : Bool) (p q : Nat) : rankOf l b (p + q) = rankOf l b p + rankOf (l.drop p) b q := by
  rw [rankOf, List.take_add, List.count_append]; rfl

theorem rank_mono (l : List Bool) (b : Bool) {p q : Nat} (h : p ≤ q) : rankOf l b p ≤ rankOf l b q := by
  obtain ⟨k, rfl⟩ := Nat.exists_eq_add_of_le h
  rw [rank_add]; omega

theorem rank_le (l : List Bool) (b : Bool) (p : Nat) : rankOf l b p ≤ p := by
  have := List.count_le_length (a := b) (l := l.take p)
  simp only [List.length_take] at this
  rw [rankOf]; omega

theorem rank_le_add (l : List Bool) (b : Bool) (p q : Nat) : rankOf l b (p + q) ≤ rankOf l b p + q := by
  rw [rank_add]; have := rank_le (l.drop p) b q; omega

theorem count_both (l : List Bool) : l.count true + l.count false = l.length := by
  induction l with
  | nil => rfl
  | cons x l ih => cases x <;> simp <;> omega

theorem rank_both (l : List Bool) {p : Nat} (h : p ≤ l.length) : rankOf l true p + rankOf l false p = p := by
  have := count_both (l.take p)
  simp only [List.length_take] at this
  rw [rankOf, rankOf]; omega

theorem rank_ge (l : List Bool) (b : Bool) {p : Nat} (h : l.length ≤ p) : rankOf l b p = l.count b := by
  rw [rankOf, List.take_of_length_le h]

theorem rank_take (l : List Bool) (b : Bool) {p n : Nat} (h : p ≤ n) : rankOf (l.take n) b p = rankOf l b p := by
  rw [rankOf, List.take_take, Nat.min_eq_left h, rankOf]

theorem rank_succ {l : List Bool} {b : Bool} {p : Nat} (h : l[p]? = some b) : rankOf l b (p + 1) = rankOf l b p + 1 := by
  have h1 : rankOf (l.drop p) b 1 = 1 := by
    rw [rankOf, List.take_one]
    simp [h]
  rw [rank_add, h1]

/-! ### words -/

theorem bitsOf_drop (W : List (BitVec 64)) (m : Nat) : (bitsOf W).drop (m * 64) = bitsOf (W.drop m) := by
  induction W generalizing m with
  | nil => simp [bitsOf]
  | cons x W ih =>
    cases m with
    | zero => simp
    | succ m =>
      have hl : (bitsOfWord x).length = 64 := by simp [bitsOfWord]
      have hc : bitsOf (x :: W) = bitsOfWord x ++ bitsOf W := by simp [bitsOf]
      rw [hc, List.drop_append, List.drop_of_length_le (by rw [hl]; omega), hl, List.nil_append,
        show (m + 1) * 64 - 64 = m * 64 by omega, ih]
      rfl

/-- Bits equal to `b` among the lowest `r` of a word. -/
def cntb (v : BitVec 64) (b : Bool) (r : Nat) : Nat := (List.range r).countP fun i => v.getLsbD i == b

theorem rank_word (v : BitVec 64) (b : Bool) {r : Nat} (h : r ≤ 64) : rankOf (bitsOfWord v) b r = cntb v b r := by
  rw [rankOf, bitsOfWord, ← List.map_take, List.take_range, Nat.min_eq_left h, List.count_eq_countP,
    List.countP_map, cntb]
  rfl

theorem rank_words (W : List (BitVec 64)) (b : Bool) {m r : Nat} (hm : m < W.length) (hr : r ≤ 64) :
    rankOf (bitsOf W) b (m * 64 + r) = rankOf (bitsOf W) b (m * 64) + cntb (wd W m) b r := by
  rw [rank_add, bitsOf_drop, List.drop_eq_getElem_cons hm]
  congr 1
  have hl : (bitsOfWord W[m]).length = 64 := by simp [bitsOfWord]
  have hc : bitsOf (W[m] :: W.drop (m + 1)) = bitsOfWord W[m] ++ bitsOf (W.drop (m + 1)) := by
    rw [bitsOf, List.flatMap_cons]; rfl
  rw [hc, wd, List.getD_eq_getElem _ _ hm, ← rank_word _ _ hr, rankOf, rankOf, List.take_append_of_le_length (by omega)]

theorem cntb_true (v : BitVec 64) (r : Nat) : cntb v true r = cnt v r := by
  simp [cntb, cnt]

theorem cntb_false (v : BitVec 64) {r : Nat} (h : r ≤ 64) : cntb v false r = cnt (~~~v) r := by
  apply List.countP_congr
  intro i hi
  simp only [List.mem_range] at hi
  simp [show i < 64 by omega]

theorem popcnt_mask (v : BitVec 64) {r : Nat} (h : r < 64) :
    popcnt64 (v &&& ((1 : BitVec 64) <<< r - 1)) = cnt v r := by
  have hb := mask_bits r h
  have h0 : popcnt64 (v &&& ((1 : BitVec 64) <<< r - 1)) = cnt (v &&& ((1 : BitVec 64) <<< r - 1)) (r + (64 - r)) := by
    rw [show r + (64 - r) = 64 by omega]; rfl
  rw [h0, cnt_add]
  have h1 : cnt ((v &&& ((1 : BitVec 64) <<< r - 1)) >>> r) (64 - r) = 0 := by
    rw [cnt, List.countP_eq_zero]
    intro i _
    rw [BitVec.getLsbD_ushiftRight, BitVec.getLsbD_and, hb]
    simp
  rw [h1, Nat.add_zero]
  apply List.countP_congr
  intro i hi
  simp only [List.mem_range] at hi
  rw [BitVec.getLsbD_and, hb]
  simp [hi]

theorem cnt64 (v : BitVec 64) : popcnt64 v = cnt v 64 := rfl

theorem cnt_le {w : Nat} (v : BitVec w) (k : Nat) : cnt v k ≤ k := by
  have := List.countP_le_length (p := fun i => v.getLsbD i) (l := List.range k)
  simpa [cnt] using this

theorem sub64_eq {a b : Nat} (h : b ≤ a) (ha : a < 2 ^ 64) : sub64 a b = a - b := by
  rw [sub64]; omega

/-! ### the block invariant -/

/-- Counters of one block. -/
structure GoodBlock (big : Bool) (W : List (BitVec 64)) (i : Nat) (x : Block) : Prop where
  org : x.org = [wd W (4 * i), wd W (4 * i + 1), wd W (4 * i + 2), wd W (4 * i + 3)]
  head : headCount big x = rankOf (bitsOf W) true (i * 256)
  b1 : rankOf (bitsOf W) true (i * 256) + x.b1 = rankOf (bitsOf W) true (i * 256 + 64)
  b2 : rankOf (bitsOf W) true (i * 256) + x.b2 = rankOf (bitsOf W) true (i * 256 + 128)
  b3 : rankOf (bitsOf W) true (i * 256) + x.b3 = rankOf (bitsOf W) true (i * 256 + 192)

/-- All blocks represent the words `W`. -/
structure Good (big : Bool) (blk : List Block) (W : List (BitVec 64)) : Prop where
  len : W.length = 4 * blk.length
  blks : ∀ i (h : i < blk.length), GoodBlock big W i blk[i]

theorem headCount_setHead {big : Bool} {x : Block} {n : Nat} (h : n < maxBitSize big) :
    ∃ x', setHead big x n = .ok x' ∧ x'.org = x.org ∧
      ∀ o c1 c2 c3, headCount big { x' with org := o, b1 := c1, b2 := c2, b3 := c3 } = n := by
  cases big
  · simp only [maxBitSize, Bool.false_eq_true, if_false] at h
    refine ⟨{ x with a := n }, by simp only [setHead, Bool.false_eq_true, if_false]; rw [if_neg (by omega)], rfl, ?_⟩
    intros; rfl
  · simp only [maxBitSize, if_true] at h
    refine ⟨x.setA64 (n % 2 ^ 40), by simp only [setHead, if_true], rfl, ?_⟩
    intros
    simp only [headCount, if_true, Block.a64, Block.setA64]
    rw [Nat.mod_eq_of_lt h]
    omega

theorem initBlocks_spec (big : Bool) (buf : Option (List (BitVec 64))) (blkNum : Nat)
    (W : List (BitVec 64)) (P : Nat → Nat) (hmax : W.length * 64 ≤ maxBitSize big) (xs : List Block) :
    ∀ i, W.length = 4 * (i + xs.length) →
    (∀ j (h : j < xs.length), ∀ x', x'.org = xs[j].org → nextWords buf blkNum (P (i + j)) x' =
      .ok ((wd W (4 * (i + j)), wd W (4 * (i + j) + 1), wd W (4 * (i + j) + 2), wd W (4 * (i + j) + 3)),
        P (i + j + 1))) →
    ∃ ys, initBlocks big buf blkNum xs (P i) (rankOf (bitsOf W) true (i * 256)) =
        .ok (ys, (bitsOf W).count true) ∧ ys.length = xs.length ∧
      ∀ j (h : j < ys.length), GoodBlock big W (i + j) ys[j] := by
  induction xs with
  | nil =>
    intro i hlen _
    refine ⟨[], ?_, rfl, fun j h => by simp at h⟩
    rw [initBlocks, rank_ge]
    rw [bitsOf_length]; simp at hlen; omega
  | cons x xs ih =>
    intro i hlen hnw
    simp only [List.length_cons] at hlen
    have hlt : rankOf (bitsOf W) true (i * 256) < maxBitSize big := by
      have := rank_le (bitsOf W) true (i * 256)
      omega
    obtain ⟨x', e1, e2, e3⟩ := headCount_setHead (x := x) hlt
    have hw := hnw 0 (by simp) x' (by simpa using e2)
    simp only [Nat.add_zero] at hw
    have w0 := rank_words W true (m := 4 * i) (r := 64) (by omega) (by omega)
    have w1 := rank_words W true (m := 4 * i + 1) (r := 64) (by omega) (by omega)
    have w2 := rank_words W true (m := 4 * i + 2) (r := 64) (by omega) (by omega)
    have w3 := rank_words W true (m := 4 * i + 3) (r := 64) (by omega) (by omega)
    simp only [cntb_true] at w0 w1 w2 w3
    rw [show 4 * i * 64 + 64 = i * 256 + 64 by omega, show 4 * i * 64 = i * 256 by omega] at w0
    rw [show (4 * i + 1) * 64 + 64 = i * 256 + 128 by omega, show (4 * i + 1) * 64 = i * 256 + 64 by omega] at w1
    rw [show (4 * i + 2) * 64 + 64 = i * 256 + 192 by omega, show (4 * i + 2) * 64 = i * 256 + 128 by omega] at w2
    rw [show (4 * i + 3) * 64 + 64 = (i + 1) * 256 by omega, show (4 * i + 3) * 64 = i * 256 + 192 by omega] at w3
    simp only [initBlocks]
    rw [e1, Res.ok_bind, hw, Res.ok_bind]
    simp only [cnt64]
    have c0 := cnt_le (wd W (4 * i)) 64
    have c1 := cnt_le (wd W (4 * i + 1)) 64
    have c2 := cnt_le (wd W (4 * i + 2)) 64
    obtain ⟨ys, f1, f2, f3⟩ := ih (i + 1) (by omega) (fun j h y hy => by
      have := hnw (j + 1) (by simp; omega) y (by simpa using hy)
      rwa [show i + (j + 1) = i + 1 + j by omega] at this)
    rw [show rankOf (bitsOf W) true (i * 256) + cnt (wd W (4 * i)) 64 + cnt (wd W (4 * i + 1)) 64 +
        cnt (wd W (4 * i + 2)) 64 + cnt (wd W (4 * i + 3)) 64 = rankOf (bitsOf W) true ((i + 1) * 256) by omega,
      f1, Res.ok_bind, Res.pure_eq]
    refine ⟨_, rfl, by simp [f2], fun j h => ?_⟩
    cases j with
    | zero =>
      simp only [List.getElem_cons_zero, Nat.add_zero]
      refine ⟨rfl, e3 _ _ _ _, ?_, ?_, ?_⟩
      · show _ + cnt (wd W (4 * i)) 64 % 256 = _; omega
      · show _ + (cnt (wd W (4 * i)) 64 + cnt (wd W (4 * i + 1)) 64) % 256 = _; omega
      · show _ + (cnt (wd W (4 * i)) 64 + cnt (wd W (4 * i + 1)) 64 + cnt (wd W (4 * i + 2)) 64) % 256 = _; omega
    | succ j =>
      simp only [List.getElem_cons_succ]
      rw [show i + (j + 1) = i + 1 + j by omega]
      exact f3 j _

/-! ### reading counters -/

variable {big : Bool} {blk : List Block} {W : List (BitVec 64)}

theorem Good.bits_len (g : Good big blk W) : (bitsOf W).length = 256 * blk.length := by
  rw [bitsOf_length, g.len]; omega

theorem Good.rankA (g : Good big blk W) (hmax : 256 * blk.length < 2 ^ 64) (b : Bool) {i : Nat}
    (h : i < blk.length) : rankA big b blk i = .ok (rankOf (bitsOf W) b (i * 256)) := by
  have hb := g.blks i h
  rw [SucVector.rankA, at?_eq_ok h, Res.ok_bind]
  simp only [hb.head, Res.pure_eq]
  cases b
  · simp only [Bool.false_eq_true, if_false]
    have := rank_both (bitsOf W) (p := i * 256) (by rw [g.bits_len]; omega)
    rw [sub64_eq (by omega) (by omega)]
    congr 1; omega
  · simp only [if_true]

theorem Good.getB (g : Good big blk W) (b : Bool) {L j : Nat} (h : L < blk.length) (h0 : 0 < j)
    (h4 : j < 4) (hmax : 256 * blk.length < 2 ^ 64) :
    ∃ c, getB b blk L j = .ok c ∧
      rankOf (bitsOf W) b (L * 256) + c = rankOf (bitsOf W) b (L * 256 + 64 * j) := by
  have hb := g.blks L h
  have hT : ∃ c, blk[L].getB j = .ok c ∧
      rankOf (bitsOf W) true (L * 256) + c = rankOf (bitsOf W) true (L * 256 + 64 * j) := by
    have hj : j = 1 ∨ j = 2 ∨ j = 3 := by omega
    rcases hj with rfl | rfl | rfl
    · exact ⟨_, rfl, hb.b1⟩
    · exact ⟨_, rfl, hb.b2⟩
    · exact ⟨_, rfl, hb.b3⟩
  obtain ⟨c, e1, e2⟩ := hT
  rw [SucVector.getB, at?_eq_ok h, Res.ok_bind, e1, Res.ok_bind]
  cases b
  · simp only [Bool.false_eq_true, if_false]
    have h1 := rank_both (bitsOf W) (p := L * 256) (by rw [g.bits_len]; omega)
    have h2 := rank_both (bitsOf W) (p := L * 256 + 64 * j) (by rw [g.bits_len]; omega)
    have h3 := rank_le_add (bitsOf W) true (L * 256) (64 * j)
    rw [sub64_eq (by omega) (by omega)]
    exact ⟨_, rfl, by omega⟩
  · simp only [if_true]
    exact ⟨_, rfl, e2⟩

theorem Good.word (g : Good big blk W) {L j : Nat} (h : L < blk.length) (h4 : j < 4) :
    at? blk[L].org j = .ok (wd W (4 * L + j)) := by
  rw [(g.blks L h).org]
  have hj : j = 0 ∨ j = 1 ∨ j = 2 ∨ j = 3 := by omega
  rcases hj with rfl | rfl | rfl | rfl <;> rfl

/-! ### the select tables -/

/-- Entry `t` for rank `r`: the first block whose head counter reaches `r`. -/
def IsFirst (W : List (BitVec 64)) (b : Bool) (n r t : Nat) : Prop :=
  t ≤ n ∧ (t < n → r ≤ rankOf (bitsOf W) b (t * 256)) ∧ ∀ i, i < t → rankOf (bitsOf W) b (i * 256) < r

theorem selAdvance_spec (g : Good big blk W) (hmax : 256 * blk.length < 2 ^ 40) (b : Bool) (r : Nat) (k : Nat) :
    ∀ pos, k = blk.length - pos → pos < blk.length →
    (∀ i, i < pos → rankOf (bitsOf W) b (i * 256) < r) →
    ∃ t, selAdvance big b blk r pos = .ok t ∧ IsFirst W b blk.length r t := by
  induction k with
  | zero => intro pos h1 h2; omega
  | succ k ih =>
    intro pos h1 h2 h3
    rw [selAdvance, if_pos h2, g.rankA (by omega) b h2]
    simp only
    by_cases h : rankOf (bitsOf W) b (pos * 256) < r
    · rw [if_pos h, if_neg (by omega)]
      have h3' : ∀ i, i < pos + 1 → rankOf (bitsOf W) b (i * 256) < r := by
        intro i hi
        by_cases hip : i = pos
        · rw [hip]; exact h
        · exact h3 i (by omega)
      by_cases he : pos + 1 = blk.length
      · rw [if_pos he]
        exact ⟨_, rfl, by omega, by omega, h3'⟩
      · rw [if_neg he]
        exact ih (pos + 1) (by omega) (by omega) h3'
    · rw [if_neg h]
      exact ⟨_, rfl, by omega, by omega, h3⟩

theorem selTblLoop_spec (g : Good big blk W) (hmax : 256 * blk.length < 2 ^ 40) (b : Bool) (n : Nat) :
    ∀ i pos, (n = 0 ∨ (i + n - 1) * 1024 < rankOf (bitsOf W) b (256 * blk.length)) →
    (n ≠ 0 → pos < blk.length) → (∀ k, k < pos → rankOf (bitsOf W) b (k * 256) < i * 1024) →
    ∃ t, selTblLoop big b blk n i pos = .ok t ∧ t.length = n ∧
      ∀ j (h : j < t.length), IsFirst W b blk.length ((i + j) * 1024) t[j] := by
  induction n with
  | zero => intro i pos _ _ _; exact ⟨[], rfl, rfl, fun j h => by simp at h⟩
  | succ n ih =>
    intro i pos h1 h2 h3
    simp only [selTblLoop]
    obtain ⟨t, e1, e2⟩ := selAdvance_spec g hmax b (i * 1024) _ pos rfl (h2 (by omega)) h3
    rw [e1, Res.ok_bind]
    have hnext : n ≠ 0 → t < blk.length := by
      intro hn
      apply Nat.lt_of_not_le
      intro hle
      have h4 := h2 (by omega)
      have h5 := e2.2.2 (blk.length - 1) (by omega)
      have h6 := rank_le_add (bitsOf W) b ((blk.length - 1) * 256) 256
      rw [show (blk.length - 1) * 256 + 256 = 256 * blk.length by omega] at h6
      rcases h1 with h1 | h1 <;> omega
    obtain ⟨ts, f1, f2, f3⟩ := ih (i + 1) t (by rw [show i + 1 + n - 1 = i + (n + 1) - 1 by omega]; omega) hnext
      (fun k hk => by have := e2.2.2 k hk; omega)
    rw [f1, Res.ok_bind, Res.pure_eq]
    refine ⟨_, rfl, by simp [f2], fun j h => ?_⟩
    cases j with
    | zero => simpa using e2
    | succ j =>
      have := f3 j (by simpa using h)
      simp only [List.getElem_cons_succ]
      rwa [show i + (j + 1) = i + 1 + j by omega]

/-- A select table for `num` occurrences. -/
def TblOk (W : List (BitVec 64)) (b : Bool) (n num : Nat) (t : List Nat) : Prop :=
  t.length = (num + 1023) / 1024 ∧ ∀ j (h : j < t.length), IsFirst W b n (j * 1024) t[j]

theorem initSelTblSub_spec (g : Good big blk W) (hmax : 256 * blk.length < 2 ^ 40) (b : Bool) {num : Nat}
    (hn : num ≤ rankOf (bitsOf W) b (256 * blk.length)) :
    ∃ t, initSelTblSub big b blk num = .ok t ∧ TblOk W b blk.length num t := by
  have hle := rank_le (bitsOf W) b (256 * blk.length)
  have hbn : getBlockNum num 1024 = (num + 1023) / 1024 := by
    rw [getBlockNum, Nat.mod_eq_of_lt (by omega)]; rfl
  obtain ⟨t, e1, e2, e3⟩ := selTblLoop_spec g hmax b (getBlockNum num 1024) 0 0
    (by rw [hbn]; omega)
    (by rw [hbn]; intro h; omega)
    (fun k hk => by omega)
  refine ⟨t, e1, by rw [e2, hbn], fun j h => ?_⟩
  have := e3 j h
  rwa [Nat.zero_add] at this

/-! ### select -/

theorem bsearch_spec (g : Good big blk W) (hmax : 256 * blk.length < 2 ^ 64) (b : Bool) (r : Nat) (k : Nat) :
    ∀ L R, k = R - L → L ≤ R → R ≤ blk.length →
    (∀ i, i < L → rankOf (bitsOf W) b (i * 256) < r) →
    (R < blk.length → r ≤ rankOf (bitsOf W) b (R * 256)) →
    ∃ t, bsearch big b blk r L R = .ok t ∧ IsFirst W b blk.length r t := by
  induction k using Nat.strongRecOn with
  | ind k ih =>
    intro L R hk h1 h2 h3 h4
    rw [bsearch]
    by_cases h : L < R
    · rw [if_pos h]
      simp only
      rw [g.rankA hmax b (show (L + R) / 2 < blk.length by omega)]
      simp only
      by_cases hc : rankOf (bitsOf W) b ((L + R) / 2 * 256) < r
      · rw [if_pos hc]
        refine ih _ (by omega) ((L + R) / 2 + 1) R rfl (by omega) h2 ?_ h4
        intro i hi
        have := rank_mono (bitsOf W) b (show i * 256 ≤ (L + R) / 2 * 256 by omega)
        omega
      · rw [if_neg hc]
        exact ih _ (by omega) L ((L + R) / 2) rfl (by omega) (by omega) h3 (by omega)
    · rw [if_neg h]
      have : L = R := by omega
      subst this
      exact ⟨_, rfl, h2, h4, h3⟩

theorem wordSearch_spec (g : Good big blk W) (hmax : 256 * blk.length < 2 ^ 64) (b : Bool) {L : Nat} (r : Nat)
    (hL : L < blk.length) (k : Nat) :
    ∀ i, k = 3 - i → i ≤ 3 →
    (i = 0 ∨ rankOf (bitsOf W) b (L * 256 + 64 * i) < rankOf (bitsOf W) b (L * 256) + r) →
    ∃ t, wordSearch b blk L r i = .ok t ∧ t ≤ 3 ∧
      (t = 0 ∨ rankOf (bitsOf W) b (L * 256 + 64 * t) < rankOf (bitsOf W) b (L * 256) + r) ∧
      (t < 3 → rankOf (bitsOf W) b (L * 256) + r ≤ rankOf (bitsOf W) b (L * 256 + 64 * (t + 1))) := by
  induction k with
  | zero =>
    intro i hk h1 h2
    rw [wordSearch, if_neg (by omega)]
    exact ⟨_, rfl, h1, h2, by omega⟩
  | succ k ih =>
    intro i hk h1 h2
    rw [wordSearch, if_pos (by omega)]
    obtain ⟨c, e1, e2⟩ := g.getB b hL (j := i + 1) (by omega) (by omega) hmax
    rw [e1]
    simp only
    by_cases hc : c ≥ r
    · rw [if_pos hc]
      exact ⟨_, rfl, by omega, h2, by omega⟩
    · rw [if_neg hc]
      exact ih (i + 1) (by omega) (by omega) (Or.inr (by omega))

/-- Select over the stored words, for any count of occurrences the tables were built for. -/
theorem selectSub_core (g : Good big blk W) (hmax : 256 * blk.length < 2 ^ 40) (b : Bool) (s : SV)
    (hblk : s.blk = blk) {num : Nat} (hnum : numOf s b = num)
    (hle : num ≤ rankOf (bitsOf W) b (256 * blk.length))
    (htbl : TblOk W b blk.length num (if b then s.sel1 else s.sel0)) (r : Nat) (hr : r < num) :
    ∃ p, selectSub big true s b r = .ok p ∧ IsSelect (bitsOf W) b r p := by
  have hrl := rank_le (bitsOf W) b (256 * blk.length)
  obtain ⟨hT, hF⟩ := htbl
  simp only [selectSub]
  rw [if_neg (by simp), if_neg (by omega)]
  generalize (if b = true then s.sel1 else s.sel0) = tbl at *
  have hp : r / 1024 < tbl.length := by omega
  rw [hblk, at?_eq_ok hp, Res.ok_bind]
  have hfL := hF _ hp
  have hR : ∃ R, rightEnd tbl (r / 1024) blk.length = .ok R ∧ tbl[r / 1024] ≤ R ∧ R ≤ blk.length ∧
      (R < blk.length → r + 1 ≤ rankOf (bitsOf W) b (R * 256)) := by
    rw [rightEnd, sub64_eq (by omega) (by omega)]
    by_cases h : r / 1024 ≥ tbl.length - 1
    · rw [if_pos h]
      exact ⟨_, rfl, hfL.1, Nat.le_refl _, by omega⟩
    · rw [if_neg h, at?_eq_ok (by omega)]
      have hfR := hF (r / 1024 + 1) (by omega)
      refine ⟨_, rfl, ?_, hfR.1, fun hlt => ?_⟩
      · apply Nat.le_of_not_lt
        intro hlt
        have h1 := hfL.2.2 _ hlt
        have h2 := hfR.2.1 (by have := hfL.1; omega)
        omega
      · have := hfR.2.1 hlt; omega
  obtain ⟨R, r1, r2, r3, r4⟩ := hR
  rw [r1, Res.ok_bind]
  obtain ⟨t, t1, t2, t3, t4⟩ := bsearch_spec g (by omega) b (r + 1) _ tbl[r / 1024] R rfl r2 r3
    (fun i hi => by have := hfL.2.2 i hi; omega) r4
  rw [t1, Res.ok_bind]
  have ht0 : 0 < t := by
    apply Nat.pos_of_ne_zero
    rintro rfl
    have hb0 : 0 < blk.length := by
      apply Nat.pos_of_ne_zero
      intro h0
      rw [h0] at hrl hle
      omega
    have := t3 hb0
    rw [Nat.zero_mul, rank_zero] at this
    omega
  simp only [ht0, if_true, gt_iff_lt]
  generalize hL : t - 1 = L
  have hLlt : L < blk.length := by omega
  rw [g.rankA (by omega) b hLlt, Res.ok_bind]
  have hlow := t4 L (by omega)
  rw [sub64_eq (by omega) (by omega)]
  have hup : r + 1 ≤ rankOf (bitsOf W) b (L * 256 + 256) := by
    rw [show L * 256 + 256 = t * 256 by omega]
    by_cases h : t < blk.length
    · exact t3 h
    · rw [show t * 256 = 256 * blk.length by omega]; omega
  obtain ⟨i, i1, i2, i3, i4⟩ := wordSearch_spec g (by omega) b
    (r + 1 - rankOf (bitsOf W) b (L * 256)) hLlt _ 0 rfl (by omega) (Or.inl rfl)
  rw [i1, Res.ok_bind]
  have hsub : subRank b blk L i (r + 1 - rankOf (bitsOf W) b (L * 256)) =
      .ok (r + 1 - rankOf (bitsOf W) b (L * 256 + 64 * i)) := by
    rw [subRank]
    by_cases h : i > 0
    · rw [if_pos h]
      have i3' : rankOf (bitsOf W) b (L * 256 + 64 * i) <
          rankOf (bitsOf W) b (L * 256) + (r + 1 - rankOf (bitsOf W) b (L * 256)) := by
        rcases i3 with h3 | h3
        · omega
        · exact h3
      obtain ⟨c, c1, c2⟩ := g.getB b hLlt h (by omega) (by omega)
      clear i3 i4
      rw [c1, Res.ok_bind, sub64_eq (by have := i3'; omega) (by omega), Res.pure_eq, ← c2, Nat.sub_sub]
    · rw [if_neg h]
      have hi : i = 0 := by omega
      subst hi; rfl
  rw [hsub, Res.ok_bind, at?_eq_ok hLlt, Res.ok_bind, g.word hLlt (by omega), Res.ok_bind]
  have hm : 4 * L + i < W.length := by rw [g.len]; omega
  have hword := fun q (hq : q ≤ 64) => rank_words W b hm hq
  simp only [show (4 * L + i) * 64 = L * 256 + 64 * i by omega] at hword
  have hend : r + 1 ≤ rankOf (bitsOf W) b (L * 256 + 64 * i + 64) := by
    by_cases h : i < 3
    · have := i4 h
      rw [show L * 256 + 64 * i + 64 = L * 256 + 64 * (i + 1) by omega]; omega
    · rw [show L * 256 + 64 * i + 64 = L * 256 + 256 by omega]; exact hup
  have hstart : rankOf (bitsOf W) b (L * 256 + 64 * i) < r + 1 := by
    rcases i3 with h | h
    · rw [h, Nat.mul_zero, Nat.add_zero]; omega
    · omega
  have hcb : ∀ q, q ≤ 64 → cntb (wd W (4 * L + i)) b q =
      cnt (if b = true then wd W (4 * L + i) else ~~~wd W (4 * L + i)) q := by
    intro q hq
    cases b
    · simp only [Bool.false_eq_true, if_false]; exact cntb_false _ hq
    · simp only [if_true]; exact cntb_true _ _
  have h64 := hword 64 (by omega)
  rw [hcb 64 (by omega)] at h64
  obtain ⟨p, p1, p2, p3⟩ := select64_spec (if b = true then wd W (4 * L + i) else ~~~wd W (4 * L + i))
    (r + 1 - rankOf (bitsOf W) b (L * 256 + 64 * i)) (by omega) (by omega)
  rw [p1, Res.ok_bind, Res.pure_eq]
  refine ⟨_, rfl, ?_, ?_⟩
  · have hlen := g.bits_len
    have hlt : p + (L * 256 + i * 64) < (bitsOf W).length := by omega
    rw [List.getElem?_eq_getElem hlt]
    have hg := bitsOf_getD (w := 64) (by omega) W (p + (L * 256 + i * 64))
    rw [List.getD_eq_getElem _ _ hlt] at hg
    rw [hg, show p + (L * 256 + i * 64) = (4 * L + i) * 64 + p by omega,
      bitAt_mul_add (by omega) _ p2]
    have := p3.1
    cases b
    · simp only [Bool.false_eq_true, if_false] at this
      rw [BitVec.getLsbD_not] at this
      simp only [p2, decide_true, Bool.true_and, Bool.not_eq_true'] at this
      rw [this]
    · simp only [if_true] at this
      rw [this]
  · rw [show p + (L * 256 + i * 64) = L * 256 + 64 * i + p by omega, hword p (by omega), hcb p (by omega)]
    have := p3.2
    omega

end Verif.SucVector
