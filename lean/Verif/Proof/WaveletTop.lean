import Verif.Proof.Wavelet
set_option linter.unusedSimpArgs false

/-! Lemmas for C14 and C15: tables, queries and select of the wavelet matrix. -/
namespace Verif.Wavelet
open Verif.BitVector (BV setAt? setAt?_ok)
open Verif.SucVector (SV sub64 sub64_eq getBlockNum NotFound rank_both)
open Verif.Spec.SucVector (rankOf)
open Verif.Spec.Wavelet

/-- The sum `rankLt` accumulates on its way down. -/
def walkLt : (k : Nat) → List Nat → (ret p v : Nat) → Nat
  | 0, _, ret, _, _ => ret
  | k + 1, cur, ret, p, v =>
    walkLt k (part k cur) (if v.testBit k then ret + zeros k (cur.take p) else ret)
      (stepPos k cur (v.testBit k) p) v

theorem testBit_block {k pos v : Nat} (h : pos % 2 ^ (k + 1) = 0) (h1 : pos ≤ v) (h2 : v < pos + 2 ^ (k + 1)) :
    v.testBit k = decide (pos + 2 ^ k ≤ v) := by
  obtain ⟨q, rfl⟩ := Nat.dvd_of_mod_eq_zero h
  have hp : 0 < 2 ^ k := Nat.two_pow_pos k
  rw [Nat.testBit_eq_decide_div_mod_eq]
  rw [decide_eq_decide]
  rw [Nat.pow_succ] at *
  have e : 2 ^ k * 2 * q = 2 ^ k * (2 * q) := by rw [Nat.mul_assoc]
  by_cases hc : 2 ^ k * 2 * q + 2 ^ k ≤ v
  · have : v / 2 ^ k = 2 * q + 1 := by
      apply Nat.div_eq_of_lt_le
      · rw [Nat.add_mul, Nat.mul_comm]; omega
      · rw [Nat.add_mul, Nat.add_mul, Nat.mul_comm (2 * q)]; omega
    rw [this]; simp only [hc, iff_true]; omega
  · have : v / 2 ^ k = 2 * q := by
      apply Nat.div_eq_of_lt_le
      · rw [Nat.mul_comm]; omega
      · rw [Nat.add_mul, Nat.mul_comm (2 * q)]; omega
    rw [this]; simp only [hc, iff_false]; omega

theorem mod_half {k pos : Nat} (h : pos % 2 ^ (k + 1) = 0) : pos % 2 ^ k = 0 ∧ (pos + 2 ^ k) % 2 ^ k = 0 := by
  obtain ⟨q, rfl⟩ := Nat.dvd_of_mod_eq_zero h
  rw [Nat.pow_succ, Nat.mul_assoc]
  simp

theorem initFromTbl_spec {svv : List SV} {offTbl : List Nat} (k : Nat) :
    ∀ (i : Nat) (cur tbl : List Nat) (pos f : Nat), cur.length ≤ 2 ^ 32 → Holds svv offTbl k i cur →
    f ≤ cur.length → pos % 2 ^ k = 0 → pos + 2 ^ k ≤ tbl.length →
    ∃ tbl', initFromTbl svv offTbl k i tbl pos f = .ok tbl' ∧ tbl'.length = tbl.length ∧
      ∀ v, tbl'[v]? = if pos ≤ v ∧ v < pos + 2 ^ k then some (toSize (walk k cur f v)) else tbl[v]? := by
  induction k with
  | zero =>
    intro i cur tbl pos f _ _ _ _ hlen
    refine ⟨_, by rw [initFromTbl, setAt?_ok _ (by omega)], by simp, fun v => ?_⟩
    rw [List.getElem?_set]
    by_cases hv : pos = v
    · subst hv; simp [walk]; omega
    · rw [if_neg hv, if_neg (by omega)]
  | succ k ih =>
    intro i cur tbl pos f hn h hf hpos hlen
    have hw : ∀ v, walk (k + 1) cur f v = walk k (part k cur) (stepPos k cur (v.testBit k) f) v := fun _ => rfl
    have hh := mod_half hpos
    have hpow : 2 ^ (k + 1) = 2 ^ k + 2 ^ k := by omega
    obtain ⟨⟨sv, h1, h2⟩, h3, h4⟩ := h
    have hlen' : (cur.map fun x => x.testBit k).length ≤ 2 ^ 32 := by simpa using hn
    have r0 := h2.rank hlen' false (p := f) (by simpa using hf)
    have r1 := h2.rank hlen' true (p := f) (by simpa using hf)
    rw [rank_false] at r0
    rw [rank_true] at r1
    have hp : (part k cur).length ≤ 2 ^ 32 := by rw [part_length]; exact hn
    obtain ⟨t1, e1, l1, g1⟩ := ih (i + 1) (part k cur) tbl pos (stepPos k cur false f) hp h4
      (stepPos_le _ _ _ _) hh.1 (by omega)
    obtain ⟨t2, e2, l2, g2⟩ := ih (i + 1) (part k cur) t1 (pos + 2 ^ k) (stepPos k cur true f) hp h4
      (stepPos_le _ _ _ _) hh.2 (by omega)
    simp only [stepPos, Bool.false_eq_true, if_false, if_true] at e1 e2
    refine ⟨t2, ?_, by omega, fun v => ?_⟩
    · rw [initFromTbl, at?_some h1, Res.ok_bind, r0, Res.ok_bind, e1, Res.ok_bind, r1, Res.ok_bind,
        at?_some h3, Res.ok_bind, Nat.add_comm (ones _ _), e2]
    · rw [g2, g1]
      by_cases hc : pos ≤ v ∧ v < pos + 2 ^ (k + 1)
      · have hb := testBit_block hpos hc.1 hc.2
        rw [if_pos hc, hw, hb]
        by_cases hc2 : pos + 2 ^ k ≤ v
        · rw [if_pos ⟨hc2, by omega⟩]; simp [hc2]
        · rw [if_neg (by omega), if_pos (by omega)]; simp [hc2]
      · rw [if_neg hc, if_neg (by omega), if_neg (by omega)]

theorem zeros_take_len (k : Nat) (cur : List Nat) {p : Nat} (hp : p ≤ cur.length) :
    zeros k (cur.take p) + ones k (cur.take p) = p := by
  rw [zeros_ones, List.length_take]; omega

theorem initFromLtTbl_spec {svv : List SV} {offTbl : List Nat} (k : Nat) :
    ∀ (i : Nat) (cur tbl : List Nat) (pos f ret : Nat), cur.length ≤ 2 ^ 32 → Holds svv offTbl k i cur →
    f ≤ cur.length → ret + (k + 1) * cur.length < 2 ^ 63 → pos % 2 ^ k = 0 → pos + 2 ^ k ≤ tbl.length →
    ∃ tbl', initFromLtTbl svv offTbl k i tbl pos f ret = .ok tbl' ∧ tbl'.length = tbl.length ∧
      ∀ v, tbl'[v]? = if pos ≤ v ∧ v < pos + 2 ^ k then some (toSize (walkLt k cur ret f v)) else tbl[v]? := by
  induction k with
  | zero =>
    intro i cur tbl pos f ret _ _ _ _ _ hlen
    refine ⟨_, by rw [initFromLtTbl, setAt?_ok _ (by omega)], by simp, fun v => ?_⟩
    rw [List.getElem?_set]
    by_cases hv : pos = v
    · subst hv; simp [walkLt]; omega
    · rw [if_neg hv, if_neg (by omega)]
  | succ k ih =>
    intro i cur tbl pos f ret hn h hf hret hpos hlen
    have hw : ∀ v, walkLt (k + 1) cur ret f v = walkLt k (part k cur)
      (if v.testBit k then ret + zeros k (cur.take f) else ret) (stepPos k cur (v.testBit k) f) v := fun _ => rfl
    have hh := mod_half hpos
    have hpow : 2 ^ (k + 1) = 2 ^ k + 2 ^ k := by omega
    obtain ⟨⟨sv, h1, h2⟩, h3, h4⟩ := h
    have r1 := h2.rank1 f (by simpa using hf)
    rw [rank_true] at r1
    have hzo := zeros_take_len k cur hf
    have hp : (part k cur).length ≤ 2 ^ 32 := by rw [part_length]; exact hn
    rw [Nat.add_mul, Nat.one_mul] at hret
    obtain ⟨t1, e1, l1, g1⟩ := ih (i + 1) (part k cur) tbl pos (stepPos k cur false f) ret hp h4
      (stepPos_le _ _ _ _) (by rw [part_length]; omega) hh.1 (by omega)
    obtain ⟨t2, e2, l2, g2⟩ := ih (i + 1) (part k cur) t1 (pos + 2 ^ k) (stepPos k cur true f)
      (ret + zeros k (cur.take f)) hp h4
      (stepPos_le _ _ _ _) (by rw [part_length]; omega) hh.2 (by omega)
    simp only [stepPos, Bool.false_eq_true, if_false, if_true] at e1 e2
    refine ⟨t2, ?_, by omega, fun v => ?_⟩
    · rw [initFromLtTbl, at?_some h1, Res.ok_bind, r1, Res.ok_bind, sub64_eq (by omega) (by omega),
        show f - ones k (cur.take f) = zeros k (cur.take f) by omega, e1, Res.ok_bind,
        at?_some h3, Res.ok_bind, sub64_eq (by omega) (by omega),
        show ret + f - ones k (cur.take f) = ret + zeros k (cur.take f) by omega, e2]
    · rw [g2, g1]
      by_cases hc : pos ≤ v ∧ v < pos + 2 ^ (k + 1)
      · have hb := testBit_block hpos hc.1 hc.2
        rw [if_pos hc, hw, hb]
        by_cases hc2 : pos + 2 ^ k ≤ v
        · rw [if_pos ⟨hc2, by omega⟩]; simp [hc2]
        · rw [if_neg (by omega), if_pos (by omega)]; simp [hc2]
      · rw [if_neg hc, if_neg (by omega), if_neg (by omega)]

/-! ## The finished matrix -/

/-- Everything but the select table. -/
structure Built (B : Nat) (l : List Nat) (wm : WM) : Prop where
  maxVal : wm.maxVal = 2 ^ B
  bits : wm.valBitLen = B
  size : wm.size = l.length
  holds : Holds wm.svv wm.offTbl B 0 l
  frm : ∀ v, v < 2 ^ B → wm.fromTbl[v]? = some (toSize (walk B l 0 v))
  lt : ∀ v, v < 2 ^ B → wm.fromLtTbl[v]? = some (toSize (walkLt B l 0 0 v))
  frm_len : wm.fromTbl.length = 2 ^ B
  lt_len : wm.fromLtTbl.length = 2 ^ B

theorem vresize_length {α : Type} (d : α) (v : List α) (n : Nat) : (vresize d v n).length = n := by
  simp [vresize]; omega

theorem Built.clamp {B : Nat} {l : List Nat} {wm : WM} (h : Built B l wm) (p : Nat) :
    Wavelet.clamp wm p = min p l.length := by
  rw [Wavelet.clamp, h.size]; split <;> omega

theorem agree_eq {B v : Nat} {l : List Nat} (hv : v < 2 ^ B) (hl : ∀ x ∈ l, x < 2 ^ B) :
    l.countP (agree B v) = l.count v := by
  rw [List.count]
  apply List.countP_congr
  intro x hx
  simp [agree, Nat.mod_eq_of_lt hv, Nat.mod_eq_of_lt (hl x hx)]

theorem Built.rank_gen {B : Nat} {l : List Nat} {wm : WM} (h : Built B l wm) (hn : l.length ≤ 2 ^ 32)
    (hl : ∀ x ∈ l, x < 2 ^ B) {v : Nat} (hv : v < 2 ^ B) (p : Nat) :
    Wavelet.rank wm v p = .ok (countOf l v p + (walk B l 0 v - toSize (walk B l 0 v))) := by
  have e : min p l.length ≤ l.length := Nat.min_le_right _ _
  rw [Wavelet.rank, h.clamp, h.bits, rankLoop_eq B 0 l _ (by omega) h.holds e, Res.ok_bind,
    at?_some (h.frm v hv), Res.ok_bind, Res.pure_eq]
  have h1 := walk_diff B l (min p l.length) 0 v (l.take p) e (by omega) (by simp [List.take_take])
  have h2 := walk_le B l (min p l.length) v e
  have h3 : toSize (walk B l 0 v) ≤ walk B l 0 v := Nat.mod_le _ _
  rw [agree_eq hv (fun x hx => hl x (List.mem_of_mem_take hx))] at h1
  rw [h1, sub64_eq (by omega) (by omega), countOf]
  congr 1; omega

theorem Built.rank {B : Nat} {l : List Nat} {wm : WM} (h : Built B l wm) (hn : l.length < 2 ^ 32)
    (hl : ∀ x ∈ l, x < 2 ^ B) {v : Nat} (hv : v < 2 ^ B) (p : Nat) :
    Wavelet.rank wm v p = .ok (countOf l v p) := by
  have h2 := walk_le B l 0 v (by omega)
  rw [h.rank_gen (by omega) hl hv, toSize, Nat.mod_eq_of_lt (by omega), Nat.sub_self, Nat.add_zero]

/-! ## rankLt -/

theorem rankLtLoop_eq {wm : WM} {val : Nat} (k : Nat) : ∀ (i : Nat) (cur : List Nat) (ret p : Nat),
    cur.length ≤ 2 ^ 32 → Holds wm.svv wm.offTbl k i cur → p ≤ cur.length →
    rankLtLoop wm val k i ret p = .ok (walkLt k cur ret p val) := by
  induction k with
  | zero => intro i cur ret p _ _ _; rfl
  | succ k ih =>
    intro i cur ret p hn h hp
    have h4 := h.2.2
    obtain ⟨⟨sv, h1, h2⟩, h3, _⟩ := h
    have hzo := zeros_take_len k cur hp
    have hr := h2.rank1 p (by simpa using hp)
    rw [rank_true] at hr
    have hd : downLt wm i (getPos val k) ret p = .ok
        (if val.testBit k then ret + zeros k (cur.take p) else ret, stepPos k cur (val.testBit k) p) := by
      rw [downLt, at?_some h1, Res.ok_bind, hr, Res.ok_bind, getPos]
      cases hb : val.testBit k
      · simp only [Bool.false_eq_true, if_false, Res.pure_eq, stepPos]
        rw [sub64_eq (by omega) (by omega)]
        congr 2; omega
      · simp only [if_true, at?_some h3, Res.ok_bind, Res.pure_eq, stepPos]
        rw [sub64_eq (by omega) (by omega)]
        congr 3; omega
    rw [rankLtLoop, hd, Res.ok_bind, walkLt]
    exact ih _ _ _ _ (by rw [part_length]; exact hn) h4 (stepPos_le _ _ _ _)

theorem countP_or {S : List Nat} {q r s : Nat → Bool} (h : ∀ x ∈ S, (q x = true ↔ r x = true ∨ s x = true) ∧
    ¬ (r x = true ∧ s x = true)) : S.countP q = S.countP r + S.countP s := by
  induction S with
  | nil => rfl
  | cons x S ih =>
    have h1 := ih (fun y hy => h y (by simp [hy]))
    have h2 := h x (by simp)
    simp only [List.countP_cons, h1]
    cases hq : q x <;> cases hr : r x <;> cases hs : s x <;> simp [hq, hr, hs] at h2 ⊢ <;> omega

theorem walkLt_diff (k : Nat) : ∀ (cur : List Nat) (p f v rp rf : Nat) (S : List Nat), p ≤ cur.length →
    f ≤ cur.length → cur.take p = cur.take f ++ S →
    walkLt k cur rp p v + rf = walkLt k cur rf f v + rp + S.countP (fun x => decide (x % 2 ^ k < v % 2 ^ k)) := by
  induction k with
  | zero =>
    intro cur p f v rp rf S hp hf h
    have hc : S.countP (fun x => decide (x % 2 ^ 0 < v % 2 ^ 0)) = 0 := by
      rw [List.countP_eq_zero]; intro x _; simp [Nat.mod_one]
    simp only [walkLt, hc]; omega
  | succ k ih =>
    intro cur p f v rp rf S hp hf h
    have hs := part_split h k (v.testBit k)
    have hz : zeros k (cur.take p) = zeros k (cur.take f) + zeros k S := by
      rw [h, zeros, List.countP_append]; rfl
    have key := ih (part k cur) (stepPos k cur (v.testBit k) p) (stepPos k cur (v.testBit k) f) v
      (if v.testBit k then rp + zeros k (cur.take p) else rp)
      (if v.testBit k then rf + zeros k (cur.take f) else rf) _ (stepPos_le _ _ _ _) (stepPos_le _ _ _ _) hs
    rw [walkLt, walkLt]
    rw [List.countP_filter] at key
    have hm : ∀ x, x % 2 ^ k < 2 ^ k := fun x => Nat.mod_lt _ (Nat.two_pow_pos k)
    cases hb : v.testBit k
    · simp only [hb, Bool.false_eq_true, if_false] at key ⊢
      rw [key]
      congr 1
      apply List.countP_congr
      intro x _
      have h1 := mod_succ x k
      have h2 := mod_succ v k
      have h3 := hm x
      have h4 := hm v
      rw [hb] at h2
      cases hx : x.testBit k <;> rw [hx] at h1 <;> simp at h1 h2 ⊢ <;> omega
    · simp only [hb, if_true] at key ⊢
      have hc : S.countP (fun x => decide (x % 2 ^ (k + 1) < v % 2 ^ (k + 1))) =
          zeros k S + S.countP (fun x => decide (x % 2 ^ k < v % 2 ^ k) && (x.testBit k == true)) := by
        rw [zeros]
        apply countP_or
        intro x _
        have h1 := mod_succ x k
        have h2 := mod_succ v k
        have h3 := hm x
        have h4 := hm v
        rw [hb] at h2
        cases hx : x.testBit k <;> rw [hx] at h1 <;> simp at h1 h2 ⊢ <;> omega
      rw [hc]
      omega

theorem walkLt_bound (k : Nat) : ∀ (cur : List Nat) (ret p v : Nat), p ≤ cur.length →
    walkLt k cur ret p v ≤ ret + k * cur.length := by
  induction k with
  | zero => intro cur ret p v _; simp [walkLt]
  | succ k ih =>
    intro cur ret p v hp
    rw [walkLt]
    have h1 := ih (part k cur) (if v.testBit k then ret + zeros k (cur.take p) else ret) _ v
      (stepPos_le k cur (v.testBit k) p)
    rw [part_length] at h1
    have h2 := zeros_take_len k cur hp
    rw [Nat.add_mul, Nat.one_mul]
    cases hb : v.testBit k <;> simp only [hb, if_true, if_false, Bool.false_eq_true] at h1 ⊢ <;> omega

/-- The first level adds nothing to the stored start values. -/
theorem walkLt_zero_bound {B : Nat} (l : List Nat) (v : Nat) : walkLt B l 0 0 v ≤ (B - 1) * l.length := by
  cases B with
  | zero => simp [walkLt]
  | succ k =>
    rw [walkLt]
    have h0 : zeros k (l.take 0) = 0 := by simp [zeros]
    have := walkLt_bound k (part k l) (if v.testBit k then 0 + zeros k (l.take 0) else 0) _ v
      (stepPos_le k l (v.testBit k) 0)
    rw [part_length] at this
    rw [h0] at this ⊢
    simpa using this

theorem Built.rankLt_gen {B : Nat} {l : List Nat} {wm : WM} (h : Built B l wm) (hn : l.length < 2 ^ 32)
    (hB : B ≤ 16) (hl : ∀ x ∈ l, x < 2 ^ B) {v : Nat} (hv : v < 2 ^ B) (p : Nat) :
    Wavelet.rankLt wm v p =
      .ok (countLt l v p + (walkLt B l 0 0 v - toSize (walkLt B l 0 0 v))) := by
  have e : min p l.length ≤ l.length := Nat.min_le_right _ _
  rw [Wavelet.rankLt, h.clamp, h.bits, rankLtLoop_eq B 0 l _ _ (by omega) h.holds e, Res.ok_bind,
    at?_some (h.lt v hv), Res.ok_bind, Res.pure_eq]
  have h1 := walkLt_diff B l (min p l.length) 0 v 0 0 (l.take p) e (by omega) (by simp [List.take_take])
  have h2 := walkLt_bound B l 0 (min p l.length) v e
  have h3 : toSize (walkLt B l 0 0 v) ≤ walkLt B l 0 0 v := Nat.mod_le _ _
  have hc : (l.take p).countP (fun x => decide (x % 2 ^ B < v % 2 ^ B)) = countLt l v p := by
    rw [countLt]
    apply List.countP_congr
    intro x hx
    rw [Nat.mod_eq_of_lt hv, Nat.mod_eq_of_lt (hl x (List.mem_of_mem_take hx))]
  rw [hc] at h1
  have h4 : B * l.length ≤ 16 * l.length := Nat.mul_le_mul_right _ hB
  rw [sub64_eq (by omega) (by omega)]
  congr 1; omega

/-! ## get -/

theorem part_get {k : Nat} {cur : List Nat} {p : Nat} (hp : p < cur.length) :
    (part k cur)[stepPos k cur (cur[p].testBit k) p]? = some cur[p] := by
  have h : cur.take (p + 1) = cur.take p ++ [cur[p]] := by rw [List.take_add_one]; simp [hp]
  have h1 := part_split h k (cur[p].testBit k)
  have hs : stepPos k cur (cur[p].testBit k) (p + 1) = stepPos k cur (cur[p].testBit k) p + 1 := by
    cases hb : cur[p].testBit k
    · simp only [stepPos, Bool.false_eq_true, if_false, zeros]
      rw [h, List.countP_append, List.countP_singleton, hb]; rfl
    · simp only [stepPos, if_true, ones]
      rw [h, List.countP_append, List.countP_singleton, hb]; rfl
  rw [hs, List.take_add_one] at h1
  have h2 := List.append_cancel_left h1
  rw [List.filter_cons_of_pos (by simp), List.filter_nil] at h2
  generalize (part k cur)[stepPos k cur (cur[p].testBit k) p]? = o at h2 ⊢
  cases o with
  | none => simp at h2
  | some y => simp at h2; rw [h2]

theorem or_bit {r : Nat} (b : Bool) (h : r < 2 ^ 62) :
    (r * 2 % 2 ^ 64 ||| if b = true then 1 else 0) = r * 2 + (if b then 1 else 0) := by
  rw [Nat.mod_eq_of_lt (by omega)]
  cases b
  · simp
  · have := Nat.two_pow_add_eq_or_of_lt (i := 1) (b := 1) (by omega) r
    simp only [if_true]
    rw [Nat.pow_one, Nat.mul_comm] at this
    exact this.symm

theorem get_step {ret k x : Nat} : (ret * 2 + (if x.testBit k then 1 else 0)) * 2 ^ k + x % 2 ^ k =
    ret * 2 ^ (k + 1) + x % 2 ^ (k + 1) := by
  rw [mod_succ x k, Nat.add_mul, Nat.pow_succ]
  have : ret * 2 * 2 ^ k = ret * (2 ^ k * 2) := by rw [Nat.mul_assoc, Nat.mul_comm 2]
  cases x.testBit k <;> simp <;> omega

theorem level_get {wm : WM} {k i : Nat} {cur : List Nat} (h : Holds wm.svv wm.offTbl (k + 1) i cur) {p : Nat}
    (hp : p < cur.length) : ∃ sv, at? wm.svv i = .ok sv ∧ SucVector.get sv p = .ok (cur[p].testBit k) := by
  obtain ⟨⟨sv, h1, h2⟩, _, _⟩ := h
  exact ⟨sv, at?_some h1, by rw [h2.get p (by simpa using hp)]; simp⟩

theorem ret_step {ret k : Nat} (b : Bool) (h : (ret + 1) * 2 ^ (k + 1) ≤ 2 ^ 62) :
    (ret * 2 + (if b then 1 else 0) + 1) * 2 ^ k ≤ 2 ^ 62 := by
  have : (ret * 2 + (if b then 1 else 0) + 1) * 2 ^ k ≤ (2 * (ret + 1)) * 2 ^ k :=
    Nat.mul_le_mul_right _ (by cases b <;> simp <;> omega)
  rw [Nat.pow_succ, Nat.mul_comm (2 ^ k), ← Nat.mul_assoc, Nat.mul_comm _ 2] at h
  omega

theorem ret_lt {ret k : Nat} (h : (ret + 1) * 2 ^ (k + 1) ≤ 2 ^ 62) : ret < 2 ^ 62 := by
  have : ret + 1 ≤ (ret + 1) * 2 ^ (k + 1) := Nat.le_mul_of_pos_right _ (Nat.two_pow_pos _)
  omega

theorem getLoop_eq {wm : WM} (k : Nat) : ∀ (i : Nat) (cur : List Nat) (ret p : Nat) (hp : p < cur.length),
    cur.length ≤ 2 ^ 32 → Holds wm.svv wm.offTbl (k + 1) i cur → (ret + 1) * 2 ^ (k + 1) ≤ 2 ^ 62 →
    getLoop wm (k + 1) i ret p = .ok (ret * 2 ^ (k + 1) + cur[p] % 2 ^ (k + 1)) := by
  induction k with
  | zero =>
    intro i cur ret p hp hn h hret
    obtain ⟨sv, h1, h2⟩ := level_get h hp
    rw [getLoop, h1, Res.ok_bind, h2, Res.ok_bind]
    simp only [if_true, Res.pure_eq]
    rw [or_bit _ (ret_lt hret), ← get_step]
    simp [Nat.mod_one]
  | succ k ih =>
    intro i cur ret p hp hn h hret
    obtain ⟨sv, h1, h2⟩ := level_get h hp
    have hpart := part_get (k := k + 1) hp
    obtain ⟨hlt, heq⟩ := List.getElem?_eq_some_iff.mp hpart
    rw [getLoop, h1, Res.ok_bind, h2, Res.ok_bind]
    simp only [show ¬ k + 1 = 0 by omega, if_false]
    rw [or_bit _ (ret_lt hret), down_eq hn h _ (by omega), Res.ok_bind,
      ih _ _ _ _ hlt (by rw [part_length]; exact hn) h.2.2 (ret_step _ hret), heq, get_step]

theorem get2Loop_eq {wm : WM} (k : Nat) : ∀ (i : Nat) (cur : List Nat) (ret p : Nat) (hp : p < cur.length),
    cur.length ≤ 2 ^ 32 → Holds wm.svv wm.offTbl k i cur → (ret + 1) * 2 ^ k ≤ 2 ^ 62 →
    get2Loop wm k i ret p = .ok (ret * 2 ^ k + cur[p] % 2 ^ k, walk k cur p cur[p]) := by
  induction k with
  | zero =>
    intro i cur ret p hp hn h hret
    simp [get2Loop, Nat.mod_one, walk]
  | succ k ih =>
    intro i cur ret p hp hn h hret
    obtain ⟨sv, h1, h2⟩ := level_get h hp
    have hpart := part_get (k := k) hp
    obtain ⟨hlt, heq⟩ := List.getElem?_eq_some_iff.mp hpart
    rw [get2Loop, h1, Res.ok_bind, h2, Res.ok_bind]
    simp only
    rw [or_bit _ (ret_lt hret), down_eq hn h _ (by omega), Res.ok_bind,
      ih _ _ _ _ hlt (by rw [part_length]; exact hn) h.2.2 (ret_step _ hret), heq, get_step, walk]

theorem Built.get {B : Nat} {l : List Nat} {wm : WM} (h : Built B l wm) (hn : l.length ≤ 2 ^ 32)
    (hB0 : 0 < B) (hB : B ≤ 16) (hl : ∀ x ∈ l, x < 2 ^ B) {p : Nat} (hp : p < l.length) :
    Wavelet.get wm p = .ok l[p] := by
  obtain ⟨k, rfl⟩ : ∃ k, B = k + 1 := ⟨B - 1, by omega⟩
  have h2 : 2 ^ (k + 1) ≤ 2 ^ 16 := Nat.pow_le_pow_right (by omega) hB
  rw [Wavelet.get, h.bits, getLoop_eq k 0 l 0 p hp hn h.holds (by omega),
    Nat.mod_eq_of_lt (hl _ (List.getElem_mem hp))]
  simp

theorem Built.get2 {B : Nat} {l : List Nat} {wm : WM} (h : Built B l wm) (hn : l.length < 2 ^ 32)
    (hB : B ≤ 16) (hl : ∀ x ∈ l, x < 2 ^ B) {p : Nat} (hp : p < l.length) :
    Wavelet.get2 wm p = .ok (l[p], countOf l l[p] p) := by
  have h2 : 2 ^ B ≤ 2 ^ 16 := Nat.pow_le_pow_right (by omega) hB
  have hx := hl _ (List.getElem_mem hp)
  have hr := h.rank hn hl hx p
  rw [Wavelet.rank, h.clamp, h.bits, rankLoop_eq B 0 l _ (by omega) h.holds (Nat.min_le_right _ _), Res.ok_bind,
    Nat.min_eq_left (by omega)] at hr
  rw [Wavelet.get2, h.clamp, h.bits, Nat.min_eq_left (by omega),
    get2Loop_eq B 0 l 0 p hp (by omega) h.holds (by omega), Res.ok_bind,
    Nat.mod_eq_of_lt hx]
  simp only [Nat.zero_mul, Nat.zero_add]
  rw [at?_some (h.frm _ hx), Res.ok_bind, Res.pure_eq] at hr ⊢
  simp only [Res.ok.injEq] at hr ⊢
  rw [hr]

/-- At or behind the size `svv[0].get` throws. -/
theorem Built.get_ge {B : Nat} {l : List Nat} {wm : WM} (h : Built B l wm) (hB0 : 0 < B)
    {p : Nat} (hp : l.length ≤ p) : Wavelet.get wm p = .throw ∧ Wavelet.get2 wm p = .throw := by
  obtain ⟨k, rfl⟩ : ∃ k, B = k + 1 := ⟨B - 1, by omega⟩
  obtain ⟨⟨sv, h1, h2⟩, _, _⟩ := h.holds
  have hg : ∀ q, l.length ≤ q → SucVector.get sv q = .throw := fun q hq => h2.get_ge q (by simpa using hq)
  constructor
  · rw [Wavelet.get, h.bits, getLoop, at?_some h1, Res.ok_bind, hg p hp, Res.throw_bind]
  · rw [Wavelet.get2, h.bits, get2Loop, at?_some h1, Res.ok_bind, h.clamp, Nat.min_eq_right hp,
      hg _ (Nat.le_refl _), Res.throw_bind, Res.throw_bind]

/-! ## init without select -/

theorem built_of_init {B : Nat} (hB : B ≤ 16) (l : List Nat) (hn : l.length ≤ 2 ^ 32)
    (hz : ∀ j, j < B → zeros j l < 2 ^ 32) (ws : Bool) (wm : WM) :
    ∃ wm1, Built B l wm1 ∧ wm1.selTbl = wm.selTbl ∧ init ws wm l B = initSel ws wm1 l := by
  have hoff : ∀ j, j < B → ((List.range B).map fun i => toSize (countZero l (B - 1 - i)))[0 + (B - 1 - j)]? =
      some (zeros j l) := by
    intro j hj
    have := hz j hj
    rw [List.getElem?_map, List.getElem?_range (by omega)]
    simp only [Option.map_some, countZero_eq, show B - 1 - (0 + (B - 1 - j)) = j by omega, toSize]
    rw [Nat.mod_eq_of_lt (by omega)]
  obtain ⟨svs, e1, e2, e3⟩ := levels_spec (n := l.length) (by omega)
    (old := vresize SucVector.empty wm.svv B) B 0 l (List.replicate l.length 0) rfl (by simp)
    (by rw [vresize_length]; omega) hoff
  have hH := e3 [] rfl
  rw [List.nil_append] at hH
  obtain ⟨t1, f1, f2, f3⟩ := initFromTbl_spec B 0 l (vresize 0 wm.fromTbl (2 ^ B)) 0 0 (by omega) hH (by omega)
    (by simp) (by rw [vresize_length]; omega)
  have hb : (B + 1) * l.length ≤ 17 * l.length := Nat.mul_le_mul_right _ (by omega)
  obtain ⟨t2, g1, g2, g3⟩ := initFromLtTbl_spec B 0 l (vresize 0 wm.fromLtTbl (2 ^ B)) 0 0 0 (by omega) hH
    (by omega) (by omega) (by simp) (by rw [vresize_length]; omega)
  refine ⟨⟨2 ^ B, B, l.length, svs, _, t1, t2, wm.selTbl⟩, ⟨rfl, rfl, rfl, hH, ?_, ?_, ?_, ?_⟩, rfl, ?_⟩
  · intro v hv; simp [f3, hv]
  · intro v hv; simp [g3, hv]
  · simp [f2, vresize_length]
  · simp [g2, vresize_length]
  · rw [init, if_neg (by omega), if_neg (by omega)]
    simp only [e1, f1, g1, Res.ok_bind]

end Verif.Wavelet
