import Verif.Model.WaveletC
import Verif.Spec.CSucVector
import Verif.Proof.WaveletSelect
import Verif.Props.CSucVector
set_option linter.unusedSimpArgs false

/-! Lemmas for C112: the wavelet matrix over compressed vectors.  The arithmetic of the descents
(`part`, `walk`, `walkLt`) is that of Proof/Wavelet. -/
namespace Verif.WaveletC
open Verif.BitVector (BV setAt? setAt?_ok)
open Verif.SucVector (sub64 sub64_eq rank_both)
open Verif.CSuc (CV)
open Verif.Spec.SucVector (rankOf)
open Verif.Spec.Wavelet
open Verif.Wavelet (toSize vresize getPos countZero levelLoop part zeros ones zeros_ones countP_part part_length
  mem_part countZero_eq level_spec stepPos stepPos_le walk walk_le walk_diff rank_true rank_false walkLt mod_half
  testBit_block zeros_take_len vresize_length agree agree_eq walkLt_diff walkLt_bound part_get or_bit get_step
  ret_step ret_lt at?_some)

/-- A level answers rank up to and including its size, and reads below it. -/
structure Full (s : CV) (l : List Bool) : Prop where
  rank1 : ∀ p, p ≤ l.length → CV.rank1 s p = .ok (rankOf l true p)
  get : ∀ p (h : p < l.length), CV.get s p = .ok l[p]
  get_ge : ∀ p, l.length ≤ p → CV.get s p = .throw

theorem init_blk (o : CV) (ho : o.blk = []) (buf : List (BitVec 64)) (n : Nat) :
    Verif.CSuc.init o buf n = Verif.CSuc.init CV.empty buf n := by
  rw [Verif.CSuc.init, Verif.CSuc.init, ho]; rfl

theorem full_of_init {o : CV} (ho : o.blk = []) {bv : BV 64} {l : List Bool} (h : BitVector.Rep bv l)
    (hl : l.length + 17408 ≤ 2 ^ 32) :
    ∃ sv, Verif.CSuc.init o bv.v bv.bitLen = .ok sv ∧ Full sv l := by
  obtain ⟨h1, h2, h3⟩ := h
  have hb : (l.length + 63) / 64 ≤ bv.v.length := by rw [h2]; omega
  have hbit : ∀ i, Verif.Spec.CSucVector.bufBit bv.v i = l.getD i false := fun i => h3 i
  have hbits : Verif.Spec.CSucVector.bufBits bv.v l.length = l := by
    apply BitVector.list_ext
    · simp [Verif.Spec.CSucVector.bufBits]
    · intro i
      by_cases hi : i < l.length
      · simp only [Verif.Spec.CSucVector.bufBits, List.getD_eq_getElem?_getD, List.getElem?_map,
          List.getElem?_range hi, Option.map_some, Option.getD_some, hbit]
      · rw [BitVector.getD_ge (by simp [Verif.Spec.CSucVector.bufBits]; omega), BitVector.getD_ge (by omega)]
  obtain ⟨c, c1, c2, c3, c4⟩ := Verif.Props.CSucVector.C18_get_rank1_partial bv.v l.length hb (by omega)
  obtain ⟨d, d1, d2, _⟩ := Verif.Props.CSucVector.C18_rank_end_partial bv.v l.length hb (by omega)
    (fun i g1 _ => by rw [hbit, BitVector.getD_ge g1])
  obtain rfl := Res.ok.inj (d1.symm.trans c1)
  rw [hbits] at d2 c4
  refine ⟨d, by rw [init_blk o ho, h1]; exact c1, fun p hp => ?_, fun p hp => ?_, c3⟩
  · by_cases hlt : p < l.length
    · exact c4 p hlt
    · have : p = l.length := by omega
      subst this
      exact d2 _ (Nat.le_refl _)
  · rw [c2 p hp, hbit, List.getD_eq_getElem?_getD, List.getElem?_eq_getElem hp]; rfl

theorem Full.rank {s : CV} {l : List Bool} (h : Full s l) (hl : l.length ≤ 2 ^ 32) (b : Bool) {p : Nat}
    (hp : p ≤ l.length) : cvRank s b p = .ok (rankOf l b p) := by
  cases b
  · simp only [cvRank, Bool.false_eq_true, if_false]
    rw [CV.rank0, h.rank1 p hp, Res.ok_bind, Res.pure_eq]
    have := rank_both l (p := p) (by omega)
    congr 1; omega
  · simp only [cvRank, if_true]; exact h.rank1 p hp

/-- What the finished levels `svv` with their offsets hold from level `i` on: the bits `k-1`, ..., 0 of
`cur` and of its successive partitions. -/
def Holds (svv : List CV) (offTbl : List Nat) : (k i : Nat) → List Nat → Prop
  | 0, _, _ => True
  | k + 1, i, cur => (∃ sv, svv[i]? = some sv ∧ Full sv (cur.map fun x => x.testBit k)) ∧
      offTbl[i]? = some (zeros k cur) ∧ Holds svv offTbl k (i + 1) (part k cur)

theorem levels_spec {n : Nat} (hn : n + 17408 ≤ 2 ^ 32) {offTbl : List Nat} {old : List CV} (k : Nat) :
    ∀ (i : Nat) (cur next : List Nat), cur.length = n → next.length = n → i + k ≤ old.length → (∀ o ∈ old, o.blk = []) →
    (∀ j, j < k → offTbl[i + (k - 1 - j)]? = some (zeros j cur)) →
    ∃ svs, levels n offTbl old k i cur next = .ok svs ∧ svs.length = k ∧
      ∀ pre, pre.length = i → Holds (pre ++ svs) offTbl k i cur := by
  induction k with
  | zero => intro i cur next _ _ _ _ _; exact ⟨[], rfl, rfl, fun _ _ => trivial⟩
  | succ k ih =>
    intro i cur next h1 h2 h3 ho2 h4
    obtain ⟨bv, b1, b2⟩ := BitVector.resize_rep (w := 64) (by omega) (st := BitVector.empty) (l := [])
      (by
        refine ⟨rfl, ?_, fun i => ?_⟩
        · simp [BitVector.empty]
        · simp [BitVector.empty, BitVector.bitAt, BitVector.wd]) (n := n) (by omega)
    have hb : Spec.BitVector.resize [] n = List.replicate n false := by simp [Spec.BitVector.resize]
    rw [hb] at b2
    have ho := h4 k (by omega)
    rw [show i + (k + 1 - 1 - k) = i by omega] at ho
    obtain ⟨s', e1, e2, e3⟩ := level_spec (k := k) cur next bv rfl h1 h2 b2
    obtain ⟨sv, f1, f2⟩ := full_of_init (ho2 _ (List.getElem_mem (by omega : i < old.length))) e2 (by simp; omega)
    have hrest : ∃ svs, levels n offTbl old k (i + 1) s'.next cur = .ok svs ∧ svs.length = k ∧
        ∀ pre, pre.length = i + 1 → Holds (pre ++ svs) offTbl k (i + 1) (part k cur) := by
      by_cases hk : k = 0
      · subst hk; exact ⟨[], rfl, rfl, fun _ _ => trivial⟩
      · rw [e3 hk]
        apply ih
        · rw [part_length]; exact h1
        · exact h1
        · omega
        · exact ho2
        · intro j hj
          rw [zeros, countP_part]
          have := h4 j (by omega)
          rw [show i + 1 + (k - 1 - j) = i + (k + 1 - 1 - j) by omega]; exact this
    obtain ⟨svs, r1, r2, r3⟩ := hrest
    refine ⟨sv :: svs, ?_, by simp [r2], fun pre hpre => ?_⟩
    · rw [levels, b1, Res.ok_bind, at?_some ho, Res.ok_bind, e1, Res.ok_bind, at?_eq_ok (by omega),
        Res.ok_bind, f1, Res.ok_bind, r1, Res.ok_bind, Res.pure_eq]
    · refine ⟨⟨sv, by simp [← hpre], f2⟩, ho, ?_⟩
      have := r3 (pre ++ [sv]) (by simp [hpre])
      simpa using this

theorem down_eq {wm : WM} {k i : Nat} {cur : List Nat} (hn : cur.length ≤ 2 ^ 32)
    (h : Holds wm.svv wm.offTbl (k + 1) i cur) (b : Bool) {p : Nat} (hp : p ≤ cur.length) :
    down wm i b p = .ok (stepPos k cur b p) := by
  obtain ⟨⟨sv, h1, h2⟩, h3, h4⟩ := h
  have hr := h2.rank1 p (by simpa using hp)
  rw [rank_true] at hr
  rw [down, at?_some h1, Res.ok_bind]
  cases b
  · simp only [Bool.false_eq_true, if_false, hr, Res.ok_bind, Res.pure_eq, stepPos]
    have := zeros_ones k (cur.take p)
    rw [List.length_take] at this
    rw [sub64_eq (by omega) (by omega)]
    congr 1; omega
  · simp only [if_true, at?_some h3, hr, Res.ok_bind, Res.pure_eq, stepPos]

theorem rankLoop_eq {wm : WM} {val : Nat} (k : Nat) : ∀ (i : Nat) (cur : List Nat) (p : Nat),
    cur.length ≤ 2 ^ 32 → Holds wm.svv wm.offTbl k i cur → p ≤ cur.length →
    rankLoop wm val k i p = .ok (walk k cur p val) := by
  induction k with
  | zero => intro i cur p _ _ _; rfl
  | succ k ih =>
    intro i cur p hn h hp
    rw [rankLoop, down_eq hn h _ hp, Res.ok_bind, walk]
    exact ih _ _ _ (by rw [part_length]; exact hn) h.2.2 (stepPos_le _ _ _ _)

theorem initFromTbl_spec {svv : List CV} {offTbl : List Nat} (k : Nat) :
    ∀ (i : Nat) (cur tbl : List Nat) (pos f : Nat), cur.length ≤ 2 ^ 32 → Holds svv offTbl k i cur →
    f ≤ cur.length → pos % 2 ^ k = 0 → pos + 2 ^ k ≤ tbl.length →
    ∃ tbl', initFromTbl svv offTbl k i tbl pos f = .ok tbl' ∧ tbl'.length = tbl.length ∧
      ∀ v, tbl'[v]? = if pos ≤ v ∧ v < pos + 2 ^ k then some (toSize (walk k cur f v)) else tbl[v]? := by
  induction k with
  | zero =>
    intro i cur tbl pos f _ _ _ _ hlen
    refine ⟨_, by rw [initFromTbl, setAt?_ok _ (by omega)], by simp, fun v => ?_⟩
    rw [List.getElem?_set]
    by_cases hv : pos = v
    · subst hv; simp [walk]; omega
    · rw [if_neg hv, if_neg (by omega)]
  | succ k ih =>
    intro i cur tbl pos f hn h hf hpos hlen
    have hw : ∀ v, walk (k + 1) cur f v = walk k (part k cur) (stepPos k cur (v.testBit k) f) v := fun _ => rfl
    have hh := mod_half hpos
    have hpow : 2 ^ (k + 1) = 2 ^ k + 2 ^ k := by omega
    obtain ⟨⟨sv, h1, h2⟩, h3, h4⟩ := h
    have hlen' : (cur.map fun x => x.testBit k).length ≤ 2 ^ 32 := by simpa using hn
    have r0 := h2.rank hlen' false (p := f) (by simpa using hf)
    have r1 := h2.rank hlen' true (p := f) (by simpa using hf)
    rw [rank_false] at r0
    rw [rank_true] at r1
    have hp : (part k cur).length ≤ 2 ^ 32 := by rw [part_length]; exact hn
    obtain ⟨t1, e1, l1, g1⟩ := ih (i + 1) (part k cur) tbl pos (stepPos k cur false f) hp h4
      (stepPos_le _ _ _ _) hh.1 (by omega)
    obtain ⟨t2, e2, l2, g2⟩ := ih (i + 1) (part k cur) t1 (pos + 2 ^ k) (stepPos k cur true f) hp h4
      (stepPos_le _ _ _ _) hh.2 (by omega)
    simp only [stepPos, Bool.false_eq_true, if_false, if_true] at e1 e2
    refine ⟨t2, ?_, by omega, fun v => ?_⟩
    · rw [initFromTbl, at?_some h1, Res.ok_bind, r0, Res.ok_bind, e1, Res.ok_bind, r1, Res.ok_bind,
        at?_some h3, Res.ok_bind, Nat.add_comm (ones _ _), e2]
    · rw [g2, g1]
      by_cases hc : pos ≤ v ∧ v < pos + 2 ^ (k + 1)
      · have hb := testBit_block hpos hc.1 hc.2
        rw [if_pos hc, hw, hb]
        by_cases hc2 : pos + 2 ^ k ≤ v
        · rw [if_pos ⟨hc2, by omega⟩]; simp [hc2]
        · rw [if_neg (by omega), if_pos (by omega)]; simp [hc2]
      · rw [if_neg hc, if_neg (by omega), if_neg (by omega)]

theorem initFromLtTbl_spec {svv : List CV} {offTbl : List Nat} (k : Nat) :
    ∀ (i : Nat) (cur tbl : List Nat) (pos f ret : Nat), cur.length ≤ 2 ^ 32 → Holds svv offTbl k i cur →
    f ≤ cur.length → ret + (k + 1) * cur.length < 2 ^ 63 → pos % 2 ^ k = 0 → pos + 2 ^ k ≤ tbl.length →
    ∃ tbl', initFromLtTbl svv offTbl k i tbl pos f ret = .ok tbl' ∧ tbl'.length = tbl.length ∧
      ∀ v, tbl'[v]? = if pos ≤ v ∧ v < pos + 2 ^ k then some (toSize (walkLt k cur ret f v)) else tbl[v]? := by
  induction k with
  | zero =>
    intro i cur tbl pos f ret _ _ _ _ _ hlen
    refine ⟨_, by rw [initFromLtTbl, setAt?_ok _ (by omega)], by simp, fun v => ?_⟩
    rw [List.getElem?_set]
    by_cases hv : pos = v
    · subst hv; simp [walkLt]; omega
    · rw [if_neg hv, if_neg (by omega)]
  | succ k ih =>
    intro i cur tbl pos f ret hn h hf hret hpos hlen
    have hw : ∀ v, walkLt (k + 1) cur ret f v = walkLt k (part k cur)
      (if v.testBit k then ret + zeros k (cur.take f) else ret) (stepPos k cur (v.testBit k) f) v := fun _ => rfl
    have hh := mod_half hpos
    have hpow : 2 ^ (k + 1) = 2 ^ k + 2 ^ k := by omega
    obtain ⟨⟨sv, h1, h2⟩, h3, h4⟩ := h
    have r1 := h2.rank1 f (by simpa using hf)
    rw [rank_true] at r1
    have hzo := zeros_take_len k cur hf
    have hp : (part k cur).length ≤ 2 ^ 32 := by rw [part_length]; exact hn
    rw [Nat.add_mul, Nat.one_mul] at hret
    obtain ⟨t1, e1, l1, g1⟩ := ih (i + 1) (part k cur) tbl pos (stepPos k cur false f) ret hp h4
      (stepPos_le _ _ _ _) (by rw [part_length]; omega) hh.1 (by omega)
    obtain ⟨t2, e2, l2, g2⟩ := ih (i + 1) (part k cur) t1 (pos + 2 ^ k) (stepPos k cur true f)
      (ret + zeros k (cur.take f)) hp h4
      (stepPos_le _ _ _ _) (by rw [part_length]; omega) hh.2 (by omega)
    simp only [stepPos, Bool.false_eq_true, if_false, if_true] at e1 e2
    refine ⟨t2, ?_, by omega, fun v => ?_⟩
    · rw [initFromLtTbl, at?_some h1, Res.ok_bind, r1, Res.ok_bind, sub64_eq (by omega) (by omega),
        show f - ones k (cur.take f) = zeros k (cur.take f) by omega, e1, Res.ok_bind,
        at?_some h3, Res.ok_bind, sub64_eq (by omega) (by omega),
        show ret + f - ones k (cur.take f) = ret + zeros k (cur.take f) by omega, e2]
    · rw [g2, g1]
      by_cases hc : pos ≤ v ∧ v < pos + 2 ^ (k + 1)
      · have hb := testBit_block hpos hc.1 hc.2
        rw [if_pos hc, hw, hb]
        by_cases hc2 : pos + 2 ^ k ≤ v
        · rw [if_pos ⟨hc2, by omega⟩]; simp [hc2]
        · rw [if_neg (by omega), if_pos (by omega)]; simp [hc2]
      · rw [if_neg hc, if_neg (by omega), if_neg (by omega)]

/-- Everything but the select table. -/
structure Built (B : Nat) (l : List Nat) (wm : WM) : Prop where
  maxVal : wm.maxVal = 2 ^ B
  bits : wm.valBitLen = B
  size : wm.size = l.length
  holds : Holds wm.svv wm.offTbl B 0 l
  frm : ∀ v, v < 2 ^ B → wm.fromTbl[v]? = some (toSize (walk B l 0 v))
  lt : ∀ v, v < 2 ^ B → wm.fromLtTbl[v]? = some (toSize (walkLt B l 0 0 v))
  frm_len : wm.fromTbl.length = 2 ^ B
  lt_len : wm.fromLtTbl.length = 2 ^ B

theorem Built.clamp {B : Nat} {l : List Nat} {wm : WM} (h : Built B l wm) (p : Nat) :
    WaveletC.clamp wm p = min p l.length := by
  rw [WaveletC.clamp, h.size]; split <;> omega

theorem Built.rank_gen {B : Nat} {l : List Nat} {wm : WM} (h : Built B l wm) (hn : l.length ≤ 2 ^ 32)
    (hl : ∀ x ∈ l, x < 2 ^ B) {v : Nat} (hv : v < 2 ^ B) (p : Nat) :
    WaveletC.rank wm v p = .ok (countOf l v p + (walk B l 0 v - toSize (walk B l 0 v))) := by
  have e : min p l.length ≤ l.length := Nat.min_le_right _ _
  rw [WaveletC.rank, h.clamp, h.bits, rankLoop_eq B 0 l _ (by omega) h.holds e, Res.ok_bind,
    at?_some (h.frm v hv), Res.ok_bind, Res.pure_eq]
  have h1 := walk_diff B l (min p l.length) 0 v (l.take p) e (by omega) (by simp [List.take_take])
  have h2 := walk_le B l (min p l.length) v e
  have h3 : toSize (walk B l 0 v) ≤ walk B l 0 v := Nat.mod_le _ _
  rw [agree_eq hv (fun x hx => hl x (List.mem_of_mem_take hx))] at h1
  rw [h1, sub64_eq (by omega) (by omega), countOf]
  congr 1; omega

theorem Built.rank {B : Nat} {l : List Nat} {wm : WM} (h : Built B l wm) (hn : l.length < 2 ^ 32)
    (hl : ∀ x ∈ l, x < 2 ^ B) {v : Nat} (hv : v < 2 ^ B) (p : Nat) :
    WaveletC.rank wm v p = .ok (countOf l v p) := by
  have h2 := walk_le B l 0 v (by omega)
  rw [h.rank_gen (by omega) hl hv, toSize, Nat.mod_eq_of_lt (by omega), Nat.sub_self, Nat.add_zero]

theorem rankLtLoop_eq {wm : WM} {val : Nat} (k : Nat) : ∀ (i : Nat) (cur : List Nat) (ret p : Nat),
    cur.length ≤ 2 ^ 32 → Holds wm.svv wm.offTbl k i cur → p ≤ cur.length →
    rankLtLoop wm val k i ret p = .ok (walkLt k cur ret p val) := by
  induction k with
  | zero => intro i cur ret p _ _ _; rfl
  | succ k ih =>
    intro i cur ret p hn h hp
    have h4 := h.2.2
    obtain ⟨⟨sv, h1, h2⟩, h3, _⟩ := h
    have hzo := zeros_take_len k cur hp
    have hr := h2.rank1 p (by simpa using hp)
    rw [rank_true] at hr
    have hd : downLt wm i (getPos val k) ret p = .ok
        (if val.testBit k then ret + zeros k (cur.take p) else ret, stepPos k cur (val.testBit k) p) := by
      rw [downLt, at?_some h1, Res.ok_bind, hr, Res.ok_bind, getPos]
      cases hb : val.testBit k
      · simp only [Bool.false_eq_true, if_false, Res.pure_eq, stepPos]
        rw [sub64_eq (by omega) (by omega)]
        congr 2; omega
      · simp only [if_true, at?_some h3, Res.ok_bind, Res.pure_eq, stepPos]
        rw [sub64_eq (by omega) (by omega)]
        congr 3; omega
    rw [rankLtLoop, hd, Res.ok_bind, walkLt]
    exact ih _ _ _ _ (by rw [part_length]; exact hn) h4 (stepPos_le _ _ _ _)

theorem Built.rankLt_gen {B : Nat} {l : List Nat} {wm : WM} (h : Built B l wm) (hn : l.length < 2 ^ 32)
    (hB : B ≤ 16) (hl : ∀ x ∈ l, x < 2 ^ B) {v : Nat} (hv : v < 2 ^ B) (p : Nat) :
    WaveletC.rankLt wm v p =
      .ok (countLt l v p + (walkLt B l 0 0 v - toSize (walkLt B l 0 0 v))) := by
  have e : min p l.length ≤ l.length := Nat.min_le_right _ _
  rw [WaveletC.rankLt, h.clamp, h.bits, rankLtLoop_eq B 0 l _ _ (by omega) h.holds e, Res.ok_bind,
    at?_some (h.lt v hv), Res.ok_bind, Res.pure_eq]
  have h1 := walkLt_diff B l (min p l.length) 0 v 0 0 (l.take p) e (by omega) (by simp [List.take_take])
  have h2 := walkLt_bound B l 0 (min p l.length) v e
  have h3 : toSize (walkLt B l 0 0 v) ≤ walkLt B l 0 0 v := Nat.mod_le _ _
  have hc : (l.take p).countP (fun x => decide (x % 2 ^ B < v % 2 ^ B)) = countLt l v p := by
    rw [countLt]
    apply List.countP_congr
    intro x hx
    rw [Nat.mod_eq_of_lt hv, Nat.mod_eq_of_lt (hl x (List.mem_of_mem_take hx))]
  rw [hc] at h1
  have h4 : B * l.length ≤ 16 * l.length := Nat.mul_le_mul_right _ hB
  rw [sub64_eq (by omega) (by omega)]
  congr 1; omega

theorem level_get {wm : WM} {k i : Nat} {cur : List Nat} (h : Holds wm.svv wm.offTbl (k + 1) i cur) {p : Nat}
    (hp : p < cur.length) : ∃ sv, at? wm.svv i = .ok sv ∧ CV.get sv p = .ok (cur[p].testBit k) := by
  obtain ⟨⟨sv, h1, h2⟩, _, _⟩ := h
  exact ⟨sv, at?_some h1, by rw [h2.get p (by simpa using hp)]; simp⟩

theorem getLoop_eq {wm : WM} (k : Nat) : ∀ (i : Nat) (cur : List Nat) (ret p : Nat) (hp : p < cur.length),
    cur.length ≤ 2 ^ 32 → Holds wm.svv wm.offTbl (k + 1) i cur → (ret + 1) * 2 ^ (k + 1) ≤ 2 ^ 62 →
    getLoop wm (k + 1) i ret p = .ok (ret * 2 ^ (k + 1) + cur[p] % 2 ^ (k + 1)) := by
  induction k with
  | zero =>
    intro i cur ret p hp hn h hret
    obtain ⟨sv, h1, h2⟩ := level_get h hp
    rw [getLoop, h1, Res.ok_bind, h2, Res.ok_bind]
    simp only [if_true, Res.pure_eq]
    rw [or_bit _ (ret_lt hret), ← get_step]
    simp [Nat.mod_one]
  | succ k ih =>
    intro i cur ret p hp hn h hret
    obtain ⟨sv, h1, h2⟩ := level_get h hp
    have hpart := part_get (k := k + 1) hp
    obtain ⟨hlt, heq⟩ := List.getElem?_eq_some_iff.mp hpart
    rw [getLoop, h1, Res.ok_bind, h2, Res.ok_bind]
    simp only [show ¬ k + 1 = 0 by omega, if_false]
    rw [or_bit _ (ret_lt hret), down_eq hn h _ (by omega), Res.ok_bind,
      ih _ _ _ _ hlt (by rw [part_length]; exact hn) h.2.2 (ret_step _ hret), heq, get_step]

theorem get2Loop_eq {wm : WM} (k : Nat) : ∀ (i : Nat) (cur : List Nat) (ret p : Nat) (hp : p < cur.length),
    cur.length ≤ 2 ^ 32 → Holds wm.svv wm.offTbl k i cur → (ret + 1) * 2 ^ k ≤ 2 ^ 62 →
    get2Loop wm k i ret p = .ok (ret * 2 ^ k + cur[p] % 2 ^ k, walk k cur p cur[p]) := by
  induction k with
  | zero =>
    intro i cur ret p hp hn h hret
    simp [get2Loop, Nat.mod_one, walk]
  | succ k ih =>
    intro i cur ret p hp hn h hret
    obtain ⟨sv, h1, h2⟩ := level_get h hp
    have hpart := part_get (k := k) hp
    obtain ⟨hlt, heq⟩ := List.getElem?_eq_some_iff.mp hpart
    rw [get2Loop, h1, Res.ok_bind, h2, Res.ok_bind]
    simp only
    rw [or_bit _ (ret_lt hret), down_eq hn h _ (by omega), Res.ok_bind,
      ih _ _ _ _ hlt (by rw [part_length]; exact hn) h.2.2 (ret_step _ hret), heq, get_step, walk]

theorem Built.get {B : Nat} {l : List Nat} {wm : WM} (h : Built B l wm) (hn : l.length ≤ 2 ^ 32)
    (hB0 : 0 < B) (hB : B ≤ 16) (hl : ∀ x ∈ l, x < 2 ^ B) {p : Nat} (hp : p < l.length) :
    WaveletC.get wm p = .ok l[p] := by
  obtain ⟨k, rfl⟩ : ∃ k, B = k + 1 := ⟨B - 1, by omega⟩
  have h2 : 2 ^ (k + 1) ≤ 2 ^ 16 := Nat.pow_le_pow_right (by omega) hB
  rw [WaveletC.get, h.bits, getLoop_eq k 0 l 0 p hp hn h.holds (by omega),
    Nat.mod_eq_of_lt (hl _ (List.getElem_mem hp))]
  simp

theorem Built.get2 {B : Nat} {l : List Nat} {wm : WM} (h : Built B l wm) (hn : l.length < 2 ^ 32)
    (hB : B ≤ 16) (hl : ∀ x ∈ l, x < 2 ^ B) {p : Nat} (hp : p < l.length) :
    WaveletC.get2 wm p = .ok (l[p], countOf l l[p] p) := by
  have h2 : 2 ^ B ≤ 2 ^ 16 := Nat.pow_le_pow_right (by omega) hB
  have hx := hl _ (List.getElem_mem hp)
  have hr := h.rank hn hl hx p
  rw [WaveletC.rank, h.clamp, h.bits, rankLoop_eq B 0 l _ (by omega) h.holds (Nat.min_le_right _ _), Res.ok_bind,
    Nat.min_eq_left (by omega)] at hr
  rw [WaveletC.get2, h.clamp, h.bits, Nat.min_eq_left (by omega),
    get2Loop_eq B 0 l 0 p hp (by omega) h.holds (by omega), Res.ok_bind,
    Nat.mod_eq_of_lt hx]
  simp only [Nat.zero_mul, Nat.zero_add]
  rw [at?_some (h.frm _ hx), Res.ok_bind, Res.pure_eq] at hr ⊢
  simp only [Res.ok.injEq] at hr ⊢
  rw [hr]

/-- At or behind the size `svv[0].get` throws. -/
theorem Built.get_ge {B : Nat} {l : List Nat} {wm : WM} (h : Built B l wm) (hB0 : 0 < B)
    {p : Nat} (hp : l.length ≤ p) : WaveletC.get wm p = .throw ∧ WaveletC.get2 wm p = .throw := by
  obtain ⟨k, rfl⟩ : ∃ k, B = k + 1 := ⟨B - 1, by omega⟩
  obtain ⟨⟨sv, h1, h2⟩, _, _⟩ := h.holds
  have hg : ∀ q, l.length ≤ q → CV.get sv q = .throw := fun q hq => h2.get_ge q (by simpa using hq)
  constructor
  · rw [WaveletC.get, h.bits, getLoop, at?_some h1, Res.ok_bind, hg p hp, Res.throw_bind]
  · rw [WaveletC.get2, h.bits, get2Loop, at?_some h1, Res.ok_bind, h.clamp, Nat.min_eq_right hp,
      hg _ (Nat.le_refl _), Res.throw_bind, Res.throw_bind]

theorem built_of_init {B : Nat} (hB : B ≤ 16) (l : List Nat) (hn : l.length + 17408 ≤ 2 ^ 32)
    (wm : WM) (hwm : ∀ o ∈ wm.svv, o.blk = []) :
    ∃ wm1, init wm l B = .ok wm1 ∧ Built B l wm1 := by
  have hoff : ∀ j, j < B → ((List.range B).map fun i => toSize (countZero l (B - 1 - i)))[0 + (B - 1 - j)]? =
      some (zeros j l) := by
    intro j hj
    have : zeros j l < 2 ^ 32 := by
      have := zeros_ones j l; omega
    rw [List.getElem?_map, List.getElem?_range (by omega)]
    simp only [Option.map_some, countZero_eq, show B - 1 - (0 + (B - 1 - j)) = j by omega, toSize]
    rw [Nat.mod_eq_of_lt (by omega)]
  obtain ⟨svs, e1, e2, e3⟩ := levels_spec (n := l.length) (by omega)
    (old := vresize CV.empty wm.svv B) B 0 l (List.replicate l.length 0) rfl (by simp)
    (by rw [vresize_length]; omega) (fun o ho => by
      simp only [vresize, List.mem_append] at ho
      rcases ho with ho | ho
      · exact hwm o (List.mem_of_mem_take ho)
      · rw [List.eq_of_mem_replicate ho]; rfl) hoff
  have hH := e3 [] rfl
  rw [List.nil_append] at hH
  obtain ⟨t1, f1, f2, f3⟩ := initFromTbl_spec B 0 l (vresize 0 wm.fromTbl (2 ^ B)) 0 0 (by omega) hH (by omega)
    (by simp) (by rw [vresize_length]; omega)
  have hb : (B + 1) * l.length ≤ 17 * l.length := Nat.mul_le_mul_right _ (by omega)
  obtain ⟨t2, g1, g2, g3⟩ := initFromLtTbl_spec B 0 l (vresize 0 wm.fromLtTbl (2 ^ B)) 0 0 0 (by omega) hH
    (by omega) (by omega) (by simp) (by rw [vresize_length]; omega)
  refine ⟨⟨2 ^ B, B, l.length, svs, _, t1, t2⟩, ?_, ⟨rfl, rfl, rfl, hH, ?_, ?_, ?_, ?_⟩⟩
  · rw [init, if_neg (by omega), if_neg (by omega)]
    simp only [e1, f1, g1, Res.ok_bind, Res.pure_eq]
  · intro v hv; simp [f3, hv]
  · intro v hv; simp [g3, hv]
  · simp [f2, vresize_length]
  · simp [g2, vresize_length]

end Verif.WaveletC
