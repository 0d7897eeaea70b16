import Verif.Model.Frequency
import Verif.Spec.Frequency
import Verif.Proof.BitVector
import Mathlib.Data.List.Perm.Subperm
set_option linter.unusedSimpArgs false

/-! Lemmas for C32. -/
namespace Verif

/-- If `q` holds for an initial part only, that part is what a filter keeps. -/
theorem take_countP {α : Type} {q : α → Bool} {L : List α}
    (h : L.Pairwise fun a b => q b = true → q a = true) : L.take (L.countP q) = L.filter q := by
  induction L with
  | nil => rfl
  | cons x xs ih =>
    rw [List.pairwise_cons] at h
    by_cases hx : q x = true
    · rw [List.countP_cons_of_pos hx, List.take_succ_cons, ih h.2, List.filter_cons_of_pos hx]
    · have hn : ∀ y ∈ xs, ¬ q y = true := fun y hy hq => hx (h.1 y hy hq)
      rw [List.countP_cons_of_neg hx, List.filter_cons_of_neg hx, List.countP_eq_zero.mpr hn,
        List.filter_eq_nil_iff.mpr hn, List.take_zero]

theorem lt_countP_iff {α : Type} {q : α → Bool} {L : List α}
    (h : L.Pairwise fun a b => q b = true → q a = true) {i : Nat} (hi : i < L.length) :
    i < L.countP q ↔ q L[i] = true := by
  have ht := take_countP h
  constructor
  · intro hlt
    have hlen : i < (L.take (L.countP q)).length := by simp; omega
    have hm : (L.take (L.countP q))[i] ∈ L.filter q := by rw [← ht]; exact List.getElem_mem _
    rw [List.getElem_take] at hm
    exact (List.mem_filter.mp hm).2
  · intro hq
    apply Nat.lt_of_not_le
    intro hle
    -- the element is behind the prefix, but the prefix holds all hits
    have hsplit : L.countP q = (L.take (L.countP q)).countP q + (L.drop (L.countP q)).countP q := by
      rw [← List.countP_append, List.take_append_drop]
    have h1 : (L.take (L.countP q)).countP q = L.countP q := by
      rw [ht, List.countP_filter]
      simp
    have h2 : 0 < (L.drop (L.countP q)).countP q := by
      rw [List.countP_pos_iff]
      refine ⟨L[i], ?_, hq⟩
      rw [List.mem_iff_getElem]
      exact ⟨i - L.countP q, by simp; omega, by rw [List.getElem_drop]; congr 1; omega⟩
    omega

namespace Frequency
open Verif.BitVector (setAt? setAt?_ok)
open Verif.Spec.Frequency

/-! ## One-byte elements -/

/-- Counts after appending. -/
structure Counts (iw : Nat) (l : List Nat) (st : FV) : Prop where
  len : st.freqTbl.length = 256
  val : ∀ e, e < 256 → st.freqTbl[e]? = some (l.count e % 2 ^ iw)

theorem counts_clear (iw : Nat) (a b : List Nat) : Counts iw [] (FV.clear a b) := by
  refine ⟨List.length_replicate, fun e he => ?_⟩
  rw [FV.clear, List.getElem?_replicate, if_pos he]
  simp

theorem at?_of_some {α : Type} {l : List α} {i : Nat} {a : α} (h : l[i]? = some a) : at? l i = .ok a := by
  simp [at?, h]

theorem append_counts {iw : Nat} {l : List Nat} {st : FV} (h : Counts iw l st) {e : Nat} (he : e < 256) :
    ∃ st', st.append iw e = .ok st' ∧ Counts iw (l ++ [e]) st' ∧ st'.char2idx = st.char2idx := by
  refine ⟨{ st with freqTbl := st.freqTbl.set e ((l.count e % 2 ^ iw + 1) % 2 ^ iw) }, ?_, ⟨by simp [h.len], ?_⟩, rfl⟩
  · rw [FV.append, at?_of_some (h.val e he), Res.ok_bind, setAt?_ok _ (by rw [h.len]; omega), Res.ok_bind,
      Res.pure_eq]
  · intro x hx
    simp only [List.getElem?_set]
    by_cases hex : e = x
    · subst hex
      simp [h.len, he, List.count_append]
    · rw [if_neg hex, h.val x hx, List.count_append, List.count_singleton]
      simp [hex]

theorem appendAll_counts {iw : Nat} (es : List Nat) : ∀ (l : List Nat) (st : FV), Counts iw l st →
    (∀ e ∈ es, e < 256) → ∃ st', FV.appendAll iw es st = .ok st' ∧ Counts iw (l ++ es) st' ∧
      st'.char2idx = st.char2idx := by
  induction es with
  | nil => intro l st h _; exact ⟨st, rfl, by simpa using h, rfl⟩
  | cons e es ih =>
    intro l st h he
    obtain ⟨s1, a1, a2, a3⟩ := append_counts h (he e (by simp))
    obtain ⟨s2, b1, b2, b3⟩ := ih _ s1 a2 (fun x hx => he x (by simp [hx]))
    refine ⟨s2, ?_, by simpa using b2, by rw [b3, a3]⟩
    rw [FV.appendAll, a1, Res.ok_bind, b1]

theorem readyLoop_spec {tbl : List Nat} (htbl : tbl.length = 256) (cs : List Nat) :
    ∀ (i size : Nat) (c2i : List Nat), c2i.length = 256 → (∀ c ∈ cs, c < 256) → cs.Nodup → i + cs.length ≤ 256 →
    ∃ c2i', FV.readyLoop tbl cs i size c2i =
        .ok (size + cs.countP (fun c => decide (tbl.getD c 0 ≠ 0)), c2i') ∧ c2i'.length = 256 ∧
      (∀ j (h : j < cs.length), c2i'[cs[j]]? = some (i + j)) ∧ (∀ c, c ∉ cs → c2i'[c]? = c2i[c]?) := by
  induction cs with
  | nil => intro i size c2i h _ _ _; exact ⟨c2i, rfl, h, by simp, by simp⟩
  | cons c cs ih =>
    intro i size c2i hlen hlt hnd hle
    have hc := hlt c (by simp)
    rw [List.nodup_cons] at hnd
    rw [List.length_cons] at hle
    obtain ⟨c2i', e1, e2, e3, e4⟩ := ih (i + 1) (if tbl[c]'(by omega) ≠ 0 then size + 1 else size) (c2i.set c i) (by simp [hlen])
      (fun x hx => hlt x (by simp [hx])) hnd.2 (by omega)
    have hmod : i % 256 = i := Nat.mod_eq_of_lt (by omega)
    refine ⟨c2i', ?_, e2, ?_, ?_⟩
    · rw [FV.readyLoop, hmod, setAt?_ok _ (by omega), Res.ok_bind, at?_eq_ok (by omega), Res.ok_bind, e1,
        List.countP_cons]
      have : tbl.getD c 0 = tbl[c]'(by omega) := List.getD_eq_getElem _ _ (by omega)
      rw [this]
      congr 2
      by_cases h0 : tbl[c]'(by omega) = 0 <;> simp [h0] <;> omega
    · intro j hj
      cases j with
      | zero => rw [List.getElem_cons_zero, e4 c hnd.1, List.getElem?_set_self (by omega)]; rfl
      | succ j => rw [List.getElem_cons_succ, e3 j (by simpa using hj)]; congr 1; omega
    · intro x hx
      simp only [List.mem_cons, not_or] at hx
      rw [e4 x hx.2, List.getElem?_set_ne (by omega)]

theorem FV.init_ranks {iw : Nat} {l : List Nat} (hl : ∀ e ∈ l, e < 256) (hcnt : l.length < 2 ^ iw)
    {a b : List Nat} (ha : a.length = 256) {order : List Nat}
    (ho : SortOutcome (fun e => l.count e) (List.range 256) order) :
    ∃ st, FV.init iw (FV.clear a b) l order = .ok st ∧
      Ranks l (fun e => e < 256) st.size st.getFrequency st.getIndex st.getElement ∧
      (∀ e, e < 256 → ∃ i, i < 256 ∧ st.getIndex e = .ok i ∧ st.getElement i = .ok e) ∧
      (∀ i, i < 256 → ∃ e, e < 256 ∧ st.getElement i = .ok e ∧ st.getIndex e = .ok i) ∧ st.size ≤ 256 ∧
      (∀ i, i < 256 → (i < st.size ↔ ∃ e ∈ l, st.getElement i = .ok e)) := by
  obtain ⟨s1, e1, e2, e3⟩ := appendAll_counts l [] _ (counts_clear iw a b) hl
  rw [List.nil_append] at e2
  have hcount : ∀ e, e < 256 → s1.freqTbl[e]? = some (l.count e) := by
    intro e he
    have := List.count_le_length (a := e) (l := l)
    rw [e2.val e he, Nat.mod_eq_of_lt (by omega)]
  have hgetD : ∀ e, e < 256 → s1.freqTbl.getD e 0 = l.count e := by
    intro e he; rw [List.getD_eq_getElem?_getD, hcount e he]; rfl
  have holen : order.length = 256 := by rw [ho.perm.length_eq, List.length_range]
  have homem : ∀ c, c ∈ order ↔ c < 256 := fun c => by rw [ho.perm.mem_iff, List.mem_range]
  have hond : order.Nodup := ho.perm.nodup_iff.mpr List.nodup_range
  obtain ⟨c2i, f1, f2, f3, f4⟩ := readyLoop_spec e2.len order 0 0 s1.char2idx (by rw [e3]; exact ha)
    (fun c hc => (homem c).mp hc) hond (by omega)
  have hq : order.Pairwise fun x y => decide (s1.freqTbl.getD y 0 ≠ 0) = true →
      decide (s1.freqTbl.getD x 0 ≠ 0) = true := by
    apply ho.sorted.imp_of_mem
    intro x y hx hy hxy
    rw [hgetD x ((homem x).mp hx), hgetD y ((homem y).mp hy)]
    simp only [decide_eq_true_eq] at *
    omega
  have hsize : ∀ i (hi : i < order.length),
      i < order.countP (fun c => decide (s1.freqTbl.getD c 0 ≠ 0)) ↔ order[i] ∈ l := by
    intro i hi
    rw [lt_countP_iff hq hi, hgetD _ ((homem _).mp (List.getElem_mem hi)), decide_eq_true_eq]
    rw [← List.count_pos_iff]
    omega
  have hsz : order.countP (fun c => decide (s1.freqTbl.getD c 0 ≠ 0)) ≤ 256 := by
    rw [← holen]; exact List.countP_le_length
  have hidx : ∀ e, e < 256 → ∃ i, ∃ h : i < order.length, order[i] = e ∧ c2i[e]? = some i := by
    intro e he
    obtain ⟨i, hi, hie⟩ := List.mem_iff_getElem.mp ((homem e).mpr he)
    exact ⟨i, hi, hie, by rw [← hie, f3 i hi, Nat.zero_add]⟩
  refine ⟨⟨order.countP (fun c => decide (s1.freqTbl.getD c 0 ≠ 0)), s1.freqTbl, c2i, order⟩, ?_, ?_, ?_, ?_, hsz, ?_⟩
  · rw [FV.init, e1, Res.ok_bind, FV.ready, f1, Res.ok_bind]
    simp only [Res.pure_eq, Nat.zero_add]
  · refine ⟨fun e he => at?_of_some (hcount e he), ?_, ?_, ?_⟩
    · intro e he
      obtain ⟨i, hi, h1, h2⟩ := hidx e (hl e he)
      exact ⟨i, (hsize i hi).mpr (by rw [h1]; exact he), at?_of_some h2, by
        rw [FV.getElement]; simp only; rw [at?_eq_ok hi, h1]⟩
    · intro i hi
      have hi' : i < order.length := by simp only at hi; omega
      refine ⟨order[i], (hsize i hi').mp hi, at?_eq_ok hi', at?_of_some ?_⟩
      rw [f3 i hi', Nat.zero_add]
    · intro i j e f hij hj h1 h2
      have hj' : j < order.length := by simp only at hj; omega
      simp only [FV.getElement, at?_eq_ok hj', at?_eq_ok (show i < order.length by omega), Res.ok.injEq] at h1 h2
      subst h1; subst h2
      by_cases hlt : i < j
      · have := List.pairwise_iff_getElem.mp ho.sorted i j (by omega) hj' hlt
        omega
      · have : i = j := by omega
        subst this; exact Nat.le_refl _
  · intro e he
    obtain ⟨i, hi, h1, h2⟩ := hidx e he
    exact ⟨i, by omega, at?_of_some h2, by rw [FV.getElement]; simp only; rw [at?_eq_ok hi, h1]⟩
  · intro i hi
    have hi' : i < order.length := by omega
    refine ⟨order[i], (homem _).mp (List.getElem_mem hi'), at?_eq_ok hi', at?_of_some ?_⟩
    rw [f3 i hi', Nat.zero_add]
  · intro i hi
    have hi' : i < order.length := by omega
    simp only [FV.getElement, at?_eq_ok hi', Res.ok.injEq, hsize i hi']
    constructor
    · intro h; exact ⟨_, h, rfl⟩
    · rintro ⟨e, h1, h2⟩; rw [h2]; exact h1

/-! ## General elements -/

theorem find_bump (iw e : Nat) (m : List Ent) (x : Nat) :
    find (bump iw e m) x = if x = e then some (match find m e with
      | some y => { y with freq := (y.freq + 1) % 2 ^ iw }
      | none => ⟨e, 1 % 2 ^ iw, 0⟩) else find m x := by
  induction m with
  | nil =>
    simp only [bump, find, List.find?_cons, List.find?_nil]
    by_cases h : e = x
    · subst h; simp
    · have : ¬ x = e := fun h' => h h'.symm
      simp only [show (e == x) = false by simpa using h, if_neg this]
  | cons y m ih =>
    simp only [bump]
    by_cases hy : y.key = e
    · subst hy
      simp only [if_true]
      by_cases hx : y.key = x
      · subst hx; simp [find]
      · have hx' : ¬ x = y.key := fun h' => hx h'.symm
        simp [find, hx, hx']
    · simp only [if_neg hy]
      simp only [find, List.find?_cons] at ih ⊢
      by_cases hx : y.key = x
      · subst hx
        simp [hy]
      · simp only [show (y.key == x) = false by simpa using hx, show (y.key == e) = false by simpa using hy, ih]

theorem keys_bump (iw e : Nat) (m : List Ent) :
    (bump iw e m).map Ent.key = if e ∈ m.map Ent.key then m.map Ent.key else m.map Ent.key ++ [e] := by
  induction m with
  | nil => simp [bump]
  | cons y m ih =>
    simp only [bump]
    by_cases hy : y.key = e
    · simp [hy]
    · rw [if_neg hy, List.map_cons, ih, List.map_cons]
      have hy' : ¬ e = y.key := fun h => hy h.symm
      by_cases hm : e ∈ m.map Ent.key <;> simp [hm, hy, hy']

theorem find_none_iff (m : List Ent) (e : Nat) : find m e = none ↔ e ∉ m.map Ent.key := by
  simp only [find, List.find?_eq_none, List.mem_map, not_exists, not_and, beq_iff_eq]

theorem freqOf_bump (iw e : Nat) (m : List Ent) (x : Nat) :
    freqOf (bump iw e m) x = if x = e then (freqOf m e + 1) % 2 ^ iw else freqOf m x := by
  rw [freqOf, find_bump]
  by_cases hx : x = e
  · simp only [if_pos hx, freqOf]
    cases find m e <;> simp
  · simp only [if_neg hx, freqOf]

structure CountsG (iw : Nat) (l : List Nat) (st : FG) : Prop where
  val : ∀ e, freqOf st.m e = l.count e % 2 ^ iw
  keys : ∀ e, e ∈ st.m.map Ent.key ↔ e ∈ l
  nodup : (st.m.map Ent.key).Nodup

theorem appendG_counts {iw : Nat} {l : List Nat} {st : FG} (h : CountsG iw l st) (e : Nat) :
    CountsG iw (l ++ [e]) (st.append iw e) := by
  obtain ⟨h1, h2, h3⟩ := h
  refine ⟨fun x => ?_, fun x => ?_, ?_⟩
  · rw [FG.append, freqOf_bump, h1, h1, List.count_append, List.count_singleton]
    by_cases hx : x = e
    · subst hx; simp
    · have : ¬ e = x := fun h => hx h.symm
      simp [hx, this]
  · rw [FG.append, keys_bump]
    by_cases hm : e ∈ st.m.map Ent.key
    · rw [if_pos hm, h2]
      have := (h2 e).mp hm
      simp only [List.mem_append, List.mem_singleton]
      constructor
      · exact Or.inl
      · rintro (h | rfl)
        · exact h
        · exact this
    · rw [if_neg hm]; simp only [List.mem_append, List.mem_singleton, h2]
  · rw [FG.append, keys_bump]
    by_cases hm : e ∈ st.m.map Ent.key
    · rw [if_pos hm]; exact h3
    · rw [if_neg hm, List.nodup_append]
      refine ⟨h3, by simp, ?_⟩
      intro a ha b hb hab
      rw [List.mem_singleton] at hb
      subst hb; subst hab; exact hm ha

theorem appendAllG_counts {iw : Nat} (es : List Nat) : ∀ (l : List Nat) (st : FG), CountsG iw l st →
    CountsG iw (l ++ es) (st.appendAll iw es) := by
  induction es with
  | nil => intro l st h; simpa [FG.appendAll] using h
  | cons e es ih =>
    intro l st h
    have := ih _ _ (appendG_counts h e)
    simpa [FG.appendAll] using this

theorem find_setIdx (e i : Nat) (m : List Ent) (x : Nat) :
    find (setIdx e i m) x = if x = e then (find m x).map (fun y => { y with idx := i }) else find m x := by
  induction m with
  | nil => simp [setIdx, find]
  | cons y m ih =>
    simp only [setIdx]
    by_cases hy : y.key = e
    · subst hy
      simp only [if_true]
      by_cases hx : y.key = x
      · subst hx; simp [find]
      · have hx' : ¬ x = y.key := fun h' => hx h'.symm
        simp [find, hx, hx']
    · simp only [if_neg hy]
      simp only [find, List.find?_cons] at ih ⊢
      by_cases hx : y.key = x
      · subst hx; simp [hy]
      · simp only [show (y.key == x) = false by simpa using hx, ih]

theorem readyLoopG_spec {iw : Nat} (es : List Nat) : ∀ (i : Nat) (m : List Ent), es.Nodup →
    i + es.length ≤ 2 ^ iw →
    (∀ e, e ∉ es → find (FG.readyLoop iw es i m) e = find m e) ∧
    (∀ j (h : j < es.length), find (FG.readyLoop iw es i m) es[j] =
      (find m es[j]).map fun y => { y with idx := i + j }) := by
  induction es with
  | nil => intro i m _ _; exact ⟨fun e _ => rfl, by simp⟩
  | cons e es ih =>
    intro i m hnd hle
    rw [List.nodup_cons] at hnd
    rw [List.length_cons] at hle
    obtain ⟨h1, h2⟩ := ih (i + 1) (setIdx e (i % 2 ^ iw) m) hnd.2 (by omega)
    have hmod : i % 2 ^ iw = i := Nat.mod_eq_of_lt (by omega)
    rw [hmod] at h1 h2
    refine ⟨fun x hx => ?_, fun j hj => ?_⟩
    · simp only [List.mem_cons, not_or] at hx
      rw [FG.readyLoop, hmod, h1 x hx.2, find_setIdx, if_neg hx.1]
    · cases j with
      | zero => rw [List.getElem_cons_zero, FG.readyLoop, hmod, h1 e hnd.1, find_setIdx, if_pos rfl]; rfl
      | succ j =>
        have hj' : j < es.length := by simpa using hj
        rw [List.getElem_cons_succ, FG.readyLoop, hmod, h2 j hj', find_setIdx, if_neg]
        · rw [show i + 1 + j = i + (j + 1) by omega]
        · intro heq; rw [← heq] at hnd; exact hnd.1 (List.getElem_mem hj')

theorem freqOf_map {m m' : List Ent} {e : Nat} {i : Nat}
    (h : find m' e = (find m e).map fun y => { y with idx := i }) : freqOf m' e = freqOf m e := by
  rw [freqOf, freqOf, h]; cases find m e <;> rfl

theorem FG.init_ranks {iw : Nat} {l : List Nat} (hcnt : l.length < 2 ^ iw) {order : List Nat}
    (ho : SortOutcomeG (FG.clear.appendAll iw l).m order) :
    Ranks l (fun _ => True) (FG.init iw FG.clear l order).size
        (fun e => .ok ((FG.init iw FG.clear l order).getFrequency e))
        (FG.init iw FG.clear l order).getIndex (FG.init iw FG.clear l order).getElement ∧
      (∀ e, e ∉ l → (FG.init iw FG.clear l order).getIndex e = .throw) ∧
      (∀ i, (FG.init iw FG.clear l order).size ≤ i → (FG.init iw FG.clear l order).getElement i = .throw) := by
  have hC := appendAllG_counts (iw := iw) l [] FG.clear
    ⟨fun e => by simp [FG.clear, freqOf, find], fun e => by simp [FG.clear], by simp [FG.clear]⟩
  rw [List.nil_append] at hC
  have hond : order.Nodup := ho.perm.nodup_iff.mpr hC.nodup
  have homem : ∀ c, c ∈ order ↔ c ∈ l := fun c => by rw [ho.perm.mem_iff, hC.keys]
  have holen : order.length ≤ l.length := by
    have hsub : order.Subperm l := List.subperm_of_subset hond (fun c hc => (homem c).mp hc)
    exact hsub.length_le
  obtain ⟨h1, h2⟩ := readyLoopG_spec (iw := iw) order 0 (FG.clear.appendAll iw l).m hond (by omega)
  have hfreq : ∀ e, freqOf (FG.readyLoop iw order 0 (FG.clear.appendAll iw l).m) e = l.count e := by
    intro e
    have hc : freqOf (FG.clear.appendAll iw l).m e = l.count e := by
      have := List.count_le_length (a := e) (l := l)
      rw [hC.val, Nat.mod_eq_of_lt (by omega)]
    by_cases hm : e ∈ order
    · obtain ⟨j, hj, rfl⟩ := List.mem_iff_getElem.mp hm
      rw [freqOf_map (h2 j hj), hc]
    · rw [freqOf, h1 e hm, ← freqOf, hc]
  have hidx : ∀ j (h : j < order.length), FG.getIndex (FG.init iw FG.clear l order) order[j] = .ok j := by
    intro j hj
    have hmem : order[j] ∈ (FG.clear.appendAll iw l).m.map Ent.key := ho.perm.mem_iff.mp (List.getElem_mem hj)
    rw [FG.getIndex, FG.init, FG.ready]
    simp only [h2 j hj]
    cases hf : find (FG.clear.appendAll iw l).m order[j] with
    | none => rw [find_none_iff] at hf; exact absurd hmem hf
    | some y => simp
  have helem : ∀ j (h : j < order.length), FG.getElement (FG.init iw FG.clear l order) j = .ok order[j] := by
    intro j hj
    rw [FG.getElement, FG.init, FG.ready]
    simp [hj]
  have hsz : FG.size (FG.init iw FG.clear l order) = order.length := rfl
  refine ⟨⟨fun e _ => ?_, fun e he => ?_, fun i hi => ?_, fun i j e f hij hj he hf => ?_⟩, fun e he => ?_, fun i hi => ?_⟩
  · rw [FG.getFrequency, FG.init, FG.ready, hfreq]
  · obtain ⟨j, hj, rfl⟩ := List.mem_iff_getElem.mp ((homem e).mpr he)
    exact ⟨j, hj, hidx j hj, helem j hj⟩
  · rw [hsz] at hi
    exact ⟨order[i], (homem _).mp (List.getElem_mem hi), helem i hi, hidx i hi⟩
  · rw [hsz] at hj
    rw [helem i (by omega), Res.ok.injEq] at he
    rw [helem j hj, Res.ok.injEq] at hf
    subst he; subst hf
    by_cases hlt : i < j
    · have := List.pairwise_iff_getElem.mp ho.sorted i j (by omega) hj hlt
      have hc : ∀ e, freqOf (FG.clear.appendAll iw l).m e = l.count e := by
        intro e
        have := List.count_le_length (a := e) (l := l)
        rw [hC.val, Nat.mod_eq_of_lt (by omega)]
      simp only [greater, hc] at this
      omega
    · have : i = j := by omega
      subst this; exact Nat.le_refl _
  · have hm : e ∉ order := fun h => he ((homem e).mp h)
    rw [FG.getIndex, FG.init, FG.ready]
    simp only [h1 e hm]
    have : find (FG.clear.appendAll iw l).m e = none := by rw [find_none_iff, hC.keys]; exact he
    rw [this]
  · rw [hsz] at hi
    rw [FG.getElement, FG.init, FG.ready]
    simp [hi]

end Frequency
end Verif
