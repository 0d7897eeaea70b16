import Verif.Proof.SaisFrame
import Verif.Spec.Bwt

/-! The Burrows-Wheeler transform: what `saisxx_bwt` writes, and that it determines the text. -/
set_option linter.unusedSimpArgs false
namespace Verif.Sais
open Finset Verif.Spec.FMindex Verif.Spec.Bwt

/-- The row of position `p` among all `n + 1` suffixes. -/
def row (v : List Nat) (p : Nat) : Nat := rk (range (v.length + 1)) (fun a => v.drop a) p

theorem drop_injOn (v : List Nat) : Set.InjOn (fun a => v.drop a) (range (v.length + 1) : Finset Nat) := by
  intro a ha b hb h
  simp only [coe_range, Set.mem_Iio] at ha hb
  have := congrArg List.length h
  simp only [List.length_drop] at this
  omega

theorem row_lt {v : List Nat} {p : Nat} (h : p ≤ v.length) : row v p < v.length + 1 := by
  have := rk_lt (s := range (v.length + 1)) (key := fun a => v.drop a) (a := p) (mem_range.mpr (by omega))
  simpa [row] using this

theorem row_inj {v : List Nat} {p q : Nat} (hp : p ≤ v.length) (hq : q ≤ v.length) (h : row v p = row v q) : p = q :=
  rk_inj (drop_injOn v) (mem_range.mpr (by omega)) (mem_range.mpr (by omega)) h

theorem row_surj {v : List Nat} {i : Nat} (h : i < v.length + 1) : ∃ p, p ≤ v.length ∧ row v p = i := by
  obtain ⟨a, ha, e⟩ := rk_surj (drop_injOn v) (x := i) (by simpa using h)
  exact ⟨a, by have := mem_range.mp ha; omega, e⟩

theorem row_iff {v : List Nat} {p q : Nat} (hp : p ≤ v.length) : row v p < row v q ↔ v.drop p < v.drop q :=
  rk_lt_iff (key := fun a => v.drop a) (mem_range.mpr (by omega))

theorem row_eq (v : List Nat) (p : Nat) : row v p = ((range (v.length + 1)).filter fun b => v.drop b < v.drop p).card := by
  unfold row rk
  congr 1
  ext q
  simp only [mem_filter]

theorem row_end (v : List Nat) : row v v.length = 0 := by
  rw [row_eq, card_eq_zero, filter_eq_empty_iff]
  intro q _
  simp

theorem row_suf {v : List Nat} {p : Nat} (hp : p < v.length) : row v p = sufRank (textOf v) v.length p + 1 := by
  rw [row_eq]
  unfold sufRank rk
  rw [range_add_one, filter_insert, if_pos, card_insert_of_notMem (by simp)]
  · congr 2
    ext q
    simp only [mem_filter]
    rw [sf_drop v _ q rfl, sf_drop v _ p rfl]
  · rw [List.drop_length, List.drop_eq_getElem_cons (i := p) hp]
    exact List.nil_lt_cons _ _

/-- Sorted rows are in the places of their ranks. -/
theorem rows_row {v rows : List Nat} (h : IsRows v rows) {p : Nat} (hp : p ≤ v.length) : rows[row v p]? = some p := by
  have hlen : rows.length = v.length + 1 := by
    rw [h.perm.length_eq, List.length_range]
  have hnd : rows.Nodup := h.perm.nodup_iff.mpr List.nodup_range
  have hs := List.pairwise_iff_getElem.mp h.sorted
  have hmem : p ∈ rows := h.perm.mem_iff.mpr (List.mem_range.mpr (by omega))
  obtain ⟨i, hi, e⟩ := List.mem_iff_getElem.mp hmem
  have : row v p = i := by
    rw [row_eq]
    have hf : ((range (v.length + 1)).filter fun b => v.drop b < v.drop p) = (range i).attach.image fun j => rows[j.1]'(by
        have := mem_range.mp j.2
        omega) := by
      ext q
      simp only [mem_filter, mem_range, mem_image, mem_attach, true_and, Subtype.exists]
      constructor
      · rintro ⟨h1, h2⟩
        have hq : q ∈ rows := h.perm.mem_iff.mpr (List.mem_range.mpr h1)
        obtain ⟨j, hj, ej⟩ := List.mem_iff_getElem.mp hq
        refine ⟨j, ?_, ej⟩
        by_contra hc
        rcases Nat.lt_or_ge i j with w | w
        · have := hs i j hi hj w
          rw [e, ej, lexLt_iff] at this
          exact lt_asymm this h2
        · have : i = j := by omega
          subst this
          rw [e] at ej
          rw [ej] at h2
          exact lt_irrefl _ h2
      · rintro ⟨j, hj, ej⟩
        have := hs j i (by omega) hi hj
        rw [e, ej, lexLt_iff] at this
        refine ⟨?_, this⟩
        have hq : q ∈ rows := by
          rw [← ej]
          exact List.getElem_mem _
        exact List.mem_range.mp (h.perm.mem_iff.mp hq)
    rw [hf, card_image_of_injective]
    · simp
    · intro x y hxy
      have := (List.Nodup.getElem_inj_iff hnd).mp hxy
      exact Subtype.ext this
  rw [this, List.getElem?_eq_getElem hi, e]

/-- Where the character before position `q` stands. -/
def col (v : List Nat) (q : Nat) : Nat := if row v q < row v 0 then row v q else row v q - 1

theorem col_lt {v : List Nat} {q : Nat} (h0 : 0 < q) (hq : q ≤ v.length) : col v q < v.length := by
  have h1 := row_lt hq
  have h2 := row_lt (v := v) (p := 0) (by omega)
  have : row v q ≠ row v 0 := fun e => by
    have := row_inj hq (by omega) e
    omega
  unfold col
  split <;> omega

theorem col_surj {v : List Nat} {x : Nat} (h : x < v.length) : ∃ q, 0 < q ∧ q ≤ v.length ∧ col v q = x := by
  by_cases hx : x < row v 0
  · obtain ⟨q, hq, e⟩ := row_surj (v := v) (i := x) (by omega)
    refine ⟨q, ?_, hq, ?_⟩
    · rcases Nat.eq_zero_or_pos q with w | w
      · subst w
        omega
      · exact w
    · unfold col
      rw [e, if_pos hx]
  · obtain ⟨q, hq, e⟩ := row_surj (v := v) (i := x + 1) (by omega)
    refine ⟨q, ?_, hq, ?_⟩
    · rcases Nat.eq_zero_or_pos q with w | w
      · subst w
        omega
      · exact w
    · unfold col
      rw [e, if_neg (by omega)]
      omega

theorem lastColumn_length {v rows : List Nat} (h : IsRows v rows) : (lastColumn v rows).length = v.length := by
  unfold lastColumn
  rw [(h.perm.filterMap _).length_eq, List.range_succ_eq_map, List.filterMap_cons]
  simp only [if_true]
  rw [List.filterMap_map]
  have : (List.range v.length).filterMap ((fun p => if p = 0 then none else v[p - 1]?) ∘ Nat.succ) = v := by
    have e : ((fun p => if p = 0 then none else v[p - 1]?) ∘ Nat.succ) = fun i => v[i]? := by
      funext i
      simp
    rw [e]
    apply List.ext_getElem?
    intro i
    clear e
    have : ∀ l : List Nat, (∀ i ∈ l, i < v.length) → l.filterMap (fun i => v[i]?) = l.map fun i => v.getD i 0 := by
      intro l
      induction l with
      | nil => simp
      | cons a t ih =>
        intro hl
        have ha := hl a (by simp)
        rw [List.filterMap_cons, List.getElem?_eq_getElem ha]
        simp only
        rw [ih fun i hi => hl i (by simp [hi]), List.map_cons, List.getD_eq_getElem?_getD, List.getElem?_eq_getElem ha]
        rfl
    rw [this _ fun i hi => List.mem_range.mp hi]
    by_cases hi : i < v.length
    · rw [List.getElem?_map, List.getElem?_range hi]
      simp [List.getD_eq_getElem?_getD, List.getElem?_eq_getElem hi]
    · rw [List.getElem?_eq_none (by simpa using hi), List.getElem?_eq_none (by omega)]
  rw [this]

/-- The list of the specification, cell by cell. -/
theorem lastColumn_at {v rows : List Nat} (h : IsRows v rows) {q : Nat} (h0 : 0 < q) (hq : q ≤ v.length) :
    (lastColumn v rows)[col v q]? = v[q - 1]? := by
  have hz := rows_row h (p := 0) (by omega)
  have hnd : rows.Nodup := h.perm.nodup_iff.mpr List.nodup_range
  have hlen : rows.length = v.length + 1 := by
    rw [h.perm.length_eq, List.length_range]
  have hr0 := row_lt (v := v) (p := 0) (by omega)
  have hsplit : rows = rows.take (row v 0) ++ 0 :: rows.drop (row v 0 + 1) := by
    conv_lhs => rw [← List.take_append_drop (row v 0) rows]
    rw [List.drop_eq_getElem_cons (by omega)]
    rw [List.getElem?_eq_getElem (by omega)] at hz
    injection hz with hz
    rw [hz]
  have hmem : ∀ x ∈ rows, x ≤ v.length := fun x hx => by
    have := List.mem_range.mp (h.perm.mem_iff.mp hx)
    omega
  have hmap : ∀ l : List Nat, (∀ x ∈ l, x ≤ v.length ∧ x ≠ 0) →
      l.filterMap (fun p => if p = 0 then none else v[p - 1]?) = l.map fun p => v.getD (p - 1) 0 := by
    intro l
    induction l with
    | nil => simp
    | cons a t ih =>
      intro hl
      have ha := hl a (by simp)
      rw [List.filterMap_cons, if_neg ha.2, List.getElem?_eq_getElem (by omega)]
      simp only
      rw [ih fun i hi => hl i (by simp [hi]), List.map_cons, List.getD_eq_getElem?_getD, List.getElem?_eq_getElem (by omega)]
      rfl
  have hnd' := hnd
  rw [hsplit, List.nodup_append] at hnd'
  obtain ⟨_, n2, n3⟩ := hnd'
  have hL : lastColumn v rows = (rows.take (row v 0)).map (fun p => v.getD (p - 1) 0) ++ (rows.drop (row v 0 + 1)).map fun p => v.getD (p - 1) 0 := by
    unfold lastColumn
    conv_lhs => rw [hsplit]
    rw [List.filterMap_append, List.filterMap_cons]
    simp only [if_true]
    rw [hmap _ fun x hx => ⟨hmem x (List.mem_of_mem_take hx), fun e => n3 x hx 0 (by simp) e⟩,
      hmap _ fun x hx => ⟨hmem x (List.mem_of_mem_drop hx), fun e => (List.nodup_cons.mp n2).1 (by rw [e] at hx; exact hx)⟩]
  have hrq := rows_row h hq
  have hlt := row_lt hq
  have hne : row v q ≠ row v 0 := fun e => by
    have := row_inj hq (by omega) e
    omega
  have hval : v[q - 1]? = some (v.getD (q - 1) 0) := by
    rw [List.getD_eq_getElem?_getD, List.getElem?_eq_getElem (by omega)]
    rfl
  rw [hL, hval]
  unfold col
  by_cases hc : row v q < row v 0
  · rw [if_pos hc, List.getElem?_append_left (by simp; omega), List.getElem?_map, List.getElem?_take, if_pos hc, hrq]
    rfl
  · rw [if_neg hc, List.getElem?_append_right (by simp; omega), List.getElem?_map, List.getElem?_drop]
    have : row v 0 + 1 + (row v q - 1 - (List.map (fun p => v.getD (p - 1) 0) (List.take (row v 0) rows)).length) = row v q := by
      simp
      omega
    rw [this, hrq]
    rfl

theorem rows_exist (v : List Nat) : ∃ rows, IsRows v rows := by
  refine ⟨(List.range (v.length + 1)).map fun i => if h : i < v.length + 1 then (row_surj (v := v) h).choose else 0, ?_⟩
  have hat : ∀ i (h : i < v.length + 1), (row_surj (v := v) h).choose ≤ v.length ∧ row v (row_surj (v := v) h).choose = i :=
    fun i h => (row_surj (v := v) h).choose_spec
  have hs : ((List.range (v.length + 1)).map fun i => if h : i < v.length + 1 then (row_surj (v := v) h).choose else 0).Pairwise
      fun a b => lexLt (v.drop a) (v.drop b) = true := by
    rw [List.pairwise_map, List.pairwise_iff_getElem]
    intro i j hi hj hij
    simp only [List.length_range] at hi hj
    simp only [List.getElem_range]
    rw [dif_pos hi, dif_pos hj, lexLt_iff, ← row_iff (hat i hi).1, (hat i hi).2, (hat j hj).2]
    exact hij
  refine ⟨?_, hs⟩
  have hnd : ((List.range (v.length + 1)).map fun i => if h : i < v.length + 1 then (row_surj (v := v) h).choose else 0).Nodup := by
    apply hs.imp
    intro a b hab e
    rw [e, lexLt_iff] at hab
    exact lt_irrefl _ hab
  refine (List.subperm_of_subset hnd ?_).perm_of_length_le (by simp)
  intro x hx
  obtain ⟨i, hi, rfl⟩ := List.mem_map.mp hx
  have hi' := List.mem_range.mp hi
  rw [dif_pos hi']
  exact List.mem_range.mpr (by have := (hat i hi').1; omega)

theorem bwt_iff {v c : List Nat} {e : Nat} : IsBwt v e c ↔
    e = row v 0 ∧ c.length = v.length ∧ ∀ q, 0 < q → q ≤ v.length → c[col v q]? = v[q - 1]? := by
  constructor
  · rintro ⟨rows, h1, rfl, h2⟩
    refine ⟨?_, lastColumn_length h1, fun q h0 hq => lastColumn_at h1 h0 hq⟩
    have hnd : rows.Nodup := h1.perm.nodup_iff.mpr List.nodup_range
    have h3 := rows_row h1 (p := 0) (by omega)
    obtain ⟨w1, w2⟩ := List.getElem?_eq_some_iff.mp h2
    obtain ⟨w3, w4⟩ := List.getElem?_eq_some_iff.mp h3
    exact (List.Nodup.getElem_inj_iff hnd).mp (w2.trans w4.symm)
  · rintro ⟨h1, h2, h3⟩
    obtain ⟨rows, hr⟩ := rows_exist v
    refine ⟨rows, hr, ?_, by rw [h1]; exact rows_row hr (by omega)⟩
    apply List.ext_getElem?
    intro x
    by_cases hx : x < v.length
    · obtain ⟨q, q1, q2, q3⟩ := col_surj hx
      rw [← q3, h3 q q1 q2, lastColumn_at hr q1 q2]
    · rw [List.getElem?_eq_none (by omega), List.getElem?_eq_none (by rw [lastColumn_length hr]; omega)]

/-! ### The transform determines the text -/

/-- The character before a position, 0 for none. -/
def prevC (v : List Nat) (q : Nat) : Nat := if q = 0 then 0 else v.getD (q - 1) 0 + 1

/-- The row of the position before. -/
theorem row_prev {v : List Nat} {p : Nat} (h0 : 0 < p) (hp : p ≤ v.length) :
    row v (p - 1) = ((range (v.length + 1)).filter fun q => prevC v q < prevC v p ∨ prevC v q = prevC v p ∧ row v q < row v p).card := by
  rw [row_eq v (p - 1)]
  symm
  apply card_bij (fun q _ => if q = 0 then v.length else q - 1)
  · intro q hq
    simp only [mem_filter, mem_range] at hq ⊢
    obtain ⟨hq1, hq2⟩ := hq
    by_cases hz : q = 0
    · subst hz
      simp only [if_true]
      refine ⟨by omega, ?_⟩
      rw [List.drop_length, List.drop_eq_getElem_cons (i := p - 1) (by omega)]
      exact List.nil_lt_cons _ _
    · rw [if_neg hz]
      refine ⟨by omega, ?_⟩
      rw [List.drop_eq_getElem_cons (i := p - 1) (by omega), List.drop_eq_getElem_cons (i := q - 1) (by omega), List.cons_lt_cons_iff,
        show p - 1 + 1 = p by omega, show q - 1 + 1 = q by omega]
      unfold prevC at hq2
      rw [if_neg hz, if_neg (by omega), row_iff (by omega), List.getD_eq_getElem?_getD, List.getD_eq_getElem?_getD,
        List.getElem?_eq_getElem (by omega), List.getElem?_eq_getElem (by omega)] at hq2
      simp only [Option.getD_some] at hq2
      rcases hq2 with w | w
      · left; omega
      · right; exact ⟨by omega, w.2⟩
  · intro q1 h1 q2 h2 e
    simp only [mem_filter, mem_range] at h1 h2
    by_cases z1 : q1 = 0 <;> by_cases z2 : q2 = 0 <;> simp only [z1, z2, if_true, if_false] at e ⊢ <;> omega
  · intro b hb
    simp only [mem_filter, mem_range] at hb
    obtain ⟨hb1, hb2⟩ := hb
    by_cases hz : b = v.length
    · refine ⟨0, ?_, by rw [if_pos rfl, hz]⟩
      simp only [mem_filter, mem_range]
      refine ⟨by omega, Or.inl ?_⟩
      unfold prevC
      rw [if_pos rfl, if_neg (by omega)]
      omega
    · refine ⟨b + 1, ?_, by rw [if_neg (by omega)]; omega⟩
      simp only [mem_filter, mem_range]
      refine ⟨by omega, ?_⟩
      rw [List.drop_eq_getElem_cons (i := p - 1) (by omega), List.drop_eq_getElem_cons (i := b) (by omega), List.cons_lt_cons_iff,
        show p - 1 + 1 = p by omega] at hb2
      unfold prevC
      rw [if_neg (by omega), if_neg (by omega), row_iff (by omega), List.getD_eq_getElem?_getD, List.getD_eq_getElem?_getD,
        List.getElem?_eq_getElem (by omega), List.getElem?_eq_getElem (by omega)]
      simp only [Option.getD_some, Nat.add_sub_cancel]
      rcases hb2 with w | w
      · left; omega
      · right; exact ⟨by omega, w.2⟩

/-- The same by rows. -/
theorem row_prev_rows {v : List Nat} {L : Nat → Nat} (hL : ∀ q, q ≤ v.length → L (row v q) = prevC v q) {p : Nat} (h0 : 0 < p) (hp : p ≤ v.length) :
    row v (p - 1) = ((range (v.length + 1)).filter fun j => L j < L (row v p) ∨ L j = L (row v p) ∧ j < row v p).card := by
  rw [row_prev h0 hp]
  apply card_bij (fun q _ => row v q)
  · intro q hq
    simp only [mem_filter, mem_range] at hq ⊢
    refine ⟨row_lt (by omega), ?_⟩
    rw [hL q (by omega), hL p hp]
    exact hq.2
  · intro a ha b hb e
    simp only [mem_filter, mem_range] at ha hb
    exact row_inj (by omega) (by omega) e
  · intro j hj
    simp only [mem_filter, mem_range] at hj
    obtain ⟨q, hq, e⟩ := row_surj hj.1
    refine ⟨q, ?_, e⟩
    simp only [mem_filter, mem_range]
    refine ⟨by omega, ?_⟩
    rw [← hL q hq, ← hL p hp, e]
    exact hj.2

theorem rows_same {v w : List Nat} (hn : v.length = w.length) {L : Nat → Nat} (hv : ∀ q, q ≤ v.length → L (row v q) = prevC v q)
    (hw : ∀ q, q ≤ w.length → L (row w q) = prevC w q) : ∀ d, d ≤ v.length → row v (v.length - d) = row w (v.length - d)
  | 0, _ => by rw [Nat.sub_zero, row_end, hn, row_end]
  | d + 1, h => by
    have ih := rows_same hn hv hw d (by omega)
    rw [show v.length - (d + 1) = v.length - d - 1 by omega, row_prev_rows hv (by omega) (by omega), row_prev_rows hw (by omega) (by omega), ih, hn]

theorem bwt_inj {v w c : List Nat} {e : Nat} (h1 : IsBwt v e c) (h2 : IsBwt w e c) : v = w := by
  rw [bwt_iff] at h1 h2
  obtain ⟨a1, a2, a3⟩ := h1
  obtain ⟨b1, b2, b3⟩ := h2
  have hn : v.length = w.length := by omega
  obtain ⟨L, hL⟩ : ∃ L : Nat → Nat, L = fun j => if j = e then 0 else c.getD (if j < e then j else j - 1) 0 + 1 := ⟨_, rfl⟩
  have gen : ∀ u : List Nat, e = row u 0 → (∀ q, 0 < q → q ≤ u.length → c[col u q]? = u[q - 1]?) → ∀ q, q ≤ u.length → L (row u q) = prevC u q := by
    intro u hu h q hq
    rw [hL]
    simp only
    unfold prevC
    by_cases hz : q = 0
    · subst hz
      rw [if_pos hu.symm, if_pos rfl]
    · have hne : row u q ≠ e := fun w => hz (row_inj hq (by omega) (w.trans hu))
      rw [if_neg hne, if_neg hz]
      have := h q (by omega) hq
      unfold col at this
      rw [← hu] at this
      rw [List.getD_eq_getElem?_getD, this, List.getD_eq_getElem?_getD]
  have hv := gen v a1 a3
  have hw := gen w b1 b3
  apply List.ext_getElem?
  intro i
  by_cases hi : i < v.length
  · have := rows_same hn hv hw (v.length - (i + 1)) (by omega)
    rw [show v.length - (v.length - (i + 1)) = i + 1 by omega] at this
    have e1 := a3 (i + 1) (by omega) (by omega)
    have e2 := b3 (i + 1) (by omega) (by omega)
    unfold col at e1 e2
    rw [← a1] at e1
    rw [← b1, ← this] at e2
    simp only [Nat.add_sub_cancel] at e1 e2
    rw [← e1, ← e2]
  · rw [List.getElem?_eq_none (by omega), List.getElem?_eq_none (by omega)]

/-! ### The copying -/

theorem copy_ok {n d : Nat} {A : Arr} : ∀ (c i : Nat) (U : Arr), i + c + d ≤ n →
    copyLoop n d A c i U = .ok fun x => if i + d ≤ x ∧ x < i + d + c then A (x - d) else U x
  | 0, i, U, h => by
    simp only [copyLoop]
    congr 1
    funext x
    rw [if_neg (by omega)]
  | c + 1, i, U, h => by
    simp only [copyLoop]
    rw [rd_ok (by omega), Res.ok_bind, wr_ok (by omega), Res.ok_bind, copy_ok c (i + 1) _ (by omega)]
    congr 1
    funext x
    by_cases h1 : x = i + d
    · subst h1
      rw [if_neg (by omega), if_pos (by omega)]
      simp [upd]
    · by_cases h2 : i + 1 + d ≤ x ∧ x < i + 1 + d + c
      · rw [if_pos h2, if_pos (by omega)]
      · rw [if_neg h2, if_neg (by omega)]
        simp [upd, h1]

theorem textOf_at {v : List Nat} {i : Nat} (h : i < v.length) : v[i]? = some (textOf v i) := by
  unfold textOf
  rw [List.getD_eq_getElem?_getD, List.getElem?_eq_getElem h]
  rfl

/-- The cells of `U` as characters. -/
theorem bwt_of {v : List Nat} {U : Arr} (h : ∀ q, 0 < q → q ≤ v.length → U (col v q) = textOf v (q - 1)) :
    IsBwt v (row v 0) (listOf U v.length) ∧ ∀ x, x < v.length → 0 ≤ U x := by
  refine ⟨bwt_iff.mpr ⟨rfl, by simp [listOf], ?_⟩, ?_⟩
  · intro q h0 hq
    have := col_lt h0 hq
    unfold listOf
    rw [List.getElem?_map, List.getElem?_range this, Option.map_some, h q h0 hq, textOf_at (by omega)]
    rfl
  · intro x hx
    obtain ⟨q, q1, q2, q3⟩ := col_surj hx
    rw [← q3, h q q1 q2]
    omega

theorem bwtOut_ok {v : List Nat} {A U : Arr} (h0 : 0 < v.length)
    (h : ∀ a, 0 < a → a < v.length → A (sufRank (textOf v) v.length a) = textOf v (a - 1)) :
    ∃ U', bwtOut (textOf v) v.length (sufRank (textOf v) v.length 0) A U = .ok ((row v 0 : Nat), U') ∧
      (∀ q, 0 < q → q ≤ v.length → U' (col v q) = textOf v (q - 1)) ∧ ∀ x, v.length ≤ x → U' x = U x := by
  have hr0 := row_suf h0
  have hp := sufRank_lt (T := textOf v) h0
  unfold bwtOut
  rw [if_pos (by omega), show (v.length : Int) - 1 = ((v.length - 1 : Nat) : Int) by omega, chr_ok (by omega), Res.ok_bind,
    wr_int (z := 0) (i := 0) (by simp) h0, Res.ok_bind, Int.toNat_natCast, copy_ok _ _ _ (by omega), Res.ok_bind, copy_ok _ _ _ (by omega),
    Res.ok_bind, Res.pure_eq]
  refine ⟨_, by rw [hr0]; rfl, ?_, ?_⟩
  · intro q h1 h2
    have hne : row v q ≠ row v 0 := fun e => by
      have := row_inj h2 (by omega) e
      omega
    by_cases hq : q = v.length
    · have hcol : col v q = 0 := by
        unfold col
        rw [hq, row_end, if_pos (by omega)]
      rw [hcol, if_neg (by omega), if_neg (by omega), hq]
      simp [upd]
    · have hrq := row_suf (v := v) (p := q) (by omega)
      have hlt := sufRank_lt (T := textOf v) (n := v.length) (a := q) (by omega)
      by_cases hc : row v q < row v 0
      · have hcol : col v q = row v q := by
          unfold col
          rw [if_pos hc]
        rw [hcol, if_neg (by omega), if_pos (by omega), hrq, Nat.add_sub_cancel]
        exact h q h1 (by omega)
      · have hcol : col v q = row v q - 1 := by
          unfold col
          rw [if_neg hc]
        rw [hcol, if_pos (by omega), hrq, Nat.add_sub_cancel, Nat.sub_zero]
        exact h q h1 (by omega)
  · intro x hx
    rw [if_neg (by omega), if_neg (by omega)]
    have : x ≠ 0 := by omega
    simp [upd, this]

theorem saisxxBwt_all (alloc : Nat → Nat → Bool) (g : Arr) (v : List Nat) (U A : Arr) (k : Nat) (hk : 0 < k) (hv : ∀ c ∈ v, c < k) :
    (∃ (e : Nat) (U' : Arr), saisxxBwt alloc g (textOf v) U A v.length k = .ok ((e : Int), U') ∧ IsBwt v e (listOf U' v.length) ∧
      (∀ x, x < v.length → 0 ≤ U' x) ∧ ∀ x, v.length ≤ x → U' x = U x) ∨
    (saisxxBwt alloc g (textOf v) U A v.length k = .ok (-2, U) ∧ ∃ d c, alloc d c = false) := by
  unfold saisxxBwt
  rw [if_neg (by omega)]
  by_cases h1 : (v.length : Int) ≤ 1
  · rw [if_pos h1]
    left
    by_cases h2 : (v.length : Int) = 1
    · rw [if_pos h2]
      have hl : v.length = 1 := by omega
      have hr1 : row v 0 = 1 := by
        have a := row_lt (v := v) (p := 0) (by omega)
        have b := row_end v
        have c : row v 0 ≠ row v v.length := fun e => by
          have := row_inj (v := v) (p := 0) (q := v.length) (by omega) (le_refl _) e
          omega
        omega
      rw [show (0 : Int) = ((0 : Nat) : Int) from rfl, chr_ok (by omega), Res.ok_bind, wr_ok (by omega), Res.ok_bind, Res.pure_eq]
      obtain ⟨c1, c2⟩ := bwt_of (v := v) (U := upd U 0 (textOf v 0)) (by
        intro q q1 q2
        have : q = v.length := by omega
        unfold col
        rw [this, row_end, if_pos (by omega), hl]
        simp [upd])
      refine ⟨v.length, _, rfl, ?_, c2, ?_⟩
      · rw [hr1] at c1
        rw [hl] at c1 ⊢
        exact c1
      · intro x hx
        have : x ≠ 0 := by omega
        simp [upd, this]
    · rw [if_neg h2]
      have : v = [] := List.length_eq_zero_iff.mp (by omega)
      subst this
      exact ⟨0, U, rfl, ⟨[0], ⟨by simp [List.range_succ], by simp⟩, by simp [listOf, lastColumn], rfl⟩, fun x hx => by simp at hx, fun _ _ => rfl⟩
  · rw [if_neg h1, Int.toNat_natCast, Int.toNat_natCast]
    rcases suffixsort_ok alloc g v.length (textOf v) 0 v.length k true A (le_refl _) (by omega) (by
        intro i hi
        unfold textOf
        rw [List.getD_eq_getElem?_getD, List.getElem?_eq_getElem (by omega)]
        exact hv _ (List.getElem_mem hi)) with ⟨e1, e2⟩ | ⟨e, A', e1, rfl, e2⟩
    · right
      rw [e1]
      exact ⟨rfl, e2⟩
    · left
      rw [e1]
      simp only
      obtain ⟨U', f1, f2, f3⟩ := bwtOut_ok (U := U) (by omega) e2
      obtain ⟨c1, c2⟩ := bwt_of f2
      exact ⟨_, U', f1, c1, c2, f3⟩

end Verif.Sais
