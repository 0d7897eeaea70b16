import Verif.Proof.WaveletTop
set_option linter.unusedSimpArgs false

/-! Lemmas for C15: the select table and the search of the wavelet matrix. -/
namespace Verif.Wavelet
open Verif.BitVector (setAt? setAt?_ok)
open Verif.SucVector (SV sub64 sub64_eq getBlockNum NotFound)
open Verif.Spec.Wavelet

theorem countOf_zero (l : List Nat) (v : Nat) : countOf l v 0 = 0 := by simp [countOf]

theorem countOf_succ {l : List Nat} {v p : Nat} (hp : p < l.length) :
    countOf l v (p + 1) = countOf l v p + (if l[p] = v then 1 else 0) := by
  rw [countOf, List.take_add_one, List.getElem?_eq_getElem hp, List.count_append, countOf]
  simp [List.count_singleton]

theorem countOf_ge {l : List Nat} {v p : Nat} (hp : l.length ≤ p) : countOf l v p = l.count v := by
  rw [countOf, List.take_of_length_le hp]

theorem countOf_mono (l : List Nat) (v : Nat) {p q : Nat} (h : p ≤ q) : countOf l v p ≤ countOf l v q := by
  rw [countOf, countOf]
  exact ((List.take_prefix_take_left h).sublist).count_le v

theorem countOf_le (l : List Nat) (v p : Nat) : countOf l v p ≤ l.count v := (List.take_sublist p l).count_le v

/-- Every occurrence has a position. -/
theorem exists_nth (l : List Nat) (v : Nat) : ∀ r, r < l.count v → ∃ p, p < l.length ∧ IsNth l v r p := by
  induction l with
  | nil => intro r hr; simp at hr
  | cons x l ih =>
    intro r hr
    by_cases hx : x = v
    · subst hx
      cases r with
      | zero => exact ⟨0, by simp, by simp [IsNth, countOf]⟩
      | succ r =>
        rw [List.count_cons_self] at hr
        obtain ⟨p, h1, h2, h3⟩ := ih r (by omega)
        refine ⟨p + 1, by simp; omega, by simpa using h2, ?_⟩
        rw [countOf] at *
        simp [List.take_succ_cons, h3]
    · rw [List.count_cons_of_ne (by simpa using hx)] at hr
      obtain ⟨p, h1, h2, h3⟩ := ih r hr
      refine ⟨p + 1, by simp; omega, by simpa using h2, ?_⟩
      rw [countOf] at *
      rw [List.take_succ_cons, List.count_cons_of_ne (by simpa using hx), h3]

/-- A right select table for value `v`. -/
structure SelOK (l : List Nat) (v : Nat) (t : List Nat) : Prop where
  len : t.length = (l.count v + 255) / 256
  val : ∀ j (h : j < t.length), t[j] ≤ l.length ∧ countOf l v t[j] = 256 * j
  head : t.getD 0 0 = 0

/-- What is known of the table of `v` after the elements before `n`. -/
structure SelInv (l : List Nat) (n v : Nat) (t : List Nat) (i c : Nat) : Prop where
  len : t.length = (l.count v + 255) / 256
  ipos : 1 ≤ i
  ile : i ≤ t.length ∨ i = 1
  cnt : c = countOf l v n
  lt : i < t.length → c < 256 * i
  val : ∀ j (h : j < t.length), j < i → t[j] ≤ l.length ∧ countOf l v t[j] = 256 * j
  head : t.getD 0 0 = 0

def SelAll (M : Nat) (l : List Nat) (n : Nat) (s : SelSt) : Prop :=
  s.tbl.length = M ∧
  ∀ v, v < M → ∃ t i c, s.tbl[v]? = some t ∧ s.iTbl[v]? = some i ∧ s.numTbl[v]? = some c ∧ SelInv l n v t i c

theorem lt_of_some {α : Type} {l : List α} {i : Nat} {a : α} (h : l[i]? = some a) : i < l.length :=
  (List.getElem?_eq_some_iff.mp h).1

theorem selStep_spec {M : Nat} {l : List Nat} {n : Nat} (hn : n < l.length) (hl : l.length < 2 ^ 32)
    (hM : ∀ x ∈ l, x < M) {s : SelSt} (h : SelAll M l n s) :
    ∃ s', selStep s l[n] n = .ok s' ∧ SelAll M l (n + 1) s' := by
  obtain ⟨hlen, hall⟩ := h
  generalize hv0 : l[n] = v0
  have hv0M : v0 < M := by rw [← hv0]; exact hM _ (List.getElem_mem hn)
  obtain ⟨t, i, c, ht, hi, hc, inv⟩ := hall v0 hv0M
  have hcs : countOf l v0 (n + 1) = c + 1 := by rw [countOf_succ hn, hv0, inv.cnt]; simp
  have hcl : countOf l v0 (n + 1) ≤ l.length := by
    have := countOf_le l v0 (n + 1)
    have := List.count_le_length (a := v0) (l := l)
    omega
  have hother : ∀ v, v ≠ v0 → ∀ t i c, SelInv l n v t i c → SelInv l (n + 1) v t i c := by
    intro v hv t i c q
    refine ⟨q.len, q.ipos, q.ile, ?_, q.lt, q.val, q.head⟩
    rw [countOf_succ hn, hv0, if_neg (by omega), q.cnt]; rfl
  have hmod : toSize (c + 1) = c + 1 := by rw [toSize, Nat.mod_eq_of_lt (by omega)]
  rw [selStep, at?_some hi, Res.ok_bind, at?_some hc, Res.ok_bind]
  simp only [hmod, setAt?_ok _ (lt_of_some hc), Res.ok_bind]
  by_cases hge : i * 256 ≤ c + 1
  · rw [if_pos hge, selPut]
    simp only [at?_some ht, Res.ok_bind]
    by_cases hit : i < t.length
    · rw [if_pos hit, setAt?_ok _ hit, Res.ok_bind, setAt?_ok _ (lt_of_some ht), Res.ok_bind,
        setAt?_ok _ (lt_of_some hi), Res.ok_bind, Res.pure_eq]
      refine ⟨_, rfl, by simp [hlen], fun v hv => ?_⟩
      by_cases hvv : v = v0
      · subst hvv
        have hlt := inv.lt hit
        have hil : i < 2 ^ 31 := by
          have := inv.len
          have := List.count_le_length (a := v) (l := l)
          omega
        refine ⟨t.set i (toSize (n + 1)), toSize (i + 1), c + 1, ?_, ?_, ?_, ?_⟩
        · simp [lt_of_some ht]
        · simp [lt_of_some hi]
        · simp [lt_of_some hc]
        · have hm2 : toSize (i + 1) = i + 1 := by rw [toSize, Nat.mod_eq_of_lt (by omega)]
          have hm3 : toSize (n + 1) = n + 1 := by rw [toSize, Nat.mod_eq_of_lt (by omega)]
          rw [hm2, hm3]
          refine ⟨by simp [inv.len], by omega, by left; simp; omega, hcs.symm, fun _ => by omega, ?_, ?_⟩
          · intro j hj hji
            rw [List.getElem_set]
            by_cases hij : i = j
            · subst hij
              simp only [if_true]
              exact ⟨by omega, by rw [hcs]; omega⟩
            · rw [if_neg hij]
              exact inv.val j (by simpa using hj) (by omega)
          · rw [List.getD_eq_getElem?_getD, List.getElem?_set_ne (by have := inv.ipos; omega),
              ← List.getD_eq_getElem?_getD, inv.head]
      · obtain ⟨t', i', c', g1, g2, g3, g4⟩ := hall v hv
        refine ⟨t', i', c', ?_, ?_, ?_, hother v hvv _ _ _ g4⟩
        · simp [List.getElem?_set_ne (Ne.symm hvv), g1]
        · simp [List.getElem?_set_ne (Ne.symm hvv), g2]
        · simp [List.getElem?_set_ne (Ne.symm hvv), g3]
    · rw [if_neg hit, Res.pure_eq]
      refine ⟨_, rfl, by simp [hlen], fun v hv => ?_⟩
      by_cases hvv : v = v0
      · subst hvv
        refine ⟨t, i, c + 1, ht, hi, by simp [lt_of_some hc], inv.len, inv.ipos, inv.ile, hcs.symm,
          fun h => absurd h hit, inv.val, inv.head⟩
      · obtain ⟨t', i', c', g1, g2, g3, g4⟩ := hall v hv
        exact ⟨t', i', c', g1, g2, by simp [List.getElem?_set_ne (Ne.symm hvv), g3], hother v hvv _ _ _ g4⟩
  · rw [if_neg hge, Res.pure_eq]
    refine ⟨_, rfl, by simp [hlen], fun v hv => ?_⟩
    by_cases hvv : v = v0
    · subst hvv
      refine ⟨t, i, c + 1, ht, hi, by simp [lt_of_some hc], inv.len, inv.ipos, inv.ile, hcs.symm,
        fun h => by omega, inv.val, inv.head⟩
    · obtain ⟨t', i', c', g1, g2, g3, g4⟩ := hall v hv
      exact ⟨t', i', c', g1, g2, by simp [List.getElem?_set_ne (Ne.symm hvv), g3], hother v hvv _ _ _ g4⟩

theorem selLoop_spec {M : Nat} {l : List Nat} (hl : l.length < 2 ^ 32) (hM : ∀ x ∈ l, x < M) (k : Nat) :
    ∀ (n : Nat) (s : SelSt), n + k = l.length → SelAll M l n s →
    ∃ s', selLoop (l.drop n) n s = .ok s' ∧ SelAll M l l.length s' := by
  induction k with
  | zero =>
    intro n s hn h
    rw [List.drop_of_length_le (by omega)]
    exact ⟨s, rfl, by rw [show l.length = n by omega]; exact h⟩
  | succ k ih =>
    intro n s hn h
    obtain ⟨s1, e1, e2⟩ := selStep_spec (n := n) (by omega) hl hM h
    obtain ⟨s2, f1, f2⟩ := ih (n + 1) s1 (by omega) e2
    refine ⟨s2, ?_, f2⟩
    rw [List.drop_eq_getElem_cons (by omega), selLoop, e1, Res.ok_bind, f1]

/-- The state of a select table every `init` leaves behind (and the constructor). -/
def Reusable (wm : WM) : Prop := ∀ t ∈ wm.selTbl, t.getD 0 0 = 0

theorem selSizes_spec {B : Nat} {l : List Nat} {wm : WM} (h : Built B l wm) (hn : l.length < 2 ^ 32)
    (hl : ∀ x ∈ l, x < 2 ^ B) {old : List (List Nat)} (hold : ∀ t ∈ old, t.getD 0 0 = 0) (k : Nat) :
    ∀ v, v + k = 2 ^ B → v + k ≤ old.length → ∃ ts, selSizes wm old k v = .ok ts ∧ ts.length = k ∧
      ∀ j, j < k → ∃ t, ts[j]? = some t ∧ t.length = (l.count (v + j) + 255) / 256 ∧ t.getD 0 0 = 0 := by
  induction k with
  | zero => intro v _ _; exact ⟨[], rfl, rfl, fun j hj => by omega⟩
  | succ k ih =>
    intro v hv ho
    obtain ⟨ts, e1, e2, e3⟩ := ih (v + 1) (by omega) (by omega)
    refine ⟨vresize 0 (old[v]'(by omega)) (getBlockNum (l.count v) 256) :: ts, ?_, by simp [e2], fun j hj => ?_⟩
    · rw [selSizes, sizeVal, h.rank hn hl (by omega), Res.ok_bind, at?_eq_ok (by omega), Res.ok_bind, e1,
        Res.ok_bind, Res.pure_eq, h.size, countOf_ge (Nat.le_refl _)]
    · cases j with
      | zero =>
        refine ⟨_, rfl, ?_, ?_⟩
        · have := List.count_le_length (a := v) (l := l)
          rw [vresize_length, getBlockNum, Nat.mod_eq_of_lt (by omega)]; rfl
        · have := hold (old[v]'(by omega)) (List.getElem_mem _)
          simp only [List.getD_eq_getElem?_getD] at this ⊢
          rw [vresize, List.getElem?_append, List.getElem?_take]
          split
          · rename_i hc
            rw [List.length_take] at hc
            rw [if_pos (by omega)]; exact this
          · rw [List.getElem?_replicate]; split <;> rfl
      | succ j =>
        obtain ⟨t, g1, g2, g3⟩ := e3 j (by omega)
        exact ⟨t, by simpa using g1, by rw [g2, show v + 1 + j = v + (j + 1) by omega], g3⟩

theorem initSelTbl_spec {B : Nat} {l : List Nat} {wm : WM} (h : Built B l wm) (hn : l.length < 2 ^ 32)
    (hl : ∀ x ∈ l, x < 2 ^ B) (hold : Reusable wm) :
    ∃ ts, initSelTbl wm l = .ok ts ∧ ts.length = 2 ^ B ∧
      ∀ v, v < 2 ^ B → ∃ t, ts[v]? = some t ∧ SelOK l v t := by
  obtain ⟨ts, e1, e2, e3⟩ := selSizes_spec h hn hl (old := vresize [] wm.selTbl wm.maxVal) (by
      intro t ht
      rw [vresize, List.mem_append] at ht
      rcases ht with ht | ht
      · exact hold t (List.mem_of_mem_take ht)
      · rw [List.mem_replicate] at ht; rw [ht.2]; rfl)
    (2 ^ B) 0 (by omega) (by rw [vresize_length, h.maxVal]; omega)
  have hall : SelAll (2 ^ B) l 0 ⟨ts, List.replicate wm.maxVal 1, List.replicate wm.maxVal 0⟩ := by
    refine ⟨e2, fun v hv => ?_⟩
    obtain ⟨t, g1, g2, g3⟩ := e3 v hv
    rw [Nat.zero_add] at g2
    refine ⟨t, 1, 0, g1, by simp [h.maxVal, hv], by simp [h.maxVal, hv], g2, Nat.le_refl _, Or.inr rfl,
      (countOf_zero _ _).symm, fun _ => by omega, ?_, g3⟩
    intro j hj hj1
    have : j = 0 := by omega
    subst this
    rw [List.getD_eq_getElem _ _ hj] at g3
    rw [g3]; simp [countOf_zero]
  obtain ⟨s', f1, f2, f3⟩ := selLoop_spec hn hl l.length 0 _ (by omega) hall
  refine ⟨s'.tbl, ?_, f2, fun v hv => ?_⟩
  · rw [initSelTbl]
    rw [h.maxVal] at e1 f1 ⊢
    rw [e1, Res.ok_bind, toSize, Nat.mod_eq_of_lt hn, List.take_length]
    rw [List.drop_zero] at f1
    rw [f1, Res.ok_bind, Res.pure_eq]
  · obtain ⟨t, i, c, g1, g2, g3, inv⟩ := f3 v hv
    refine ⟨t, g1, inv.len, fun j hj => ?_, inv.head⟩
    apply inv.val j hj
    have hc := inv.cnt
    rw [countOf_ge (Nat.le_refl _)] at hc
    have h1 := inv.len
    have h2 := inv.lt
    apply Nat.lt_of_lt_of_le hj
    apply Nat.le_of_not_lt
    intro hlt
    have := h2 hlt
    omega

/-! ## The search -/

section search
variable {B : Nat} {l : List Nat} {wm : WM} {v : Nat}

theorem selBin_spec (h : Built B l wm) (hn : l.length < 2 ^ 32) (hl : ∀ x ∈ l, x < 2 ^ B) (hv : v < 2 ^ B)
    (r : Nat) (d : Nat) : ∀ (L R : Nat), R - L ≤ d → L ≤ R →
    ∃ x, selBin wm v r L R = .ok x ∧ L ≤ x ∧ x ≤ R ∧ (∀ y, L ≤ y → y < x → countOf l v y < r) ∧
      (x = R ∨ r ≤ countOf l v x) := by
  induction d with
  | zero =>
    intro L R hd hLR
    refine ⟨L, by rw [selBin, dif_neg (by omega)], Nat.le_refl _, hLR, fun y h1 h2 => by omega, Or.inl (by omega)⟩
  | succ d ih =>
    intro L R hd hLR
    by_cases hlt : L < R
    · rw [selBin, dif_pos hlt]
      simp only [h.rank hn hl hv, Res.ok_bind]
      by_cases hc : countOf l v ((L + R) / 2) < r
      · rw [if_pos hc]
        obtain ⟨x, e1, e2, e3, e4, e5⟩ := ih ((L + R) / 2 + 1) R (by omega) (by omega)
        refine ⟨x, e1, by omega, e3, fun y h1 h2 => ?_, e5⟩
        by_cases hy : (L + R) / 2 + 1 ≤ y
        · exact e4 y hy h2
        · exact Nat.lt_of_le_of_lt (countOf_mono l v (by omega)) hc
      · rw [if_neg hc]
        obtain ⟨x, e1, e2, e3, e4, e5⟩ := ih L ((L + R) / 2) (by omega) (by omega)
        refine ⟨x, e1, e2, by omega, e4, Or.inr ?_⟩
        rcases e5 with e5 | e5
        · rw [e5]; omega
        · exact e5
    · refine ⟨L, by rw [selBin, dif_neg (by omega)], Nat.le_refl _, hLR, fun y h1 h2 => by omega, Or.inl (by omega)⟩

theorem selScan_none (h : Built B l wm) (hn : l.length < 2 ^ 32) (hl : ∀ x ∈ l, x < 2 ^ B) (hv : v < 2 ^ B)
    {r : Nat} (hr : l.count v < r) (d : Nat) : ∀ L, wm.size - L ≤ d → selScan wm v r L = .ok NotFound := by
  induction d with
  | zero =>
    intro L hd
    have := countOf_le l v L
    rw [selScan, h.rank hn hl hv, Res.ok_bind, if_neg (by omega), dif_pos (by omega), Res.pure_eq]
  | succ d ih =>
    intro L hd
    have := countOf_le l v L
    rw [selScan, h.rank hn hl hv, Res.ok_bind, if_neg (by omega)]
    by_cases hs : wm.size < L + 1
    · rw [dif_pos hs, Res.pure_eq]
    · rw [dif_neg hs]; exact ih (L + 1) (by omega)

theorem select_spec (h : Built B l wm) (hn : l.length < 2 ^ 32) (hl : ∀ x ∈ l, x < 2 ^ B) (hv : v < 2 ^ B)
    {t : List Nat} (ht : wm.selTbl[v]? = some t) (hs : SelOK l v t) {r : Nat} (hr : r < 2 ^ 64) :
    (r < l.count v → ∃ p, select true wm v r = .ok p ∧ IsNth l v r p) ∧
    (l.count v ≤ r → select true wm v r = .ok NotFound) := by
  have hlen := hs.len
  have hcl := List.count_le_length (a := v) (l := l)
  by_cases hge : r / 256 ≥ t.length
  · refine ⟨fun hr => by omega, fun _ => ?_⟩
    rw [select]
    simp only [Bool.not_true, Bool.false_eq_true, if_false, at?_some ht, Res.ok_bind, if_pos hge, Res.pure_eq]
  have hmod : (r + 1) % 2 ^ 64 = r + 1 := Nat.mod_eq_of_lt (by omega)
  have hlt : r / 256 < t.length := by omega
  obtain ⟨v1, v2⟩ := hs.val (r / 256) hlt
  have hsub : sub64 t.length 1 = t.length - 1 := sub64_eq (by omega) (by omega)
  have hR : ∃ R, selEnd wm t (r / 256) = .ok R ∧
      R ≤ l.length ∧ t[r / 256] ≤ R ∧ (R = l.length ∨ r + 1 ≤ countOf l v R) := by
    rw [selEnd, hsub]
    by_cases hlast : r / 256 ≥ t.length - 1
    · exact ⟨l.length, by rw [if_pos hlast, h.size], Nat.le_refl _, v1, Or.inl rfl⟩
    · obtain ⟨w1, w2⟩ := hs.val (r / 256 + 1) (by omega)
      refine ⟨_, by rw [if_neg hlast, at?_eq_ok (by omega)], w1, ?_, Or.inr (by omega)⟩
      apply Nat.le_of_not_lt
      intro hlt
      have := countOf_mono l v (Nat.le_of_lt hlt)
      omega
  obtain ⟨R, r1, r2, r3, r4⟩ := hR
  obtain ⟨x, x1, x2, x3, x4, x5⟩ := selBin_spec h hn hl hv (r + 1) _ (t[r / 256]) R (Nat.le_refl _) r3
  have hsel : select true wm v r = selScan wm v (r + 1) (x - 1) := by
    rw [select]
    simp only [Bool.not_true, Bool.false_eq_true, if_false, at?_some ht, Res.ok_bind, if_neg hge,
      at?_eq_ok hlt, r1, hmod, x1]
  rw [hsel]
  refine ⟨fun hrc => ?_, fun hrc => selScan_none h hn hl hv (by omega) _ _ (Nat.le_refl _)⟩
  obtain ⟨p, p1, p2, p3⟩ := exists_nth l v r hrc
  have hp1 : countOf l v (p + 1) = r + 1 := by
    rw [List.getElem?_eq_getElem p1, Option.some.injEq] at p2
    rw [countOf_succ p1, p2, p3]; simp
  have hxp : x = p + 1 := by
    have a1 : p < x := by
      apply Nat.lt_of_not_le
      intro hxp
      have h1 := countOf_mono l v hxp
      rcases x5 with x5 | x5
      · rcases r4 with r4 | r4
        · omega
        · subst x5; omega
      · omega
    have a2 : x ≤ p + 1 := by
      apply Nat.le_of_not_lt
      intro hlt
      by_cases hL : t[r / 256] ≤ p + 1
      · have := x4 (p + 1) hL hlt; omega
      · have := countOf_mono l v (show p + 1 ≤ t[r / 256] by omega)
        omega
    omega
  subst hxp
  refine ⟨p, ?_, p2, p3⟩
  have hz := h.size
  rw [Nat.add_sub_cancel, selScan, h.rank hn hl hv, Res.ok_bind, if_neg (by omega), dif_neg (by omega), selScan,
    h.rank hn hl hv, Res.ok_bind, if_pos hp1, Res.pure_eq, sub64_eq (by omega) (by omega), Nat.add_sub_cancel]

end search

end Verif.Wavelet
