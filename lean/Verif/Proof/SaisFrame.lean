import Verif.Proof.SaisStages
import Verif.Spec.FMindex

set_option linter.unusedSimpArgs false

/-! What the sorter does not touch, and its result as a list. -/
namespace Verif.Sais
open Finset

/-- Nothing changed from `lim` on. -/
def Fr (lim : Nat) (A A' : Arr) : Prop := ∀ x, lim ≤ x → A' x = A x

theorem Fr.refl {lim : Nat} {A : Arr} : Fr lim A A := fun _ _ => rfl
theorem Fr.trans {lim : Nat} {A B C : Arr} (h1 : Fr lim A B) (h2 : Fr lim B C) : Fr lim A C := fun x hx => (h2 x hx).trans (h1 x hx)
theorem Fr.mono {lim lim' : Nat} {A B : Arr} (h : Fr lim A B) (hl : lim ≤ lim') : Fr lim' A B := fun x hx => h x (by omega)

theorem wr_fr {lim : Nat} {A A' : Arr} {i v : Int} (h : wr lim A i v = .ok A') : Fr lim A A' := by
  unfold wr at h
  by_cases hc : 0 ≤ i ∧ i < lim
  · rw [if_pos hc] at h
    injection h with h
    subst h
    intro x hx
    have : x ≠ i.toNat := by omega
    simp only [upd, this, if_false]
  · rw [if_neg hc] at h
    cases h

theorem zeroLoop_fr {lim : Nat} : ∀ (c i : Nat) (A A' : Arr), zeroLoop lim c i A = .ok A' → Fr lim A A'
  | 0, _, A, A', h => by
    injection h with h
    subst h
    exact Fr.refl
  | c + 1, i, A, A', h => by
    simp only [zeroLoop, Res.bind_eq_ok] at h
    obtain ⟨B, h1, h2⟩ := h
    exact (wr_fr h1).trans (zeroLoop_fr c _ _ _ h2)

variable {T : Nat → Nat} {n k lim : Nat}

theorem switch_SA {s s' : Ind} {c : Nat} (h : switch k s c = .ok s') : s'.SA = s.SA := by
  unfold switch at h
  by_cases hc : c = s.c1
  · rw [if_pos hc] at h
    injection h with h
    rw [h]
  · rw [if_neg hc] at h
    simp only [Res.bind_eq_ok, Res.pure_eq] at h
    obtain ⟨B, _, b, _, h⟩ := h
    injection h with h
    rw [← h]

theorem stepL_fr {i : Nat} {s s' : Ind} (h : stepL T n k i s = .ok s') : Fr n s.SA s'.SA := by
  simp only [stepL, Res.bind_eq_ok] at h
  obtain ⟨j, _, A, h1, h⟩ := h
  by_cases hj : 0 < j
  · rw [if_pos hj] at h
    simp only [Res.bind_eq_ok, Res.pure_eq] at h
    obtain ⟨c, _, s1, h2, v, _, B, h3, h⟩ := h
    injection h with h
    subst h
    have e := switch_SA h2
    simp only at e
    have := wr_fr h3
    rw [e] at this
    exact (wr_fr h1).trans this
  · rw [if_neg hj] at h
    injection h with h
    subst h
    exact wr_fr h1

theorem loopL_fr : ∀ (c i : Nat) (s s' : Ind), loopL T n k c i s = .ok s' → Fr n s.SA s'.SA
  | 0, _, s, s', h => by
    injection h with h
    subst h
    exact Fr.refl
  | c + 1, i, s, s', h => by
    simp only [loopL, Res.bind_eq_ok] at h
    obtain ⟨s1, h1, h2⟩ := h
    exact (stepL_fr h1).trans (loopL_fr c _ _ _ h2)

theorem stepS_fr {i : Nat} {s s' : Ind} (h : stepS T n k i s = .ok s') : Fr n s.SA s'.SA := by
  simp only [stepS, Res.bind_eq_ok] at h
  obtain ⟨j, _, h⟩ := h
  by_cases hj : 0 < j
  · rw [if_pos hj] at h
    simp only [Res.bind_eq_ok, Res.pure_eq] at h
    obtain ⟨c, _, s1, h2, v, _, B, h3, h⟩ := h
    injection h with h
    subst h
    have e := switch_SA h2
    have := wr_fr h3
    rw [e] at this
    exact this
  · rw [if_neg hj] at h
    simp only [Res.bind_eq_ok, Res.pure_eq] at h
    obtain ⟨A, h1, h⟩ := h
    injection h with h
    subst h
    exact wr_fr h1

theorem loopS_fr : ∀ (i : Nat) (s s' : Ind), loopS T n k i s = .ok s' → Fr n s.SA s'.SA
  | 0, s, s', h => by
    injection h with h
    subst h
    exact Fr.refl
  | i + 1, s, s', h => by
    simp only [loopS, Res.bind_eq_ok] at h
    obtain ⟨s1, h1, h2⟩ := h
    exact (stepS_fr h1).trans (loopS_fr i _ _ h2)

theorem induceSA_fr {A A' : Arr} {u u' : Buf} (h : induceSA T n k A u = .ok (A', u')) : Fr n A A' := by
  simp only [induceSA, induceL, induceS, Res.bind_eq_ok, Res.pure_eq] at h
  obtain ⟨⟨A1, u1⟩, ⟨_, _, _, _, _, _, _, _, _, _, A0, h0, s1, h1, e1⟩, _, _, _, _, _, _, s2, h2, e2⟩ := h
  injection e1 with e1
  injection e1 with e1 _
  injection e2 with e2
  injection e2 with e2 _
  subst e1 e2
  have f2 := loopS_fr _ _ _ h2
  exact ((wr_fr h0).trans (loopL_fr _ _ _ _ h1)).trans f2

theorem bwtStepL_fr {i : Nat} {s s' : Ind} (h : bwtStepL T n k i s = .ok s') : Fr n s.SA s'.SA := by
  simp only [bwtStepL, Res.bind_eq_ok] at h
  obtain ⟨j, _, h⟩ := h
  by_cases hj : 0 < j
  · rw [if_pos hj] at h
    simp only [Res.bind_eq_ok, Res.pure_eq] at h
    obtain ⟨c, _, A, h1, s1, h2, v, _, B, h3, h⟩ := h
    injection h with h
    subst h
    have e := switch_SA h2
    simp only at e
    have := wr_fr h3
    rw [e] at this
    exact (wr_fr h1).trans this
  · rw [if_neg hj] at h
    by_cases hz : j ≠ 0
    · rw [if_pos hz] at h
      simp only [Res.bind_eq_ok, Res.pure_eq] at h
      obtain ⟨A, h1, h⟩ := h
      injection h with h
      subst h
      exact wr_fr h1
    · rw [if_neg hz, Res.pure_eq] at h
      injection h with h
      subst h
      exact Fr.refl

theorem bwtLoopL_fr : ∀ (c i : Nat) (s s' : Ind), bwtLoopL T n k c i s = .ok s' → Fr n s.SA s'.SA
  | 0, _, s, s', h => by
    injection h with h
    subst h
    exact Fr.refl
  | c + 1, i, s, s', h => by
    simp only [bwtLoopL, Res.bind_eq_ok] at h
    obtain ⟨s1, h1, h2⟩ := h
    exact (bwtStepL_fr h1).trans (bwtLoopL_fr c _ _ _ h2)

theorem bwtStepS_fr {i : Nat} {s s' : Ind × Int} (h : bwtStepS T n k i s = .ok s') : Fr n s.1.SA s'.1.SA := by
  simp only [bwtStepS, Res.bind_eq_ok] at h
  obtain ⟨j, _, h⟩ := h
  by_cases hj : 0 < j
  · rw [if_pos hj] at h
    simp only [Res.bind_eq_ok, Res.pure_eq] at h
    obtain ⟨c, _, A, h1, s1, h2, v, _, B, h3, h⟩ := h
    injection h with h
    subst h
    have e := switch_SA h2
    simp only at e
    have := wr_fr h3
    rw [e] at this
    exact (wr_fr h1).trans this
  · rw [if_neg hj] at h
    by_cases hz : j ≠ 0
    · rw [if_pos hz] at h
      simp only [Res.bind_eq_ok, Res.pure_eq] at h
      obtain ⟨A, h1, h⟩ := h
      injection h with h
      subst h
      exact wr_fr h1
    · rw [if_neg hz, Res.pure_eq] at h
      injection h with h
      subst h
      exact Fr.refl

theorem bwtLoopS_fr : ∀ (i : Nat) (s s' : Ind × Int), bwtLoopS T n k i s = .ok s' → Fr n s.1.SA s'.1.SA
  | 0, s, s', h => by
    injection h with h
    subst h
    exact Fr.refl
  | i + 1, s, s', h => by
    simp only [bwtLoopS, Res.bind_eq_ok] at h
    obtain ⟨s1, h1, h2⟩ := h
    exact (bwtStepS_fr h1).trans (bwtLoopS_fr i _ _ h2)

theorem computeBWT_fr {A A' : Arr} {u u' : Buf} {e : Int} (h : computeBWT T n k A u = .ok (e, A', u')) : Fr n A A' := by
  simp only [computeBWT, bwtL, bwtS, Res.bind_eq_ok, Res.pure_eq] at h
  obtain ⟨⟨A1, u1⟩, ⟨_, _, _, _, _, _, _, _, _, _, A0, h0, s1, h1, e1⟩, _, _, _, _, _, _, s2, h2, e2⟩ := h
  injection e1 with e1
  injection e1 with e1 _
  injection e2 with e2
  injection e2 with _ e2
  injection e2 with e2 _
  subst e1 e2
  have f2 := bwtLoopS_fr _ _ _ h2
  exact ((wr_fr h0).trans (bwtLoopL_fr _ _ _ _ h1)).trans f2

theorem finish_fr {isbwt : Bool} {A A' : Arr} {u u' : Buf} {e : Int} (h : finish isbwt T n k A u = .ok (e, A', u')) : Fr n A A' := by
  unfold finish at h
  cases isbwt
  · simp only [Bool.false_eq_true, if_false, Res.bind_eq_ok, Res.pure_eq] at h
    obtain ⟨⟨A1, u1⟩, h1, h⟩ := h
    injection h with h
    injection h with _ h
    injection h with h _
    subst h
    exact induceSA_fr h1
  · simp only [if_true] at h
    exact computeBWT_fr h

theorem scanLoop_fr {σ : Type} {f : σ → Arr} {body : Nat → Nat → σ → Res σ} (hb : ∀ p c s s', body p c s = .ok s' → Fr lim (f s) (f s')) :
    ∀ (i c c1 : Nat) (s s' : σ), scanLoop T n body i c c1 s = .ok s' → Fr lim (f s) (f s')
  | 0, _, _, s, s', h => by
    injection h with h
    subst h
    exact Fr.refl
  | i + 1, c, c1, s, s', h => by
    simp only [scanLoop, Res.bind_eq_ok] at h
    obtain ⟨c0, _, h⟩ := h
    by_cases w : c0 < c1 + c
    · rw [if_pos w] at h
      exact scanLoop_fr hb i _ _ _ _ h
    · rw [if_neg w] at h
      by_cases v : c ≠ 0
      · rw [if_pos v] at h
        simp only [Res.bind_eq_ok] at h
        obtain ⟨s1, h1, h2⟩ := h
        exact (hb _ _ _ _ h1).trans (scanLoop_fr hb i _ _ _ _ h2)
      · rw [if_neg v] at h
        exact scanLoop_fr hb i _ _ _ _ h

theorem scan_fr {σ : Type} (f : σ → Arr) {body : Nat → Nat → σ → Res σ} (hb : ∀ p c s s', body p c s = .ok s' → Fr lim (f s) (f s'))
    {s s' : σ} (h : scan T n body s = .ok s') : Fr lim (f s) (f s') := by
  simp only [scan, Res.bind_eq_ok] at h
  obtain ⟨_, _, h⟩ := h
  exact scanLoop_fr hb _ _ _ _ _ h

theorem place_fr {p c : Nat} {s s' : Arr × Arr} (h : place n k p c s = .ok s') : Fr n s.1 s'.1 := by
  simp only [place, Res.bind_eq_ok, Res.pure_eq] at h
  obtain ⟨b, _, B, _, A, h1, h⟩ := h
  injection h with h
  subst h
  exact wr_fr h1

theorem putLoop_fr : ∀ (i : Nat) (s s' : Arr × Arr), putLoop T n k i s = .ok s' → Fr n s.1 s'.1
  | 0, s, s', h => by
    injection h with h
    subst h
    exact Fr.refl
  | i + 1, s, s', h => by
    simp only [putLoop, Res.bind_eq_ok] at h
    obtain ⟨j, _, A, h1, c, _, s1, h2, h3⟩ := h
    exact ((wr_fr h1).trans (place_fr h2)).trans (putLoop_fr i _ _ h3)

theorem putBack_fr {A : Arr} {u : Buf} {fs : Nat} : Fr (n + fs) A (putBack A u fs n k) := by
  intro x hx
  unfold putBack
  by_cases h1 : fs < k
  · rw [if_pos h1]
  · rw [if_neg h1]
    by_cases h2 : k ≤ fs - k
    · rw [if_pos h2]
      show (if _ then _ else _) = _
      rw [if_neg (by omega), if_neg (by omega)]
    · rw [if_neg h2]
      show (if _ then _ else _) = _
      rw [if_neg (by omega)]

theorem stage1_fr {fs : Nat} {A A' g : Arr} (h : stage1 T fs n k A g = .ok A') : Fr (n + fs) A A' := by
  simp only [stage1, Res.bind_eq_ok, Res.pure_eq] at h
  obtain ⟨u1, _, u2, _, A1, h1, ⟨A2, B⟩, h2, ⟨A3, u3⟩, h3, h⟩ := h
  injection h with h
  subst h
  have f2 : Fr n A1 A2 := scan_fr (f := fun s : Arr × Arr => s.1) (fun _ _ _ _ hh => place_fr hh) h2
  exact ((((zeroLoop_fr _ _ _ _ h1).trans f2).trans (induceSA_fr h3)).mono (by omega)).trans putBack_fr

theorem compact_fr : ∀ (c i m : Nat) (A A' : Arr) (m' : Nat), compactLoop T lim n c i m A = .ok (A', m') → Fr lim A A'
  | 0, _, _, A, A', m', h => by
    injection h with h
    injection h with h _
    subst h
    exact Fr.refl
  | c + 1, i, m, A, A', m', h => by
    simp only [compactLoop, Res.bind_eq_ok] at h
    obtain ⟨p, _, t, _, h⟩ := h
    cases t
    · simp only [Bool.false_eq_true, if_false] at h
      exact compact_fr c _ _ _ _ _ h
    · simp only [if_true, Res.bind_eq_ok] at h
      obtain ⟨B, h1, h⟩ := h
      exact (wr_fr h1).trans (compact_fr c _ _ _ _ _ h)

theorem compact_le : ∀ (c i m : Nat) (A A' : Arr) (m' : Nat), compactLoop T lim n c i m A = .ok (A', m') → m' ≤ m + c
  | 0, _, _, A, A', m', h => by
    injection h with h
    injection h with _ h
    omega
  | c + 1, i, m, A, A', m', h => by
    simp only [compactLoop, Res.bind_eq_ok] at h
    obtain ⟨p, _, t, _, h⟩ := h
    cases t
    · simp only [Bool.false_eq_true, if_false] at h
      have := compact_le c _ _ _ _ _ h
      omega
    · simp only [if_true, Res.bind_eq_ok] at h
      obtain ⟨B, h1, h⟩ := h
      have := compact_le c _ _ _ _ _ h
      omega

theorem name_fr {m : Nat} : ∀ (c i name : Nat) (q ql : Int) (A A' : Arr) (nm : Nat),
    nameLoop T lim n m c i name q ql A = .ok (A', nm) → Fr lim A A'
  | 0, _, _, _, _, A, A', _, h => by
    injection h with h
    injection h with h _
    subst h
    exact Fr.refl
  | c + 1, i, name, q, ql, A, A', _, h => by
    simp only [nameLoop, Res.bind_eq_ok] at h
    obtain ⟨p, _, pl, _, t, _, h⟩ := h
    cases t
    · simp only [Bool.false_eq_true, if_false, Res.bind_eq_ok] at h
      obtain ⟨B, h1, h⟩ := h
      exact (wr_fr h1).trans (name_fr c _ _ _ _ _ _ _ h)
    · simp only [if_true, Res.bind_eq_ok] at h
      obtain ⟨B, h1, h⟩ := h
      exact (wr_fr h1).trans (name_fr c _ _ _ _ _ _ _ h)

theorem gather_fr {m r : Nat} : ∀ (c : Nat) (j : Int) (A A' : Arr), gatherLoop lim m r c j A = .ok A' → Fr lim A A'
  | 0, _, A, A', h => by
    injection h with h
    subst h
    exact Fr.refl
  | c + 1, j, A, A', h => by
    simp only [gatherLoop, Res.bind_eq_ok] at h
    obtain ⟨v, _, h⟩ := h
    by_cases w : v ≠ 0
    · rw [if_pos w] at h
      simp only [Res.bind_eq_ok] at h
      obtain ⟨B, h1, h⟩ := h
      exact (wr_fr h1).trans (gather_fr c _ _ _ h)
    · rw [if_neg w] at h
      exact gather_fr c _ _ _ h

theorem map_fr {r : Nat} : ∀ (c i : Nat) (A A' : Arr), mapLoop lim r c i A = .ok A' → Fr lim A A'
  | 0, _, A, A', h => by
    injection h with h
    subst h
    exact Fr.refl
  | c + 1, i, A, A', h => by
    simp only [mapLoop, Res.bind_eq_ok] at h
    obtain ⟨v, _, w, _, B, h1, h⟩ := h
    exact (wr_fr h1).trans (map_fr c _ _ _ h)

theorem stage3_fr {alloc : Nat → Nat → Bool} {d fs m : Nat} {A A' g : Arr} {e : Int} {isbwt : Bool}
    (h : stage3 alloc d T fs n k m isbwt A g = .ok (e, A')) :
    Fr (n + fs) A A' := by
  unfold stage3 at h
  by_cases hal : fs < k ∧ alloc d k = false
  · rw [if_pos hal] at h
    cases h
  · rw [if_neg hal] at h
    simp only [Res.bind_eq_ok, Res.pure_eq] at h
    obtain ⟨u1, _, u2, _, A1, h1, ⟨A2, B⟩, h2, ⟨e3, A3, u3⟩, h3, h⟩ := h
    injection h with h
    injection h with _ h
    subst h
    exact ((((zeroLoop_fr _ _ _ _ h1).trans (putLoop_fr _ _ _ h2)).trans (finish_fr h3)).mono (by omega)).trans putBack_fr

/-- A call touches only `SA[0..n+fs-1]`, the callee of a recursive call so leaves its text alone. -/
theorem suffixsort_fr (alloc : Nat → Nat → Bool) (g : Arr) : ∀ (depth : Nat) (T : Nat → Nat) (fs n k : Nat) (isbwt : Bool) (A A' : Arr) (e : Int),
    suffixsort alloc g depth T fs n k isbwt A = .ok (e, A') → Fr (n + fs) A A'
  | 0, _, _, _, _, _, _, _, _, h => by cases h
  | depth + 1, T, fs, n, k, isbwt, A, A', e, h => by
    simp only [suffixsort] at h
    by_cases hal : fs < k ∧ alloc (2 * depth + 1) k = false
    · rw [if_pos hal] at h
      cases h
    rw [if_neg hal] at h
    simp only [Res.bind_eq_ok] at h
    obtain ⟨A1, h1, ⟨A2, m⟩, h2, A3, h3, ⟨A4, j⟩, h4, ⟨A5, name⟩, h5, h⟩ := h
    simp only at h3 h4 h5 h
    have f4 : Fr (n + fs) A3 A4 := scan_fr (f := fun s : Arr × Nat => s.1) (fun p c s s' hh => by
      simp only [lenBody, Res.bind_eq_ok, Res.pure_eq] at hh
      obtain ⟨B, h1, hh⟩ := hh
      injection hh with hh
      subst hh
      exact wr_fr h1) h4
    have f5 := ((((stage1_fr h1).trans (compact_fr _ _ _ _ _ _ h2)).trans (zeroLoop_fr _ _ _ _ h3)).trans f4).trans (name_fr _ _ _ _ _ _ _ _ h5)
    by_cases hn : name < m
    · rw [if_pos hn] at h
      simp only [Res.bind_eq_ok] at h
      obtain ⟨A6, h6, ⟨e7, A7⟩, h7, h⟩ := h
      simp only at h
      have f6 := f5.trans (gather_fr _ _ _ _ h6)
      have hm := compact_le _ _ _ _ _ _ h2
      have f7 : Fr (n + fs) A6 A7 := (suffixsort_fr alloc g depth _ _ _ _ _ _ _ _ h7).mono (by omega)
      by_cases he : e7 ≠ 0
      · rw [if_pos he] at h
        rw [Res.pure_eq] at h
        injection h with h
        injection h with _ h
        subst h
        exact f6.trans f7
      · rw [if_neg he] at h
        simp only [Res.bind_eq_ok] at h
        obtain ⟨⟨A8, j8⟩, h8, A9, h9, h⟩ := h
        simp only at h9
        have f8 : Fr (n + fs) A7 A8 := scan_fr (f := fun s : Arr × Int => s.1) (fun p c s s' hh => by
          simp only [refillBody, Res.bind_eq_ok, Res.pure_eq] at hh
          obtain ⟨B, h1, hh⟩ := hh
          injection hh with hh
          subst hh
          exact wr_fr h1) h8
        exact (((f6.trans f7).trans f8).trans (map_fr _ _ _ _ h9)).trans (stage3_fr h)
    · rw [if_neg hn] at h
      exact f5.trans (stage3_fr h)

/-! ### The result as a list -/
open Verif.Spec.FMindex

theorem lexLt_iff : ∀ (x y : List Nat), lexLt x y = true ↔ x < y
  | [], [] => by simp [lexLt]
  | [], b :: bs => by simp [lexLt]
  | a :: as, [] => by simp [lexLt]
  | a :: as, b :: bs => by
    rw [List.cons_lt_cons_iff]
    simp [lexLt, lexLt_iff as bs]

theorem sf_drop (v : List Nat) : ∀ (d a : Nat), v.length - a = d → sf (textOf v) v.length a = v.drop a
  | 0, a, h => by
    rw [sf_end (by omega), List.drop_of_length_le (by omega)]
  | d + 1, a, h => by
    rw [sf_cons (by omega), sf_drop v d (a + 1) (by omega), List.drop_eq_getElem_cons (i := a) (by omega)]
    congr 1
    unfold textOf
    rw [List.getD_eq_getElem?_getD, List.getElem?_eq_getElem (by omega)]
    rfl

theorem suffix_array {v : List Nat} {A : Arr} (h : ∀ a, a < v.length → A (sufRank (textOf v) v.length a) = a) :
    IsSuffixArray v (listOf A v.length) := by
  have hat : ∀ i, i < v.length → ∃ a, a < v.length ∧ sufRank (textOf v) v.length a = i ∧ (A i).toNat = a := by
    intro i hi
    obtain ⟨a, ha, e⟩ := sufRank_surj (T := textOf v) hi
    refine ⟨a, ha, e, ?_⟩
    rw [← e, h a ha]
    rfl
  have hs : (listOf A v.length).Pairwise fun a b => lexLt (v.drop a) (v.drop b) = true := by
    unfold listOf
    rw [List.pairwise_map, List.pairwise_iff_getElem]
    intro i j hi hj hij
    simp only [List.length_range] at hi hj
    simp only [List.getElem_range]
    obtain ⟨a, ha, e1, e2⟩ := hat i hi
    obtain ⟨b, hb, f1, f2⟩ := hat j hj
    rw [e2, f2, lexLt_iff, ← sf_drop v _ a rfl, ← sf_drop v _ b rfl, ← sufRank_iff ha, e1, f1]
    exact hij
  refine ⟨?_, hs⟩
  have hsub : (listOf A v.length) ⊆ List.range v.length := by
    intro x hx
    unfold listOf at hx
    obtain ⟨i, hi, rfl⟩ := List.mem_map.mp hx
    obtain ⟨a, ha, _, e⟩ := hat i (List.mem_range.mp hi)
    rw [e]
    exact List.mem_range.mpr ha
  have hnd : (listOf A v.length).Nodup := by
    apply hs.imp
    intro a b hab e
    rw [e, lexLt_iff] at hab
    exact lt_irrefl _ hab
  exact (List.subperm_of_subset hnd hsub).perm_of_length_le (by simp [listOf])

theorem saisxx_all (alloc : Nat → Nat → Bool) (g : Arr) (v : List Nat) (A : Arr) (k : Nat) (hk : 0 < k) (hv : ∀ c ∈ v, c < k) :
    (∃ A', saisxx alloc g (textOf v) A v.length k = .ok (0, A') ∧ IsSuffixArray v (listOf A' v.length) ∧ ∀ x, v.length ≤ x → A' x = A x) ∨
    (saisxx alloc g (textOf v) A v.length k = .ok (-2, A) ∧ ∃ d c, alloc d c = false) := by
  unfold saisxx
  rw [if_neg (by omega)]
  by_cases h1 : (v.length : Int) ≤ 1
  · rw [if_pos h1]
    left
    by_cases h2 : (v.length : Int) = 1
    · rw [if_pos h2]
      refine ⟨_, rfl, ?_, ?_⟩
      · obtain ⟨c, rfl⟩ := List.length_eq_one_iff.mp (by omega : v.length = 1)
        exact ⟨by simp [listOf, upd], by simp [listOf, upd]⟩
      · intro x hx
        have : x ≠ 0 := by omega
        simp [upd, this]
    · rw [if_neg h2]
      have : v = [] := List.length_eq_zero_iff.mp (by omega)
      subst this
      exact ⟨A, rfl, ⟨by simp [listOf], by simp [listOf]⟩, fun _ _ => rfl⟩
  · rw [if_neg h1, Int.toNat_natCast, Int.toNat_natCast]
    rcases suffixsort_ok alloc g v.length (textOf v) 0 v.length k false A (le_refl _) (by omega) (by
        intro i hi
        unfold textOf
        rw [List.getD_eq_getElem?_getD, List.getElem?_eq_getElem (by omega)]
        exact hv _ (List.getElem_mem hi)) with ⟨e1, e2⟩ | ⟨e, A', e1, rfl, e2⟩
    · right
      rw [e1]
      exact ⟨rfl, e2⟩
    · left
      have hf := suffixsort_fr _ _ _ _ _ _ _ _ _ _ _ e1
      rw [e1]
      exact ⟨A', rfl, suffix_array e2, fun x hx => hf x (by omega)⟩

end Verif.Sais
