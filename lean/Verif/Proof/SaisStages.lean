import Verif.Proof.SaisOrder

set_option linter.unusedSimpArgs false

/-! The stages of `suffixsort`. -/
namespace Verif.Sais
open Finset

variable {T : Nat → Nat} {n k : Nat} {loc0 : Nat → Nat}

/-! ### Placing leftmost S positions -/

/-- The leftmost S positions of the bucket of `p` that are placed before it. -/
def before (T : Nat → Nat) (n : Nat) (κ : Nat → Nat) (p : Nat) : Finset Nat := (LM T n).filter fun q => T q = T p ∧ κ p < κ q

/-- Where `p` is placed, if they are placed by falling `κ`. -/
def locK (T : Nat → Nat) (n : Nat) (κ : Nat → Nat) (p : Nat) : Nat := cl T n (2 * (T p + 1)) - 1 - (before T n κ p).card

variable {κ : Nat → Nat}

theorem before_lt {p : Nat} (hp : isLMS T n p = true) : (before T n κ p).card + 1 ≤ ce T n (2 * T p + 1) := by
  have : insert p (before T n κ p) ⊆ (range n).filter fun b => code T n b = 2 * T p + 1 := by
    intro q hq
    rw [mem_insert] at hq
    rw [mem_filter, mem_range]
    rcases hq with rfl | hq
    · exact ⟨by have := lms_lt hp; omega, code_S (lms_iff.mp hp).2.1⟩
    · unfold before at hq
      rw [mem_filter, mem_LM] at hq
      exact ⟨by have := lms_lt hq.1; omega, by rw [code_S (lms_iff.mp hq.1).2.1, hq.2.1]⟩
  have := card_le_card this
  rw [card_insert_of_notMem (by simp [before])] at this
  exact this

theorem locK_eq {p : Nat} (hp : isLMS T n p = true) :
    locK T n κ p + 1 + (before T n κ p).card = cl T n (2 * (T p + 1)) ∧ cl T n (2 * T p + 1) ≤ locK T n κ p := by
  have h1 := before_lt (κ := κ) hp
  have h2 : cl T n (2 * (T p + 1)) = cl T n (2 * T p + 1) + ce T n (2 * T p + 1) := by
    rw [← cl_succ]
    rfl
  unfold locK
  omega

theorem locK_lt {p : Nat} (hp : isLMS T n p = true) : locK T n κ p < n := by
  have := (locK_eq (κ := κ) hp).1
  have := cl_le (T := T) (n := n) (2 * (T p + 1))
  omega

theorem locK_mono {p q : Nat} (hp : isLMS T n p = true) (hq : isLMS T n q = true) (h : T p < T q ∨ T p = T q ∧ κ p < κ q) :
    locK T n κ p < locK T n κ q := by
  have h1 := locK_eq (κ := κ) hp
  have h2 := locK_eq (κ := κ) hq
  rcases h with h | ⟨e, h⟩
  · have := cl_mono (T := T) (n := n) (x := 2 * (T p + 1)) (y := 2 * T q + 1) (by omega)
    omega
  · have : (before T n κ q).card < (before T n κ p).card := by
      apply card_lt_card
      unfold before
      constructor
      · intro x hx
        rw [mem_filter] at hx ⊢
        exact ⟨hx.1, by rw [hx.2.1, e], by omega⟩
      · intro hc
        have := hc (mem_filter.mpr ⟨mem_LM.mpr hq, e.symm, h⟩)
        simp at this
    rw [e] at h1
    omega

theorem locK_inj (hκ : ∀ p q, isLMS T n p = true → isLMS T n q = true → κ p = κ q → p = q) {p q : Nat}
    (hp : isLMS T n p = true) (hq : isLMS T n q = true) (h : locK T n κ p = locK T n κ q) : p = q := by
  rcases lt_trichotomy (T p) (T q) with g | g | g
  · have := locK_mono (κ := κ) hp hq (Or.inl g)
    omega
  · rcases lt_trichotomy (κ p) (κ q) with w | w | w
    · have := locK_mono (κ := κ) hp hq (Or.inr ⟨g, w⟩)
      omega
    · exact hκ p q hp hq w
    · have := locK_mono (κ := κ) hq hp (Or.inr ⟨g.symm, w⟩)
      omega
  · have := locK_mono (κ := κ) hq hp (Or.inl g)
    omega

theorem locK_Placed (hκ : ∀ p q, isLMS T n p = true → isLMS T n q = true → κ p = κ q → p = q) : Placed T n (locK T n κ) := by
  constructor
  · intro p hp
    rw [code_S (lms_iff.mp hp).2.1]
    exact (locK_eq hp).2
  · intro p hp
    rw [code_S (lms_iff.mp hp).2.1]
    have := (locK_eq (κ := κ) hp).1
    rw [show 2 * T p + 1 + 1 = 2 * (T p + 1) by omega]
    omega
  · intro p q hp hq h
    exact locK_inj hκ hp hq h

/-- The leftmost S positions `D` are placed, all other cells are as in `base`. -/
structure PI (T : Nat → Nat) (n k : Nat) (κ : Nat → Nat) (A0 base : Arr) (D : Finset Nat) (s : Arr × Arr) : Prop where
  b : ∀ c, c < k → s.2 c = cl T n (2 * (c + 1)) - (D.filter fun q => T q = c).card
  at_ : ∀ q, q ∈ D → s.1 (locK T n κ q) = q
  base : ∀ x, x < n → (∀ q, q ∈ D → locK T n κ q ≠ x) → s.1 x = base x
  fr : ∀ x, n ≤ x → s.1 x = A0 x

theorem place_ok (hκ : ∀ p q, isLMS T n p = true → isLMS T n q = true → κ p = κ q → p = q) (hT : ∀ i, i < n → T i < k)
    {A0 base : Arr} {D : Finset Nat} {s : Arr × Arr} {p : Nat} (hs : PI T n k κ A0 base D s) (hp : isLMS T n p = true)
    (hD : ∀ q, q ∈ D ↔ isLMS T n q = true ∧ κ p < κ q) :
    ∃ s', place n k p (T p) s = .ok s' ∧ PI T n k κ A0 base (insert p D) s' := by
  have hpn := lms_lt hp
  have hk := hT p (by omega)
  have hDb : (D.filter fun q => T q = T p) = before T n κ p := by
    unfold before
    ext q
    simp only [mem_filter, mem_LM, hD]
    tauto
  have hb := hs.b _ hk
  rw [hDb] at hb
  have hl := (locK_eq (κ := κ) hp).1
  have hz : s.2 (T p) - 1 = (locK T n κ p : Nat) := by omega
  unfold place
  rw [rd_ok hk, Res.ok_bind, wr_ok hk, Res.ok_bind, wr_int hz (locK_lt hp), Res.ok_bind, Res.pure_eq]
  have hnot : p ∉ D := by
    intro h
    have := ((hD p).mp h).2
    omega
  refine ⟨_, rfl, ?_, ?_, ?_, ?_⟩
  · intro c hc
    rw [filter_insert]
    by_cases e : c = T p
    · subst e
      simp only [upd, if_true]
      rw [card_insert_of_notMem (by simp [hnot]), hDb]
      omega
    · rw [if_neg (fun w => e w.symm)]
      simp only [upd, e, if_false]
      exact hs.b c hc
  · intro q hq
    rw [mem_insert] at hq
    by_cases e : q = p
    · subst e
      simp [upd]
    · rcases hq with w | w
      · exact absurd w e
      · have := ((hD q).mp w).1
        have hne : locK T n κ q ≠ locK T n κ p := fun w' => e (locK_inj hκ this hp w')
        simp only [upd, hne, if_false]
        exact hs.at_ q w
  · intro x hx h
    have hne : x ≠ locK T n κ p := fun w => h p (mem_insert_self _ _) w.symm
    simp only [upd, hne, if_false]
    exact hs.base x hx (fun q hq => h q (mem_insert_of_mem hq))
  · intro x hx
    have := locK_lt (κ := κ) hp
    have hne : x ≠ locK T n κ p := by omega
    simp only [upd, hne, if_false]
    exact hs.fr x hx

/-- The leftmost S positions behind `i`. -/
def behind (T : Nat → Nat) (n i : Nat) : Finset Nat := (LM T n).filter fun q => i < q

theorem behind_lms {p : Nat} (hp : isLMS T n p = true) : behind T n (p - 1) = insert p (behind T n p) := by
  have := (lms_iff.mp hp).1
  unfold behind
  ext q
  simp only [mem_insert, mem_filter, mem_LM]
  constructor
  · rintro ⟨h1, h2⟩
    by_cases e : q = p
    · exact Or.inl e
    · exact Or.inr ⟨h1, by omega⟩
  · rintro (rfl | h)
    · exact ⟨hp, by omega⟩
    · exact ⟨h.1, by omega⟩

theorem behind_not {p : Nat} (hp : isLMS T n p = false) : behind T n (p - 1) = behind T n p := by
  unfold behind
  ext q
  simp only [mem_filter, mem_LM]
  constructor
  · rintro ⟨h1, h2⟩
    have : q ≠ p := by
      rintro rfl
      rw [h1] at hp
      cases hp
    exact ⟨h1, by omega⟩
  · rintro ⟨h1, h2⟩
    exact ⟨h1, by omega⟩

theorem behind_zero : behind T n 0 = LM T n := by
  unfold behind
  rw [filter_true_of_mem]
  intro q hq
  exact (lms_iff.mp (mem_LM.mp hq)).1

theorem behind_last : behind T n (n - 1) = ∅ := by
  unfold behind
  rw [filter_eq_empty_iff]
  intro q hq
  have := lms_lt (mem_LM.mp hq)
  omega

theorem mem_behind {i q : Nat} : q ∈ behind T n i ↔ isLMS T n q = true ∧ i < q := by
  unfold behind
  rw [mem_filter, mem_LM]

theorem PI_Start {A0 : Arr} {s : Arr × Arr} (h : PI T n k κ A0 (fun _ => 0) (LM T n) s) : Start T n (locK T n κ) s.1 := by
  constructor
  · intro p hp
    exact h.at_ p (mem_LM.mpr hp)
  · intro x hx hne
    exact h.base x hx (fun q hq => hne q (mem_LM.mp hq))

/-! ### Stage 1 -/

theorem putBack_low {A : Arr} {u : Buf} {fs x : Nat} (h : x < n) : putBack A u fs n k x = A x := by
  unfold putBack
  split
  · rfl
  · split
    · show (if _ then _ else _) = _
      rw [if_neg (by omega), if_neg (by omega)]
    · show (if _ then _ else _) = _
      rw [if_neg (by omega)]

/-- The start of stages 1 and 3. -/
theorem buckets_ok (hT : ∀ i, i < n → T i < k) (u : Buf) :
    ∃ u1 u2, getCounts T n k u = .ok u1 ∧ getBuckets k true u1 = .ok u2 ∧ Counted T n k u2 ∧
      ∀ c, c < k → u2.B c = cl T n (2 * (c + 1)) := by
  obtain ⟨u1, g1, g2, g3⟩ := getCounts_ok hT u
  obtain ⟨u2, g4, g5, g6, g7⟩ := getBuckets_ok true u1 g3
  exact ⟨u1, u2, g1, g4, g6, by simpa using g7⟩

theorem stage1_ok (hT : ∀ i, i < n → T i < k) (h0 : 0 < n) (fs : Nat) (A g : Arr) :
    ∃ loc A', stage1 T fs n k A g = .ok A' ∧ ∀ a, a < n → A' (rk2 T n loc a) = a := by
  unfold stage1
  obtain ⟨u1, u2, g1, g2, g3, g4⟩ := buckets_ok hT (bufOf A g fs n k)
  rw [g1, Res.ok_bind, g2, Res.ok_bind, zeroLoop_ok n n 0 _ (by omega), Res.ok_bind]
  have hκ : ∀ p q, isLMS T n p = true → isLMS T n q = true → id p = id q → p = q := fun _ _ _ _ h => h
  obtain ⟨s', f1, f2⟩ := scan_ok (T := T) (n := n) (body := place n k) (fun i s => PI T n k id A (fun _ => 0) (behind T n i) s) h0
    (by
      intro p s hp hs
      rw [behind_lms hp]
      exact place_ok hκ hT hs hp (fun q => mem_behind))
    (by
      intro p s _ hp hs
      rw [behind_not hp]
      exact hs)
    (fun x => if 0 ≤ x ∧ x < 0 + n then 0 else A x, u2.B)
    (by
      rw [behind_last]
      refine ⟨?_, ?_, ?_, ?_⟩
      · intro c hc
        simp [g4 c hc]
      · intro q hq
        simp at hq
      · intro x hx _
        simp [hx]
      · intro x hx
        simp
        omega)
  rw [behind_zero] at f2
  rw [f1, Res.ok_bind]
  obtain ⟨A2, u3, e1, e2, e3⟩ := induceSA_ok (locK_Placed hκ) hT h0 (u := { u2 with B := s'.2 }) (PI_Start f2) g3
  obtain ⟨A1, B1⟩ := s'
  simp only at e1 e2 e3 ⊢
  rw [e1, Res.ok_bind, Res.pure_eq]
  refine ⟨locK T n id, _, rfl, ?_⟩
  intro a ha
  rw [putBack_low (rk2_lt ha)]
  exact e2 a ha

/-! ### Compaction -/

theorem runLoop_ok {c0 : Nat} : ∀ (d j x : Nat), n ≤ j + d → x + 1 = j → T x = c0 →
    (isS T n x = true ↔ runLoop T n c0 d j < n ∧ c0 < T (runLoop T n c0 d j))
  | 0, j, x, h, hj, hx => by
    rw [isS_last (by omega)]
    simp [runLoop]
    omega
  | d + 1, j, x, h, hj, hx => by
    simp only [runLoop]
    subst hj
    by_cases hc : x + 1 < n ∧ c0 = T (x + 1)
    · rw [if_pos hc, ← runLoop_ok d (x + 1 + 1) (x + 1) (by omega) rfl hc.2.symm, isS_step hc.1]
      constructor
      · rintro (w | w)
        · omega
        · exact w.2
      · intro w
        exact Or.inr ⟨by omega, w⟩
    · rw [if_neg hc]
      by_cases h1 : x + 1 < n
      · rw [isS_step h1, hx]
        constructor
        · rintro (w | w)
          · exact ⟨h1, w⟩
          · exact absurd ⟨h1, w.1⟩ hc
        · rintro ⟨_, w⟩
          exact Or.inl w
      · rw [isS_last (by omega)]
        simp
        omega

theorem lmsTest_ok {a : Nat} (ha : a < n) : lmsTest T n (a : Int) = .ok (isLMS T n a) := by
  unfold lmsTest
  by_cases h0 : 0 < a
  · rw [if_pos (by omega), chr_int (i := a - 1) (by omega) (by omega), Res.ok_bind, chr_ok ha, Res.ok_bind]
    by_cases h1 : T a < T (a - 1)
    · rw [if_pos h1, Res.pure_eq]
      congr 1
      have := runLoop_ok (T := T) (n := n) (c0 := T a) n (a + 1) a (by omega) rfl rfl
      have hL : isS T n (a - 1) = false := by
        have := isL_step (T := T) (n := n) (i := a - 1) (by omega)
        rw [show a - 1 + 1 = a by omega] at this
        exact this.mpr (Or.inl h1)
      rw [Int.toNat_natCast]
      unfold isLMS
      rw [hL]
      simp only [h0, decide_true, Bool.true_and, Bool.not_false, Bool.and_true]
      cases hS : isS T n a
      · rw [hS] at this
        simpa using this
      · rw [hS] at this
        simpa using this
    · rw [if_neg h1, Res.pure_eq]
      congr 1
      cases hl : isLMS T n a
      · rfl
      · exact absurd (lms_gt hl) h1
  · rw [if_neg (by omega)]
    congr 1
    simp [isLMS, h0]

/-- The leftmost S positions whose place is below `i`. -/
def low (T : Nat → Nat) (n : Nat) (loc0 : Nat → Nat) (i : Nat) : Finset Nat := (LM T n).filter fun q => rk2 T n loc0 q < i

/-- The number of a leftmost S position in the order of the first sorting. -/
def kap (T : Nat → Nat) (n : Nat) (loc0 : Nat → Nat) (p : Nat) : Nat := rk (LM T n) (rk2 T n loc0) p

theorem rk2_injLM : Set.InjOn (rk2 T n loc0) (LM T n : Finset Nat) := by
  intro a ha b hb h
  have h1 := lms_lt (mem_LM.mp ha)
  have h2 := lms_lt (mem_LM.mp hb)
  exact rk2_inj (by omega) (by omega) h

theorem kap_low {p i : Nat} (h : rk2 T n loc0 p = i) : kap T n loc0 p = (low T n loc0 i).card := by
  unfold kap rk low
  rw [h]

theorem low_le (i : Nat) : (low T n loc0 i).card ≤ i := by
  have h1 : ((low T n loc0 i).image (rk2 T n loc0)) ⊆ range i := by
    intro x hx
    obtain ⟨p, hp, rfl⟩ := mem_image.mp hx
    unfold low at hp
    exact mem_range.mpr (mem_filter.mp hp).2
  have h2 : Set.InjOn (rk2 T n loc0) (low T n loc0 i : Finset Nat) := by
    intro a ha b hb h
    unfold low at ha hb
    exact rk2_injLM (mem_filter.mp ha).1 (mem_filter.mp hb).1 h
  have := card_le_card h1
  rw [card_image_of_injOn h2, card_range] at this
  exact this

theorem kap_lt {p : Nat} (hp : isLMS T n p = true) : kap T n loc0 p < (LM T n).card := rk_lt (mem_LM.mpr hp)

theorem kap_iff {p q : Nat} (hp : isLMS T n p = true) :
    kap T n loc0 p < kap T n loc0 q ↔ key2 T n loc0 p < key2 T n loc0 q := by
  rw [kap, kap, rk_lt_iff (mem_LM.mpr hp), rk2_iff (by have := lms_lt hp; omega)]

theorem kap_inj {p q : Nat} (hp : isLMS T n p = true) (hq : isLMS T n q = true) (h : kap T n loc0 p = kap T n loc0 q) : p = q :=
  rk_inj rk2_injLM (mem_LM.mpr hp) (mem_LM.mpr hq) h

theorem kap_surj {t : Nat} (h : t < (LM T n).card) : ∃ p, isLMS T n p = true ∧ kap T n loc0 p = t := by
  obtain ⟨p, hp, e⟩ := rk_surj (s := LM T n) (key := rk2 T n loc0) rk2_injLM h
  exact ⟨p, mem_LM.mp hp, e⟩

theorem compact_ok {lim : Nat} (hlim : n ≤ lim) : ∀ (d i m : Nat) (A : Arr), i + d = n → m = (low T n loc0 i).card →
    (∀ a, a < n → i ≤ rk2 T n loc0 a → A (rk2 T n loc0 a) = a) →
    (∀ p, p ∈ low T n loc0 i → A (kap T n loc0 p) = p) →
    ∃ A', compactLoop T lim n d i m A = .ok (A', (LM T n).card) ∧ ∀ p, isLMS T n p = true → A' (kap T n loc0 p) = p
  | 0, i, m, A, h, hm, h1, h2 => by
    have : i = n := by omega
    subst this
    have e : low T i loc0 i = LM T i := by
      unfold low
      rw [filter_true_of_mem]
      intro q hq
      have := lms_lt (mem_LM.mp hq)
      exact rk2_lt (by omega)
    rw [e] at hm h2
    refine ⟨A, ?_, fun p hp => h2 p (mem_LM.mpr hp)⟩
    simp [compactLoop, hm]
  | d + 1, i, m, A, h, hm, h1, h2 => by
    obtain ⟨a, ha, e⟩ := rk2_surj (T := T) (n := n) (loc0 := loc0) (x := i) (by omega)
    have v := h1 a ha (by omega)
    rw [e] at v
    simp only [compactLoop]
    rw [rd_ok (by omega), Res.ok_bind, v, lmsTest_ok ha, Res.ok_bind]
    cases hl : isLMS T n a
    · simp only [Bool.false_eq_true, if_false]
      have e1 : low T n loc0 (i + 1) = low T n loc0 i := by
        unfold low
        ext q
        simp only [mem_filter, mem_LM]
        constructor
        · rintro ⟨w1, w2⟩
          refine ⟨w1, ?_⟩
          have : rk2 T n loc0 q ≠ i := by
            intro w
            have := rk2_inj (a := q) (by have := lms_lt w1; omega) ha (by rw [w, e])
            subst this
            rw [w1] at hl
            cases hl
          omega
        · rintro ⟨w1, w2⟩
          exact ⟨w1, by omega⟩
      exact compact_ok hlim d (i + 1) m A (by omega) (by rw [e1]; exact hm) (fun a ha h => h1 a ha (by omega)) (by rw [e1]; exact h2)
    · simp only [if_true]
      have hmi := low_le (T := T) (n := n) (loc0 := loc0) i
      have ek : m = kap T n loc0 a := by rw [hm, kap_low e]
      have e1 : low T n loc0 (i + 1) = insert a (low T n loc0 i) := by
        unfold low
        ext q
        simp only [mem_insert, mem_filter, mem_LM]
        constructor
        · rintro ⟨w1, w2⟩
          by_cases w : rk2 T n loc0 q = i
          · exact Or.inl (rk2_inj (by have := lms_lt w1; omega) ha (by rw [w, e]))
          · exact Or.inr ⟨w1, by omega⟩
        · rintro (rfl | ⟨w1, w2⟩)
          · exact ⟨hl, by omega⟩
          · exact ⟨w1, by omega⟩
      have hna : a ∉ low T n loc0 i := by
        intro w
        unfold low at w
        have := (mem_filter.mp w).2
        omega
      rw [wr_ok (by omega), Res.ok_bind]
      apply compact_ok hlim d (i + 1) (m + 1) _ (by omega)
      · rw [e1, card_insert_of_notMem hna, hm]
      · intro a' ha' h'
        have hne : rk2 T n loc0 a' ≠ m := by omega
        simp only [upd, hne, if_false]
        exact h1 a' ha' (by omega)
      · intro p hp
        rw [e1, mem_insert] at hp
        by_cases w : p = a
        · subst w
          simp [upd, ← ek]
        · rcases hp with w' | hp
          · exact absurd w' w
          · have hpl : isLMS T n p = true := by
              unfold low at hp
              exact mem_LM.mp (mem_filter.mp hp).1
            have hne : kap T n loc0 p ≠ m := by
              rw [ek]
              exact fun w' => w (kap_inj hpl hl w')
            simp only [upd, hne, if_false]
            exact h2 p hp

/-! ### Lengths -/

/-- The array while the lengths are stored: those of the leftmost S positions behind `i` are there. -/
structure LenI (T : Nat → Nat) (n m : Nat) (A0 : Arr) (i : Nat) (s : Arr × Nat) : Prop where
  j : s.2 = nx T n i
  at_ : ∀ q, isLMS T n q = true → i < q → s.1 (m + q / 2) = (nx T n q - q : Nat)
  zero : ∀ x, x < n / 2 → (∀ q, isLMS T n q = true → i < q → q / 2 ≠ x) → s.1 (m + x) = 0
  low : ∀ x, x < m → s.1 x = A0 x

theorem lens_ok {lim m : Nat} (h0 : 0 < n) (hm : m + n / 2 ≤ lim) (A0 : Arr) (hz : ∀ x, x < n / 2 → A0 (m + x) = 0) :
    ∃ s, scan T n (fun p _ => lenBody lim m p) (A0, n) = .ok s ∧ LenI T n m A0 0 s := by
  apply scan_ok (fun i s => LenI T n m A0 i s) h0
  · intro p s hp hs
    have hpn := lms_lt hp
    have hh := lms_half_lt hp
    have sp := nx_spec (T := T) (n := n) _ p rfl (by omega)
    simp only [lenBody]
    rw [wr_ok (by omega), Res.ok_bind, Res.pure_eq]
    refine ⟨_, rfl, ?_, ?_, ?_, ?_⟩
    · have h0 := (lms_iff.mp hp).1
      rw [nx_step (by omega), show p - 1 + 1 = p by omega, hp]
      rfl
    · intro q hq hlt
      by_cases e : q = p
      · subst e
        simp only [upd, if_true]
        rw [hs.j]
        omega
      · have hne : m + q / 2 ≠ m + p / 2 := by
          intro w
          exact e (lms_half_inj hq hp (by omega))
        simp only [upd, hne, if_false]
        exact hs.at_ q hq (by omega)
    · intro x hx hne
      have h0 := (lms_iff.mp hp).1
      have h1 := hne p hp (by omega)
      have h2 : m + x ≠ m + p / 2 := by omega
      simp only [upd, h2, if_false]
      exact hs.zero x hx (fun q hq hlt => hne q hq (by omega))
    · intro x hx
      have h2 : x ≠ m + p / 2 := by omega
      simp only [upd, h2, if_false]
      exact hs.low x hx
  · intro p s hp0 hp hs
    have hno : ∀ q, isLMS T n q = true → (p - 1 < q ↔ p < q) := by
      intro q hq
      have : q ≠ p := by
        rintro rfl
        rw [hq] at hp
        cases hp
      omega
    refine ⟨?_, ?_, ?_, hs.low⟩
    · by_cases h : p < n
      · rw [nx_step (a := p - 1) (by omega), show p - 1 + 1 = p by omega, hp]
        simpa using hs.j
      · by_cases h2 : p - 1 < n
        · rw [nx_step (a := p - 1) (by omega), show p - 1 + 1 = p by omega, hp]
          simpa using hs.j
        · rw [nx_end (by omega), hs.j, nx_end (by omega)]
    · intro q hq hlt
      exact hs.at_ q hq ((hno q hq).mp hlt)
    · intro x hx hne
      exact hs.zero x hx (fun q hq hlt => hne q hq ((hno q hq).mpr hlt))
  · refine ⟨?_, ?_, ?_, fun _ _ => rfl⟩
    · rw [nx_step (by omega), show n - 1 + 1 = n by omega, nx_end (le_refl n)]
      cases h : isLMS T n n
      · rfl
      · rfl
    · intro q hq hlt
      have := lms_lt hq
      omega
    · intro x hx _
      exact hz x hx

/-! ### Names -/

open Classical in
theorem cmpLoop_ok : ∀ (d j p q : Nat), p + j + d ≤ n → q + j + d ≤ n →
    cmpLoop T n p q d j = .ok (decide (∀ t, j ≤ t → t < j + d → T (p + t) = T (q + t)))
  | 0, j, p, q, _, _ => by
    simp only [cmpLoop]
    congr 1
    symm
    rw [decide_eq_true_eq]
    intro t h1 h2
    omega
  | d + 1, j, p, q, hp, hq => by
    simp only [cmpLoop]
    rw [chr_int (i := p + j) (by push_cast; rfl) (by omega), Res.ok_bind, chr_int (i := q + j) (by push_cast; rfl) (by omega), Res.ok_bind]
    by_cases e : T (p + j) = T (q + j)
    · rw [if_pos e, cmpLoop_ok d (j + 1) p q (by omega) (by omega)]
      congr 1
      rw [decide_eq_decide]
      constructor
      · intro h t h1 h2
        by_cases w : t = j
        · rw [w]; exact e
        · exact h t (by omega) (by omega)
      · intro h t h1 h2
        exact h t (by omega) (by omega)
    · rw [if_neg e, Res.pure_eq]
      congr 1
      symm
      rw [decide_eq_false_iff_not]
      intro h
      exact e (h j (le_refl _) (by omega))

open Classical in
theorem sameName_ok {p q : Nat} (hp : p < n) (hq : q ≤ n) :
    sameName T n p q (nx T n p - p : Nat) (nx T n q - q : Nat) = .ok (decide (Seq T n p q)) := by
  unfold sameName
  have sp := nx_spec (T := T) (n := n) _ p rfl hp
  have sq : nx T n q ≤ n ∧ q ≤ nx T n q := by
    by_cases h : q < n
    · have := nx_spec (T := T) (n := n) _ q rfl h
      omega
    · rw [nx_end (by omega)]
      omega
  by_cases e : nx T n p - p = nx T n q - q
  · rw [if_pos (by omega), Int.toNat_natCast, cmpLoop_ok _ 0 p q (by omega) (by omega)]
    congr 1
    rw [decide_eq_decide]
    unfold Seq
    constructor
    · intro h
      exact ⟨e, fun j hj => h j (by omega) (by omega)⟩
    · intro h t _ h2
      exact h.2 t (by omega)
  · rw [if_neg (by omega)]
    congr 1
    symm
    rw [decide_eq_false_iff_not]
    intro h
    exact e h.1

/-- The array during the naming. -/
structure NameI (T : Nat → Nat) (n m : Nat) (l : Nat → Nat) (i : Nat) (A : Arr) : Prop where
  low : ∀ t, t < m → A t = l t
  done : ∀ t, t < i → A (m + l t / 2) = (NS T n l (t + 1)).1
  todo : ∀ t, i ≤ t → t < m → A (m + l t / 2) = (nx T n (l t) - l t : Nat)
  zero : ∀ x, x < n / 2 → (∀ t, t < m → l t / 2 ≠ x) → A (m + x) = 0

theorem name_ok {lim m : Nat} {l : Nat → Nat} (hm : m + n / 2 ≤ lim) (hl : ∀ t, t < m → isLMS T n (l t) = true)
    (hi : ∀ s t, s < m → t < m → l s = l t → s = t) : ∀ (d i : Nat) (A : Arr), i + d = m → NameI T n m l i A →
    ∃ A', nameLoop T lim n m d i (NS T n l i).1 ((NS T n l i).2 : Int) ((nx T n (NS T n l i).2 - (NS T n l i).2 : Nat) : Int) A =
      .ok (A', (NS T n l m).1) ∧ NameI T n m l m A'
  | 0, i, A, h, hA => by
    have : i = m := by omega
    subst this
    exact ⟨A, rfl, hA⟩
  | d + 1, i, A, h, hA => by
    have hli := hl i (by omega)
    have hln := lms_lt hli
    have hh := lms_half_lt hli
    have hq : (NS T n l i).2 ≤ n := by
      cases i with
      | zero => simp [NS]
      | succ i =>
        have : ∀ t, t ≤ m → (NS T n l t).2 ≤ n := by
          intro t
          induction t with
          | zero => intro _; simp [NS]
          | succ t ih =>
            intro ht
            rcases NS_step (T := T) (n := n) (l := l) t with w | w
            · rw [w.2]; exact ih (by omega)
            · rw [w.2]
              have := lms_lt (hl t (by omega))
              simp
              omega
        exact this (i + 1) (by omega)
    have hdiv : (m : Int) + (l i : Int) / 2 = ((m + l i / 2 : Nat) : Int) := by
      push_cast
      rfl
    simp only [nameLoop]
    rw [rd_ok (by omega), Res.ok_bind, hA.low i (by omega), hdiv, rd_ok (by omega), Res.ok_bind, hA.todo i (le_refl _) (by omega),
      sameName_ok (by omega) hq, Res.ok_bind]
    have hnext : ∀ A1 : Arr, A1 = upd A (m + l i / 2) ((NS T n l (i + 1)).1 : Nat) → NameI T n m l (i + 1) A1 := by
      rintro _ rfl
      have hne : ∀ t, t < m → t ≠ i → m + l t / 2 ≠ m + l i / 2 := by
        intro t ht w w'
        exact w (hi t i ht (by omega) (lms_half_inj (hl t ht) hli (by omega)))
      refine ⟨?_, ?_, ?_, ?_⟩
      · intro t ht
        have : t ≠ m + l i / 2 := by omega
        simp only [upd, this, if_false]
        exact hA.low t ht
      · intro t ht
        by_cases w : t = i
        · subst w
          simp [upd]
        · simp only [upd, hne t (by omega) w, if_false]
          exact hA.done t (by omega)
      · intro t ht htm
        simp only [upd, hne t htm (by omega), if_false]
        exact hA.todo t (by omega) htm
      · intro x hx w
        have := w i (by omega)
        have : m + x ≠ m + l i / 2 := by omega
        simp only [upd, this, if_false]
        exact hA.zero x hx w
    rcases NS_step (T := T) (n := n) (l := l) i with w | w
    · rw [if_pos (by simpa using w.1), wr_ok (by omega), Res.ok_bind]
      have := name_ok hm hl hi d (i + 1) _ (by omega) (hnext _ rfl)
      rw [w.2] at this
      exact this
    · rw [if_neg (by simpa using w.1), wr_ok (by omega), Res.ok_bind]
      have := name_ok hm hl hi d (i + 1) _ (by omega) (hnext _ rfl)
      rw [w.2] at this
      exact this

/-! ### The reduced text -/

theorem om_succ {i : Nat} : om T n (i + 1) = om T n i + (if isLMS T n i then 1 else 0) := by
  unfold om rk
  cases h : isLMS T n i
  · simp only [Bool.false_eq_true, if_false, Nat.add_zero]
    congr 1
    ext q
    simp only [id, mem_filter, mem_LM]
    constructor
    · rintro ⟨h1, h2⟩
      have : q ≠ i := by
        rintro rfl
        rw [h1] at h
        cases h
      exact ⟨h1, by omega⟩
    · rintro ⟨h1, h2⟩
      exact ⟨h1, by omega⟩
  · have : ((LM T n).filter fun b => id b < id (i + 1)) = insert i ((LM T n).filter fun b => id b < id i) := by
      ext q
      simp only [id, mem_insert, mem_filter, mem_LM]
      constructor
      · rintro ⟨h1, h2⟩
        by_cases e : q = i
        · exact Or.inl e
        · exact Or.inr ⟨h1, by omega⟩
      · rintro (rfl | ⟨h1, h2⟩)
        · exact ⟨h, by omega⟩
        · exact ⟨h1, by omega⟩
    rw [this, card_insert_of_notMem (by simp)]
    rfl

/-- There is room for the reduced text: the place of a name is not below that of its length. -/
theorem om_room {p : Nat} (hp : isLMS T n p = true) : (LM T n).card + p / 2 ≤ om T n p + n / 2 := by
  have h1 : (LM T n).card = om T n p + ((LM T n).filter fun q => ¬ q < p).card := by
    have := card_filter_add_card_filter_not (s := LM T n) (fun q => q < p)
    unfold om rk
    simpa using this.symm
  have h2 : (((LM T n).filter fun q => ¬ q < p).image fun q => q / 2) ⊆ Ico (p / 2) (n / 2) := by
    intro x hx
    obtain ⟨q, hq, rfl⟩ := mem_image.mp hx
    rw [mem_filter, mem_LM] at hq
    rw [mem_Ico]
    exact ⟨by omega, lms_half_lt hq.1⟩
  have h3 := card_le_card h2
  rw [card_image_of_injOn, Nat.card_Ico] at h3
  · have := lms_half_lt hp
    omega
  · intro a ha b hb e
    simp only [coe_filter, Set.mem_setOf_eq, mem_LM] at ha hb
    exact lms_half_inj ha.1 hb.1 e

/-- The number of leftmost S positions with smaller half. -/
def hf (T : Nat → Nat) (n c : Nat) : Nat := ((LM T n).filter fun q => q / 2 < c).card

theorem hf_om {p : Nat} (hp : isLMS T n p = true) : hf T n (p / 2) = om T n p := by
  unfold hf om rk
  congr 1
  ext q
  simp only [id, mem_filter, mem_LM]
  constructor
  · rintro ⟨h1, h2⟩
    exact ⟨h1, by omega⟩
  · rintro ⟨h1, h2⟩
    exact ⟨h1, lms_half h1 hp h2⟩

theorem hf_lms {p : Nat} (hp : isLMS T n p = true) : hf T n (p / 2 + 1) = hf T n (p / 2) + 1 := by
  unfold hf
  have : ((LM T n).filter fun q => q / 2 < p / 2 + 1) = insert p ((LM T n).filter fun q => q / 2 < p / 2) := by
    ext q
    simp only [mem_insert, mem_filter, mem_LM]
    constructor
    · rintro ⟨h1, h2⟩
      by_cases e : q / 2 = p / 2
      · exact Or.inl (lms_half_inj h1 hp e)
      · exact Or.inr ⟨h1, by omega⟩
    · rintro (rfl | ⟨h1, h2⟩)
      · exact ⟨hp, by omega⟩
      · exact ⟨h1, by omega⟩
  rw [this, card_insert_of_notMem (by simp)]

theorem hf_not {c : Nat} (h : ∀ p, isLMS T n p = true → p / 2 ≠ c) : hf T n (c + 1) = hf T n c := by
  unfold hf
  congr 1
  ext q
  simp only [mem_filter, mem_LM]
  constructor
  · rintro ⟨h1, h2⟩
    have := h q h1
    exact ⟨h1, by omega⟩
  · rintro ⟨h1, h2⟩
    exact ⟨h1, by omega⟩

theorem hf_all : hf T n (n / 2) = (LM T n).card := by
  unfold hf
  rw [filter_true_of_mem]
  intro q hq
  exact lms_half_lt (mem_LM.mp hq)

/-- The names are gathered in the order of the text. -/
theorem gather_ok {lim r : Nat} {nm : Nat → Nat} (hr : n - (LM T n).card ≤ r) (hlim : lim = r + (LM T n).card)
    (hpos : ∀ p, isLMS T n p = true → 0 < nm p) :
    ∀ (c : Nat) (j : Int) (A : Arr), c ≤ n / 2 → j + 1 = hf T n c →
    (∀ p, isLMS T n p = true → p / 2 < c → A ((LM T n).card + p / 2) = nm p) →
    (∀ x, x < c → (∀ p, isLMS T n p = true → p / 2 ≠ x) → A ((LM T n).card + x) = 0) →
    (∀ p, isLMS T n p = true → c ≤ p / 2 → A (r + om T n p) = (nm p : Int) - 1) →
    ∃ A', gatherLoop lim (LM T n).card r c j A = .ok A' ∧ ∀ p, isLMS T n p = true → A' (r + om T n p) = (nm p : Int) - 1
  | 0, j, A, hc, hj, h1, h2, h3 => ⟨A, rfl, fun p hp => h3 p hp (by omega)⟩
  | c + 1, j, A, hc, hj, h1, h2, h3 => by
    have hm := card_LM (T := T) (n := n)
    simp only [gatherLoop]
    rw [rd_ok (by omega), Res.ok_bind]
    by_cases hex : ∃ p, isLMS T n p = true ∧ p / 2 = c
    · obtain ⟨p, hp, rfl⟩ := hex
      have hv := h1 p hp (by omega)
      have hnm := hpos p hp
      have ho := om_lt hp
      have hroom := om_room hp
      rw [hv, if_pos (by omega)]
      have hj' : j = (om T n p : Nat) := by
        rw [hf_lms hp, hf_om hp] at hj
        push_cast at hj
        omega
      rw [wr_int (i := r + om T n p) (by rw [hj']; push_cast; rfl) (by omega), Res.ok_bind]
      apply gather_ok hr hlim hpos (p / 2) _ _ (by omega)
      · rw [hj', hf_om hp]
        omega
      · intro q hq hlt
        have hne : (LM T n).card + q / 2 ≠ r + om T n p := by omega
        simp only [upd, hne, if_false]
        exact h1 q hq (by omega)
      · intro x hx h
        have hne : (LM T n).card + x ≠ r + om T n p := by omega
        simp only [upd, hne, if_false]
        exact h2 x (by omega) h
      · intro q hq hle
        by_cases e : q = p
        · subst e
          simp [upd]
        · have hne : r + om T n q ≠ r + om T n p := by
            intro w
            exact e (om_inj hq hp (by omega))
          have : q / 2 ≠ p / 2 := fun w => e (lms_half_inj hq hp w)
          simp only [upd, hne, if_false]
          exact h3 q hq (by omega)
    · have hno : ∀ p, isLMS T n p = true → p / 2 ≠ c := fun p hp e => hex ⟨p, hp, e⟩
      rw [h2 c (by omega) hno, if_neg (by simp)]
      apply gather_ok hr hlim hpos c j A (by omega)
      · rw [hj, hf_not hno]
      · exact fun q hq hlt => h1 q hq (by omega)
      · exact fun x hx h => h2 x (by omega) h
      · intro q hq hle
        have := hno q hq
        exact h3 q hq (by omega)

/-- The positions come back in place of the names. -/
structure RefI (T : Nat → Nat) (n r : Nat) (A0 : Arr) (i : Nat) (s : Arr × Int) : Prop where
  j : s.2 + 1 = om T n (i + 1)
  at_ : ∀ q, isLMS T n q = true → i < q → s.1 (r + om T n q) = q
  low : ∀ x, x < r → s.1 x = A0 x

theorem refill_ok {lim r : Nat} (h0 : 0 < n) (hlim : lim = r + (LM T n).card) (A0 : Arr) :
    ∃ s, scan T n (fun p _ => refillBody lim r p) (A0, ((LM T n).card : Int) - 1) = .ok s ∧ RefI T n r A0 0 s := by
  apply scan_ok (fun i s => RefI T n r A0 i s) h0
  · intro p s hp hs
    have hp0 := (lms_iff.mp hp).1
    have ho := om_lt hp
    have hj := hs.j
    rw [om_succ, hp] at hj
    simp only [if_true] at hj
    simp only [refillBody]
    rw [wr_int (i := r + om T n p) (by push_cast at hj ⊢; omega) (by omega), Res.ok_bind, Res.pure_eq]
    refine ⟨_, rfl, ?_, ?_, ?_⟩
    · rw [show p - 1 + 1 = p by omega]
      push_cast at hj
      simp only
      omega
    · intro q hq hlt
      by_cases e : q = p
      · subst e
        simp [upd]
      · have hne : r + om T n q ≠ r + om T n p := by
          intro w
          exact e (om_inj hq hp (by omega))
        simp only [upd, hne, if_false]
        exact hs.at_ q hq (by omega)
    · intro x hx
      have hne : x ≠ r + om T n p := by omega
      simp only [upd, hne, if_false]
      exact hs.low x hx
  · intro p s hp0 hp hs
    refine ⟨?_, ?_, hs.low⟩
    · rw [hs.j, om_succ, hp, show p - 1 + 1 = p by omega]
      rfl
    · intro q hq hlt
      have : q ≠ p := by
        rintro rfl
        rw [hq] at hp
        cases hp
      exact hs.at_ q hq (by omega)
  · refine ⟨?_, ?_, fun _ _ => rfl⟩
    · rw [show n - 1 + 1 = n by omega, om_end]
      simp
    · intro q hq hlt
      have := lms_lt hq
      omega

theorem sufRank_surj {x : Nat} (h : x < n) : ∃ a, a < n ∧ sufRank T n a = x := by
  obtain ⟨a, ha, e⟩ := rk_surj (s := range n) (key := sf T n) sf_injOn (x := x) (by simpa using h)
  exact ⟨a, mem_range.mp ha, e⟩

theorem sufRank_inj {a b : Nat} (ha : a < n) (hb : b < n) (h : sufRank T n a = sufRank T n b) : a = b :=
  rk_inj sf_injOn (mem_range.mpr ha) (mem_range.mpr hb) h

/-- Indices of the reduced text become positions. -/
theorem map_ok {lim r m : Nat} {T' P : Nat → Nat} (hr : m ≤ r) (hlim : lim = r + m) : ∀ (d i : Nat) (A : Arr), i + d = m →
    (∀ t, t < m → A (r + t) = P t) → (∀ t, t < m → A (sufRank T' m t) = if sufRank T' m t < i then (P t : Int) else t) →
    ∃ A', mapLoop lim r d i A = .ok A' ∧ ∀ t, t < m → A' (sufRank T' m t) = P t
  | 0, i, A, h, h1, h2 => by
    refine ⟨A, rfl, fun t ht => ?_⟩
    rw [h2 t ht, if_pos (by have := sufRank_lt (T := T') ht; omega)]
  | d + 1, i, A, h, h1, h2 => by
    obtain ⟨t, ht, e⟩ := sufRank_surj (T := T') (n := m) (x := i) (by omega)
    have v := h2 t ht
    rw [e, if_neg (by omega)] at v
    simp only [mapLoop]
    rw [rd_ok (by omega), Res.ok_bind, v, rd_int (i := r + t) (by push_cast; rfl) (by omega), Res.ok_bind, wr_ok (by omega), Res.ok_bind,
      h1 t ht]
    apply map_ok hr hlim d (i + 1) _ (by omega)
    · intro t' ht'
      have : r + t' ≠ i := by omega
      simp only [upd, this, if_false]
      exact h1 t' ht'
    · intro t' ht'
      by_cases w : sufRank T' m t' = i
      · have := sufRank_inj ht' ht (by rw [w, e])
        subst this
        rw [w, if_pos (by omega)]
        simp [upd]
      · simp only [upd, w, if_false]
        rw [h2 t' ht']
        by_cases g : sufRank T' m t' < i
        · rw [if_pos g, if_pos (by omega)]
        · rw [if_neg g, if_neg (by omega)]

/-! ### Stage 3 -/

/-- The number of a leftmost S position in the order of the suffixes. -/
def kaf (T : Nat → Nat) (n p : Nat) : Nat := rk (LM T n) (sf T n) p

theorem sf_injLM : Set.InjOn (sf T n) (LM T n : Finset Nat) := by
  intro a ha b hb h
  have h1 := lms_lt (mem_LM.mp ha)
  have h2 := lms_lt (mem_LM.mp hb)
  exact sf_inj (by omega) (by omega) h

theorem kaf_lt {p : Nat} (hp : isLMS T n p = true) : kaf T n p < (LM T n).card := rk_lt (mem_LM.mpr hp)
theorem kaf_iff {p q : Nat} (hp : isLMS T n p = true) : kaf T n p < kaf T n q ↔ sf T n p < sf T n q := rk_lt_iff (mem_LM.mpr hp)
theorem kaf_inj {p q : Nat} (hp : isLMS T n p = true) (hq : isLMS T n q = true) (h : kaf T n p = kaf T n q) : p = q :=
  rk_inj sf_injLM (mem_LM.mpr hp) (mem_LM.mpr hq) h
theorem kaf_surj {t : Nat} (h : t < (LM T n).card) : ∃ p, isLMS T n p = true ∧ kaf T n p = t := by
  obtain ⟨p, hp, e⟩ := rk_surj (s := LM T n) (key := sf T n) sf_injLM h
  exact ⟨p, mem_LM.mp hp, e⟩

theorem locK_sf {p q : Nat} (hp : isLMS T n p = true) (hq : isLMS T n q = true) (h : sf T n p < sf T n q) :
    locK T n (kaf T n) p < locK T n (kaf T n) q := by
  apply locK_mono hp hq
  have h1 := lms_lt hp
  have h2 := lms_lt hq
  have hc := code_of_sf (T := T) (n := n) (by omega) (by omega) h
  rw [code_S (lms_iff.mp hp).2.1, code_S (lms_iff.mp hq).2.1] at hc
  rcases Nat.lt_or_ge (T p) (T q) with g | g
  · exact Or.inl g
  · exact Or.inr ⟨by omega, (kaf_iff hp).mpr h⟩

theorem locK_ge {p : Nat} (hp : isLMS T n p = true) : kaf T n p ≤ locK T n (kaf T n) p := by
  have h1 : (((LM T n).filter fun q => sf T n q < sf T n p).image (locK T n (kaf T n))) ⊆ range (locK T n (kaf T n) p) := by
    intro x hx
    obtain ⟨q, hq, rfl⟩ := mem_image.mp hx
    rw [mem_filter, mem_LM] at hq
    exact mem_range.mpr (locK_sf hq.1 hp hq.2)
  have h2 := card_le_card h1
  rw [card_image_of_injOn, card_range] at h2
  · refine le_trans (le_of_eq ?_) h2
    unfold kaf rk
    congr 1
    ext q
    simp only [mem_filter]
  · intro a ha b hb e
    simp only [coe_filter, Set.mem_setOf_eq, mem_LM] at ha hb
    exact locK_inj (fun p q hp hq h => kaf_inj hp hq h) ha.1 hb.1 e

/-- The leftmost S positions from number `i` on. -/
def fromK (T : Nat → Nat) (n i : Nat) : Finset Nat := (LM T n).filter fun q => i ≤ kaf T n q

theorem put_ok (hT : ∀ i, i < n → T i < k) {A0 : Arr} {l : Nat → Nat} (hl : ∀ p, isLMS T n p = true → l (kaf T n p) = p) :
    ∀ (i : Nat) (s : Arr × Arr), i ≤ (LM T n).card →
    PI T n k (kaf T n) A0 (fun x => if x < i then (l x : Int) else 0) (fromK T n i) s →
    ∃ s', putLoop T n k i s = .ok s' ∧ PI T n k (kaf T n) A0 (fun _ => 0) (LM T n) s'
  | 0, s, hi, hs => by
    refine ⟨s, rfl, ?_⟩
    have e : fromK T n 0 = LM T n := by
      unfold fromK
      rw [filter_true_of_mem]
      intro q _
      omega
    rw [e] at hs
    simpa using hs
  | i + 1, s, hi, hs => by
    have hm := card_LM (T := T) (n := n)
    obtain ⟨p, hp, e⟩ := kaf_surj (T := T) (n := n) (t := i) (by omega)
    have hpn := lms_lt hp
    have hgt : ∀ q, q ∈ fromK T n (i + 1) → i < locK T n (kaf T n) q := by
      intro q hq
      unfold fromK at hq
      rw [mem_filter, mem_LM] at hq
      have := locK_ge hq.1
      omega
    have v := hs.base i (by omega) (fun q hq => by have := hgt q hq; omega)
    rw [if_pos (by omega), ← e, hl p hp] at v
    rw [e] at v
    simp only [putLoop]
    rw [rd_ok (by omega), Res.ok_bind, wr_ok (by omega), Res.ok_bind, v, chr_ok (by omega), Res.ok_bind, Int.toNat_natCast]
    have hs' : PI T n k (kaf T n) A0 (fun x => if x < i then (l x : Int) else 0) (fromK T n (i + 1)) (upd s.1 i 0, s.2) := by
      refine ⟨hs.b, ?_, ?_, ?_⟩
      · intro q hq
        have := hgt q hq
        have hne : locK T n (kaf T n) q ≠ i := by omega
        simp only [upd, hne, if_false]
        exact hs.at_ q hq
      · intro x hx h
        by_cases w : x = i
        · subst w
          simp [upd]
        · have := hs.base x hx h
          simp only [upd, w, if_false]
          rw [this]
          by_cases g : x < i
          · rw [if_pos g, if_pos (by omega)]
          · rw [if_neg g, if_neg (by omega)]
      · intro x hx
        have hne : x ≠ i := by omega
        simp only [upd, hne, if_false]
        exact hs.fr x hx
    obtain ⟨s', f1, f2⟩ := place_ok (fun p q hp hq h => kaf_inj hp hq h) hT hs' hp (by
      intro q
      unfold fromK
      rw [mem_filter, mem_LM, e]
      rfl)
    rw [f1, Res.ok_bind]
    apply put_ok hT hl i s' (by omega)
    have : insert p (fromK T n (i + 1)) = fromK T n i := by
      unfold fromK
      ext q
      simp only [mem_insert, mem_filter, mem_LM]
      constructor
      · rintro (rfl | w)
        · exact ⟨hp, by omega⟩
        · exact ⟨w.1, by omega⟩
      · rintro ⟨w1, w2⟩
        by_cases g : kaf T n q = i
        · exact Or.inl (kaf_inj w1 hp (by rw [g, e]))
        · exact Or.inr ⟨w1, by omega⟩
    rw [← this]
    exact f2

theorem stage3_ok (alloc : Nat → Nat → Bool) (dp : Nat) (hT : ∀ i, i < n → T i < k) (h0 : 0 < n) (fs : Nat) (isbwt : Bool) (A g : Arr)
    (hA : ∀ p, isLMS T n p = true → A (kaf T n p) = p) :
    (stage3 alloc dp T fs n k (LM T n).card isbwt A g = .throw ∧ alloc dp k = false) ∨
    ∃ e A', stage3 alloc dp T fs n k (LM T n).card isbwt A g = .ok (e, A') ∧ Out (sufRank T n) T n isbwt e A' := by
  unfold stage3
  by_cases hal : fs < k ∧ alloc dp k = false
  · rw [if_pos hal]
    exact Or.inl ⟨rfl, hal.2⟩
  · rw [if_neg hal]
    right
    have hm := card_LM (T := T) (n := n)
    obtain ⟨u1, u2, g1, g2, g3, g4⟩ := buckets_ok hT (bufOf A g fs n k)
    rw [g1, Res.ok_bind, g2, Res.ok_bind, zeroLoop_ok n (n - (LM T n).card) (LM T n).card _ (by omega), Res.ok_bind]
    have hκ : ∀ p q, isLMS T n p = true → isLMS T n q = true → kaf T n p = kaf T n q → p = q := fun p q hp hq h => kaf_inj hp hq h
    obtain ⟨s', f1, f2⟩ := put_ok (T := T) (n := n) (k := k) hT (A0 := A) (l := fun x => (A x).toNat)
      (fun p hp => by rw [hA p hp]; rfl) (LM T n).card
      (fun x => if (LM T n).card ≤ x ∧ x < (LM T n).card + (n - (LM T n).card) then 0 else A x, u2.B) (le_refl _)
      (by
        have e : fromK T n (LM T n).card = ∅ := by
          unfold fromK
          rw [filter_eq_empty_iff]
          intro q hq
          have := kaf_lt (mem_LM.mp hq)
          omega
        rw [e]
        refine ⟨?_, ?_, ?_, ?_⟩
        · intro c hc
          simp [g4 c hc]
        · intro q hq
          simp at hq
        · intro x hx _
          by_cases w : x < (LM T n).card
          · obtain ⟨p, hp, ep⟩ := kaf_surj w
            have := hA p hp
            rw [ep] at this
            simp only
            rw [if_neg (by omega), if_pos w, this]
            simp
          · simp only
            rw [if_pos (by omega), if_neg w]
        · intro x hx
          simp only
          rw [if_neg (by omega)])
    rw [f1, Res.ok_bind]
    obtain ⟨e, A2, u3, e1, e2⟩ := finish_ok (locK_Placed hκ) hT h0 (u := { u2 with B := s'.2 }) (PI_Start f2) g3 isbwt
    obtain ⟨A1, B1⟩ := s'
    simp only at e1 e2 ⊢
    rw [e1, Res.ok_bind, Res.pure_eq]
    refine ⟨_, _, rfl, ?_⟩
    have hr : ∀ a, a < n → rk2 T n (locK T n (kaf T n)) a = sufRank T n a := fun a ha => rk2_suf (fun p q hp hq h => locK_sf hp hq h) ha
    unfold Out at e2 ⊢
    cases isbwt
    · simp only [Bool.false_eq_true, if_false] at e2 ⊢
      refine ⟨e2.1, fun a ha => ?_⟩
      rw [putBack_low (sufRank_lt ha), ← hr a ha]
      exact e2.2 a ha
    · simp only [if_true] at e2 ⊢
      refine ⟨by rw [e2.1, hr 0 h0], fun a ha0 ha => ?_⟩
      rw [putBack_low (sufRank_lt ha), ← hr a ha]
      exact e2.2 a ha0 ha

/-! ### The whole sorter -/

theorem rk_image {α β : Type} [LinearOrder α] [LinearOrder β] {s s' : Finset Nat} {key : Nat → α} {key' : Nat → β} (f : Nat → Nat)
    {p : Nat} (hi : ∀ a, a ∈ s → ∀ b, b ∈ s → f a = f b → a = b) (hs : ∀ t, t ∈ s' → ∃ q, q ∈ s ∧ f q = t)
    (hm : ∀ q, q ∈ s → f q ∈ s') (ho : ∀ q, q ∈ s → (key' (f q) < key' (f p) ↔ key q < key p)) : rk s' key' (f p) = rk s key p := by
  unfold rk
  have : (s'.filter fun b => key' b < key' (f p)) = (s.filter fun b => key b < key p).image f := by
    ext t
    simp only [mem_filter, mem_image]
    constructor
    · rintro ⟨w1, w2⟩
      obtain ⟨q, hq, e⟩ := hs t w1
      exact ⟨q, ⟨hq, (ho q hq).mp (by rw [e]; exact w2)⟩, e⟩
    · rintro ⟨q, ⟨hq, w⟩, e⟩
      rw [← e]
      exact ⟨hm q hq, (ho q hq).mpr w⟩
  rw [this, card_image_of_injOn]
  intro a ha b hb e
  simp only [coe_filter, Set.mem_setOf_eq] at ha hb
  exact hi a ha.1 b hb.1 e


theorem suffixsort_ok (alloc : Nat → Nat → Bool) (g : Arr) : ∀ (depth : Nat) (T : Nat → Nat) (fs n k : Nat) (isbwt : Bool) (A : Arr),
    n ≤ depth → 0 < n → (∀ i, i < n → T i < k) →
    (suffixsort alloc g depth T fs n k isbwt A = .throw ∧ ∃ d c, alloc d c = false) ∨
    ∃ e A', suffixsort alloc g depth T fs n k isbwt A = .ok (e, A') ∧ Out (sufRank T n) T n isbwt e A'
  | 0, T, fs, n, k, isbwt, A, hd, h0, _ => by omega
  | depth + 1, T, fs, n, k, isbwt, A, hd, h0, hT => by
    simp only [suffixsort]
    by_cases hal : fs < k ∧ alloc (2 * depth + 1) k = false
    · rw [if_pos hal]
      exact Or.inl ⟨rfl, _, _, hal.2⟩
    rw [if_neg hal]
    have hm := card_LM (T := T) (n := n)
    obtain ⟨loc, A1, e1, h1⟩ := stage1_ok hT h0 fs A g
    rw [e1, Res.ok_bind]
    obtain ⟨A2, e2, h2⟩ := compact_ok (T := T) (loc0 := loc) (lim := n + fs) (by omega) n 0 0 A1 (by omega)
      (by
        have := low_le (T := T) (n := n) (loc0 := loc) 0
        omega)
      (fun a ha _ => h1 a ha)
      (by
        intro p hp
        unfold low at hp
        have := (mem_filter.mp hp).2
        omega)
    rw [e2, Res.ok_bind]
    simp only
    rw [zeroLoop_ok _ _ _ _ (by omega), Res.ok_bind]
    obtain ⟨s3, e3, h3⟩ := lens_ok (T := T) (lim := n + fs) (m := (LM T n).card) h0 (by omega)
      (fun x => if (LM T n).card ≤ x ∧ x < (LM T n).card + n / 2 then 0 else A2 x) (by
        intro x hx
        rw [if_pos (by omega)])
    rw [e3, Res.ok_bind]
    obtain ⟨A3, j3⟩ := s3
    simp only at h3 ⊢
    -- the sorted list of leftmost S positions
    obtain ⟨l, hl⟩ : ∃ l : Nat → Nat, l = fun t => (A2 t).toNat := ⟨_, rfl⟩
    have hlk : ∀ p, isLMS T n p = true → l (kap T n loc p) = p := by
      intro p hp
      rw [hl]
      simp only
      rw [h2 p hp]
      rfl
    have hll : ∀ t, t < (LM T n).card → isLMS T n (l t) = true ∧ kap T n loc (l t) = t := by
      intro t ht
      obtain ⟨p, hp, e⟩ := kap_surj (loc0 := loc) ht
      rw [← e, hlk p hp]
      exact ⟨hp, rfl⟩
    have hlA : ∀ t, t < (LM T n).card → A2 t = l t := by
      intro t ht
      obtain ⟨p, hp, e⟩ := kap_surj (loc0 := loc) ht
      rw [← e, hlk p hp, h2 p hp]
    have hls : ∀ i j, i < j → j < (LM T n).card → key2 T n loc (l i) < key2 T n loc (l j) := by
      intro i j hij hj
      obtain ⟨a1, a2⟩ := hll i (by omega)
      obtain ⟨b1, b2⟩ := hll j hj
      rw [← kap_iff a1, a2, b2]
      exact hij
    have hln : ∀ t, t < (LM T n).card → l t < n := fun t ht => by
      have := lms_lt (hll t ht).1
      omega
    have hN0 : NameI T n (LM T n).card l 0 A3 := by
      refine ⟨?_, fun t ht => by omega, ?_, ?_⟩
      · intro t ht
        have h6 := h3.low t ht
        simp only at h6
        rw [h6, if_neg (by omega), hlA t ht]
      · intro t _ ht
        obtain ⟨a1, _⟩ := hll t ht
        exact h3.at_ (l t) a1 (lms_iff.mp a1).1
      · intro x hx h
        apply h3.zero x hx
        intro q hq _ e
        apply h (kap T n loc q) (kap_lt hq)
        rw [hlk q hq, e]
    obtain ⟨A4, e4, h4⟩ := name_ok (T := T) (n := n) (lim := n + fs) (l := l) (by omega) (fun t ht => (hll t ht).1)
      (fun s t hs ht e => by rw [← (hll s hs).2, ← (hll t ht).2, e]) (LM T n).card 0 A3 (by omega) hN0
    simp only [NS, nx_end (le_refl n), Nat.sub_self] at e4
    change nameLoop T (n + fs) n (LM T n).card (LM T n).card 0 0 n 0 A3 = _ at e4
    rw [e4, Res.ok_bind]
    simp only
    -- names of positions
    obtain ⟨nm, hnm⟩ : ∃ nm : Nat → Nat, nm = fun p => (NS T n l (kap T n loc p + 1)).1 := ⟨_, rfl⟩
    have hseq : ∀ p q, isLMS T n p = true → isLMS T n q = true → nm p = nm q → Seq T n p q := by
      intro p q hp hq h
      rw [hnm] at h
      simp only at h
      rw [← hlk p hp, ← hlk q hq]
      rcases Nat.le_total (kap T n loc p) (kap T n loc q) with w | w
      · exact NS_same w h
      · exact (NS_same w h.symm).symm
    have hdif : ∀ p q, isLMS T n p = true → isLMS T n q = true → nm p < nm q → sf T n p < sf T n q := by
      intro p q hp hq h
      rw [hnm] at h
      simp only at h
      have hlt : kap T n loc p < kap T n loc q := by
        by_contra hc
        have := NS_mono (T := T) (n := n) (l := l) (i := kap T n loc q + 1) (kap T n loc p - kap T n loc q)
        rw [show kap T n loc q + 1 + (kap T n loc p - kap T n loc q) = kap T n loc p + 1 by omega] at this
        omega
      have := NS_diff hln hls hlt (kap_lt hq) h
      rw [hlk p hp, hlk q hq] at this
      exact this
    by_cases hname : (NS T n l (LM T n).card).1 < (LM T n).card
    · rw [if_pos hname]
      have hpos : ∀ p, isLMS T n p = true → 0 < nm p := by
        intro p hp
        rw [hnm]
        exact NS_pos hln (kap_lt hp)
      obtain ⟨A5, e5, h5⟩ := gather_ok (T := T) (n := n) (lim := n + fs) (r := n + fs - (LM T n).card) (nm := nm) (by omega) (by omega)
        hpos (n / 2) (((LM T n).card : Int) - 1) A4 (le_refl _) (by rw [hf_all]; omega)
        (by
          intro p hp _
          have := h4.done (kap T n loc p) (kap_lt hp)
          rw [hlk p hp] at this
          rw [this, hnm])
        (by
          intro x hx h
          exact h4.zero x hx (fun t ht => h (l t) (hll t ht).1))
        (by
          intro p hp h
          have := lms_half_lt hp
          omega)
      rw [e5, Res.ok_bind]
      obtain ⟨T', hT'⟩ : ∃ T' : Nat → Nat, T' = fun i => (A5 (n + fs - (LM T n).card + i)).toNat := ⟨_, rfl⟩
      have hTn : ∀ p, isLMS T n p = true → T' (om T n p) + 1 = nm p := by
        intro p hp
        rw [hT']
        simp only
        rw [h5 p hp]
        have := hpos p hp
        omega
      have hTk : ∀ i, i < (LM T n).card → T' i < (NS T n l (LM T n).card).1 := by
        intro i hi
        obtain ⟨p, hp, e⟩ := om_surj hi
        have h6 := hTn p hp
        rw [e] at h6
        have : nm p ≤ (NS T n l (LM T n).card).1 := by
          rw [hnm]
          simp only
          have hk := kap_lt (loc0 := loc) hp
          have := NS_mono (T := T) (n := n) (l := l) (i := kap T n loc p + 1) ((LM T n).card - (kap T n loc p + 1))
          rw [show kap T n loc p + 1 + ((LM T n).card - (kap T n loc p + 1)) = (LM T n).card by omega] at this
          exact this
        omega
      rw [← hT']
      rcases suffixsort_ok alloc g depth T' (fs + n - (LM T n).card * 2) (LM T n).card (NS T n l (LM T n).card).1 false A5 (by omega) (by omega) hTk
        with ⟨w1, w2⟩ | ⟨r6, A6, e6, rfl, h6⟩
      · left
        rw [w1, Res.throw_bind]
        exact ⟨rfl, w2⟩
      rw [e6, Res.ok_bind]
      simp only [ne_eq, not_true_eq_false, if_false]
      obtain ⟨s7, e7, h7⟩ := refill_ok (T := T) (lim := n + fs) (r := n + fs - (LM T n).card) h0 (by omega) A6
      rw [e7, Res.ok_bind]
      obtain ⟨A7, j7⟩ := s7
      have h7a : ∀ q, isLMS T n q = true → 0 < q → A7 (n + fs - (LM T n).card + om T n q) = q := h7.at_
      have h7b : ∀ x, x < n + fs - (LM T n).card → A7 x = A6 x := h7.low
      simp only
      -- the position of an index of the reduced text
      obtain ⟨P, hP⟩ : ∃ P : Nat → Nat, P = fun t => (A7 (n + fs - (LM T n).card + t)).toNat := ⟨_, rfl⟩
      have hPo : ∀ p, isLMS T n p = true → P (om T n p) = p := by
        intro p hp
        rw [hP]
        simp only
        rw [h7a p hp (lms_iff.mp hp).1]
        rfl
      obtain ⟨A8, e8, h8⟩ := map_ok (lim := n + fs) (r := n + fs - (LM T n).card) (m := (LM T n).card) (T' := T') (P := P) (by omega)
        (by omega) (LM T n).card 0 A7 (by omega)
        (by
          intro t ht
          obtain ⟨p, hp, e⟩ := om_surj ht
          rw [← e, hPo p hp]
          exact h7a p hp (lms_iff.mp hp).1)
        (by
          intro t ht
          rw [if_neg (by omega)]
          have := sufRank_lt (T := T') ht
          rw [h7b _ (by omega)]
          exact h6 t ht)
      rw [e8, Res.ok_bind]
      -- order of the reduced text
      have hord : ∀ p q, isLMS T n p = true → isLMS T n q = true →
          (sf T' (LM T n).card (om T n p) < sf T' (LM T n).card (om T n q) ↔ sf T n p < sf T n q) := by
        intro p q hp hq
        constructor
        · exact reduce hTn hseq hdif _ p q rfl (Or.inr hp) (Or.inr hq)
        · intro h
          by_contra hc
          rcases lt_or_eq_of_le (not_lt.mp hc) with w | w
          · exact lt_asymm h (reduce hTn hseq hdif _ q p rfl (Or.inr hq) (Or.inr hp) w)
          · have o1 := om_lt hp
            have o2 := om_lt hq
            have := om_inj hq hp (sf_inj (by omega) (by omega) w)
            subst this
            exact lt_irrefl _ h
      have hrank : ∀ p, isLMS T n p = true → sufRank T' (LM T n).card (om T n p) = kaf T n p := by
        intro p hp
        unfold sufRank kaf
        apply rk_image (om T n)
        · intro a ha b hb e
          exact om_inj (mem_LM.mp ha) (mem_LM.mp hb) e
        · intro t ht
          obtain ⟨q, hq, e⟩ := om_surj (mem_range.mp ht)
          exact ⟨q, mem_LM.mpr hq, e⟩
        · exact fun q hq => mem_range.mpr (om_lt (mem_LM.mp hq))
        · exact fun q hq => hord q p (mem_LM.mp hq) hp
      rcases stage3_ok alloc (2 * depth) hT h0 fs isbwt A8 g (by
        intro p hp
        have := h8 (om T n p) (om_lt hp)
        rw [hrank p hp, hPo p hp] at this
        exact this) with w | w
      · exact Or.inl ⟨w.1, _, _, w.2⟩
      · exact Or.inr w
    · rw [if_neg hname]
      have hfull : (NS T n l (LM T n).card).1 = (LM T n).card := by
        have := NS_le (T := T) (n := n) (l := l) (LM T n).card
        omega
      have hstrict : ∀ p q, isLMS T n p = true → isLMS T n q = true → kap T n loc p < kap T n loc q → sf T n p < sf T n q := by
        intro p q hp hq h
        apply hdif p q hp hq
        rw [hnm]
        simp only
        have k1 := kap_lt (loc0 := loc) hp
        have k2 := kap_lt (loc0 := loc) hq
        rw [NS_full hfull _ (by omega), NS_full hfull _ (by omega)]
        omega
      have hrank : ∀ p, isLMS T n p = true → kap T n loc p = kaf T n p := by
        intro p hp
        unfold kap kaf rk
        congr 1
        ext q
        simp only [mem_filter, mem_LM, and_congr_right_iff]
        intro hq
        have hk : rk2 T n loc q < rk2 T n loc p ↔ kap T n loc q < kap T n loc p := by
          rw [kap, kap, rk_lt_iff (mem_LM.mpr hq)]
        rw [hk]
        constructor
        · exact hstrict q p hq hp
        · intro h
          by_contra hc
          rcases lt_or_eq_of_le (not_lt.mp hc) with w | w
          · exact lt_asymm h (hstrict p q hp hq w)
          · have := kap_inj hp hq w
            subst this
            exact lt_irrefl _ h
      rcases stage3_ok alloc (2 * depth) hT h0 fs isbwt A4 g (by
        intro p hp
        rw [← hrank p hp, h4.low _ (kap_lt hp), hlk p hp]) with w | w
      · exact Or.inl ⟨w.1, _, _, w.2⟩
      · exact Or.inr w

end Verif.Sais
