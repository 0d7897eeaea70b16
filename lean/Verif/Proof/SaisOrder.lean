import Verif.Proof.SaisInduce

set_option linter.unusedSimpArgs false

/-! The order of suffixes, and what the sorting of the pieces between leftmost S positions tells about it. -/
namespace Verif.Sais
open Finset

variable {T : Nat → Nat} {n k : Nat} {loc0 : Nat → Nat}

/-! ### Suffixes -/

/-- `sf` with the number of characters left. -/
def sfF (T : Nat → Nat) : Nat → Nat → List Nat
  | 0, _ => []
  | d + 1, a => T a :: sfF T d (a + 1)

/-- The suffix at `a`. -/
def sf (T : Nat → Nat) (n a : Nat) : List Nat := sfF T (n - a) a

theorem sf_end {a : Nat} (h : n ≤ a) : sf T n a = [] := by
  unfold sf
  rw [Nat.sub_eq_zero_of_le h]
  rfl

theorem sf_cons {a : Nat} (h : a < n) : sf T n a = T a :: sf T n (a + 1) := by
  unfold sf
  obtain ⟨d, hd⟩ : ∃ d, n - a = d + 1 := ⟨n - a - 1, by omega⟩
  have : n - (a + 1) = d := by omega
  rw [hd, this]
  rfl

theorem sfF_length : ∀ (d a : Nat), (sfF T d a).length = d
  | 0, _ => rfl
  | d + 1, a => by simp [sfF, sfF_length d]

theorem sf_inj {a b : Nat} (ha : a ≤ n) (hb : b ≤ n) (h : sf T n a = sf T n b) : a = b := by
  have := congrArg List.length h
  unfold sf at this
  rw [sfF_length, sfF_length] at this
  omega

theorem sf_injOn : Set.InjOn (sf T n) (range n : Finset Nat) := by
  intro a ha b hb h
  simp at ha hb
  exact sf_inj (by omega) (by omega) h

/-- The number of smaller suffixes. -/
def sufRank (T : Nat → Nat) (n a : Nat) : Nat := rk (range n) (sf T n) a

theorem sufRank_iff {a b : Nat} (ha : a < n) : sufRank T n a < sufRank T n b ↔ sf T n a < sf T n b := rk_lt_iff (mem_range.mpr ha)

theorem sufRank_lt {a : Nat} (ha : a < n) : sufRank T n a < n := by
  have := rk_lt (s := range n) (key := sf T n) (mem_range.mpr ha)
  simpa [sufRank] using this

/-- Of two suffixes with the same first character an L one is smaller than an S one. -/
theorem sf_LS : ∀ (d x y : Nat), n - x = d → y < n → T x = T y → isS T n x = true → isS T n y = false → sf T n y < sf T n x
  | 0, x, y, hd, hy, e, hx, hL => by
    have := isS_lt hx
    omega
  | d + 1, x, y, hd, hy, e, hx, hL => by
    have hx1 := isS_lt hx
    rw [sf_cons (a := x) (by omega), sf_cons hy, List.cons_lt_cons_iff, e]
    refine Or.inr ⟨rfl, ?_⟩
    by_cases hy1 : y + 1 < n
    · have lx := (isS_step (T := T) hx1).mp hx
      have ly := (isL_step (T := T) hy1).mp hL
      by_cases g : T (y + 1) < T (x + 1)
      · rw [sf_cons hx1, sf_cons hy1, List.cons_lt_cons_iff]
        exact Or.inl g
      · have g1 : T x = T (x + 1) ∧ isS T n (x + 1) = true := by
          rcases lx with w | w
          · rcases ly with v | v <;> omega
          · exact w
        have g2 : T y = T (y + 1) ∧ isS T n (y + 1) = false := by
          rcases ly with w | w
          · omega
          · exact w
        exact sf_LS d (x + 1) (y + 1) (by omega) hy1 (by omega) g1.2 g2.2
    · rw [sf_end (a := y + 1) (by omega), sf_cons hx1]
      simp

theorem sf_of_code {x y : Nat} (hx : x < n) (hy : y < n) (h : code T n x < code T n y) : sf T n x < sf T n y := by
  by_cases g : T x < T y
  · rw [sf_cons hx, sf_cons hy, List.cons_lt_cons_iff]
    exact Or.inl g
  · have h1 := code_div (T := T) (n := n) x
    have h2 := code_div (T := T) (n := n) y
    have e : T x = T y := by omega
    cases hS : isS T n x <;> cases hS' : isS T n y <;> simp [code, hS, hS', e] at h
    · exact sf_LS _ y x rfl hx e.symm hS' hS
    · omega

theorem code_of_sf {x y : Nat} (hx : x < n) (hy : y < n) (h : sf T n x < sf T n y) : code T n x ≤ code T n y := by
  by_contra hc
  exact lt_asymm h (sf_of_code hy hx (by omega))

/-! ### Sorted leftmost S positions sort everything -/

theorem key1_suf (ho : ∀ p q, isLMS T n p = true → isLMS T n q = true → sf T n p < sf T n q → loc0 p < loc0 q) :
    ∀ (d x y : Nat), n - x = d → (x = n ∨ Has T n x) → (y = n ∨ Has T n y) → sf T n x < sf T n y →
      key1 T n loc0 x < key1 T n loc0 y
  | d, x, y, hd, hx, hy, h => by
    rcases hy with rfl | hy
    · rw [sf_end (a := y) (le_refl _)] at h
      simp at h
    rcases hx with rfl | hx
    · rw [key1_end (a := x) (le_refl _)]
      obtain ⟨t, ht⟩ := key1_head (T := T) (loc0 := loc0) hy.1
      rw [ht]
      simp
    rcases lt_or_eq_of_le (code_of_sf hx.1 hy.1 h) with g | g
    · exact key1_code hx.1 hy.1 g
    · obtain ⟨eT, ty⟩ := code_SL g
      have hxn := hx.1
      have hyn := hy.1
      cases hS : isS T n x
      · have hS' : isS T n y = false := by rw [← ty, hS]
        rw [sf_cons hxn, sf_cons hyn, List.cons_lt_cons_iff, eT] at h
        simp only [lt_irrefl, false_or, true_and] at h
        rw [key1_L hxn hS, key1_L hyn hS', List.cons_lt_cons_iff, eT]
        right
        refine ⟨rfl, ?_⟩
        apply key1_suf ho (n - (x + 1)) (x + 1) (y + 1) rfl _ _ h
        · by_cases w : x + 1 < n
          · exact Or.inr (has_next w hS)
          · left; omega
        · by_cases w : y + 1 < n
          · exact Or.inr (has_next w hS')
          · left; omega
      · have hS' : isS T n y = true := by rw [← ty, hS]
        have lx : isLMS T n x = true := by
          rcases hx.2 with w | w
          · rw [hS] at w; cases w
          · exact w
        have ly : isLMS T n y = true := by
          rcases hy.2 with w | w
          · rw [hS'] at w; cases w
          · exact w
        have := ho x y lx ly h
        rw [key1_S hS, key1_S hS', List.cons_lt_cons_iff, eT, List.cons_lt_cons_iff]
        right
        exact ⟨rfl, Or.inl this⟩
termination_by d => d
decreasing_by omega

theorem key2_suf (ho : ∀ p q, isLMS T n p = true → isLMS T n q = true → sf T n p < sf T n q → loc0 p < loc0 q) :
    ∀ (d x y : Nat), n - x = d → x < n → y < n → sf T n x < sf T n y → key2 T n loc0 x < key2 T n loc0 y
  | d, x, y, hd, hx, hy, h => by
    rcases lt_or_eq_of_le (code_of_sf hx hy h) with g | g
    · exact key2_code hx hy g
    · obtain ⟨eT, ty⟩ := code_SL g
      cases hS : isS T n x
      · have hS' : isS T n y = false := by rw [← ty, hS]
        have := key1_suf ho _ x y rfl (Or.inr ⟨hx, Or.inl hS⟩) (Or.inr ⟨hy, Or.inl hS'⟩) h
        rw [← rk1_iff hx] at this
        rw [key2_L hx hS, key2_L hy hS', List.cons_lt_cons_iff, eT, List.cons_lt_cons_iff]
        right
        exact ⟨rfl, Or.inl this⟩
      · have hS' : isS T n y = true := by rw [← ty, hS]
        have h1 := isS_lt hS
        have h2 := isS_lt hS'
        rw [sf_cons hx, sf_cons hy, List.cons_lt_cons_iff, eT] at h
        simp only [lt_irrefl, false_or, true_and] at h
        rw [key2_S hS, key2_S hS', List.cons_lt_cons_iff, eT]
        right
        exact ⟨rfl, key2_suf ho (n - (x + 1)) (x + 1) (y + 1) rfl h1 h2 h⟩
termination_by d => d
decreasing_by omega

/-- If the leftmost S positions are placed in the order of their suffixes, `induceSA` puts every position at its rank. -/
theorem rk2_suf (ho : ∀ p q, isLMS T n p = true → isLMS T n q = true → sf T n p < sf T n q → loc0 p < loc0 q) {a : Nat} (ha : a < n) :
    rk2 T n loc0 a = sufRank T n a := by
  unfold rk2 sufRank rk
  congr 1
  ext b
  simp only [mem_filter, mem_range, and_congr_right_iff]
  intro hb
  constructor
  · intro h
    by_contra hc
    rcases lt_or_eq_of_le (not_lt.mp hc) with g | g
    · exact lt_asymm h (key2_suf ho _ a b rfl ha hb g)
    · have := sf_inj (T := T) (n := n) (by omega) (by omega) g
      subst this
      exact lt_irrefl _ h
  · exact key2_suf ho _ b a rfl hb ha

/-! ### The pieces between leftmost S positions -/

/-- `Dm` with the number of positions left. -/
def DmF (T : Nat → Nat) (n : Nat) : Nat → Nat → List Nat
  | 0, _ => []
  | d + 1, a => code T n a :: (if isLMS T n (a + 1) then [code T n (a + 1)] else DmF T n d (a + 1))

/-- The codes from `a` to the next leftmost S position, that one included. -/
def Dm (T : Nat → Nat) (n a : Nat) : List Nat := DmF T n (n - a) a

/-- The same, from a position which may itself be the last one. -/
def Em (T : Nat → Nat) (n x : Nat) : List Nat := if isLMS T n x then [code T n x] else Dm T n x

theorem Dm_cons {a : Nat} (h : a < n) : Dm T n a = code T n a :: Em T n (a + 1) := by
  unfold Dm Em Dm
  obtain ⟨d, hd⟩ : ∃ d, n - a = d + 1 := ⟨n - a - 1, by omega⟩
  have : n - (a + 1) = d := by omega
  rw [hd, this]
  rfl

theorem Em_end {a : Nat} (h : n ≤ a) : Em T n a = [] := by
  unfold Em Dm
  rw [Nat.sub_eq_zero_of_le h]
  cases g : isLMS T n a
  · rfl
  · have := lms_lt g
    omega

theorem Em_head {x : Nat} (h : x < n) : ∃ t, Em T n x = code T n x :: t := by
  unfold Em
  split
  · exact ⟨_, rfl⟩
  · exact ⟨_, Dm_cons h⟩

theorem Em_not {x : Nat} (h : isLMS T n x = false) : Em T n x = Dm T n x := by simp [Em, h]
theorem Em_lms {x : Nat} (h : isLMS T n x = true) : Em T n x = [code T n x] := by simp [Em, h]

theorem not_lms_L {x : Nat} (h : isS T n x = false) : isLMS T n x = false := by simp [isLMS, h]

theorem Em_key1 : ∀ (d x y : Nat), n - x = d → (x = n ∨ Has T n x) → (y = n ∨ Has T n y) → Em T n x < Em T n y →
      key1 T n loc0 x < key1 T n loc0 y
  | d, x, y, hd, hx, hy, h => by
    rcases hy with rfl | hy
    · rw [Em_end (a := y) (le_refl _)] at h
      simp at h
    rcases hx with rfl | hx
    · rw [key1_end (a := x) (le_refl _)]
      obtain ⟨t, ht⟩ := key1_head (T := T) (loc0 := loc0) hy.1
      rw [ht]
      simp
    have hxn := hx.1
    have hyn := hy.1
    obtain ⟨s, hs⟩ := Em_head (T := T) hxn
    obtain ⟨t, ht⟩ := Em_head (T := T) hyn
    rcases lt_trichotomy (code T n x) (code T n y) with g | g | g
    · exact key1_code hxn hyn g
    · obtain ⟨eT, ty⟩ := code_SL g
      cases hS : isS T n x
      · have hS' : isS T n y = false := by rw [← ty, hS]
        rw [Em_not (not_lms_L hS), Em_not (not_lms_L hS'), Dm_cons hxn, Dm_cons hyn, List.cons_lt_cons_iff, g] at h
        simp only [lt_irrefl, false_or, true_and] at h
        rw [key1_L hxn hS, key1_L hyn hS', List.cons_lt_cons_iff, eT]
        right
        refine ⟨rfl, ?_⟩
        apply Em_key1 (n - (x + 1)) (x + 1) (y + 1) rfl _ _ h
        · by_cases w : x + 1 < n
          · exact Or.inr (has_next w hS)
          · left; omega
        · by_cases w : y + 1 < n
          · exact Or.inr (has_next w hS')
          · left; omega
      · have hS' : isS T n y = true := by rw [← ty, hS]
        have lx : isLMS T n x = true := by
          rcases hx.2 with w | w
          · rw [hS] at w; cases w
          · exact w
        have ly : isLMS T n y = true := by
          rcases hy.2 with w | w
          · rw [hS'] at w; cases w
          · exact w
        rw [Em_lms lx, Em_lms ly, g] at h
        exact absurd h (lt_irrefl _)
    · rw [hs, ht, List.cons_lt_cons_iff] at h
      omega
termination_by d => d
decreasing_by omega

/-- A smaller piece comes first. -/
theorem Dm_key2 : ∀ (d x y : Nat), n - x = d → x < n → y < n → Dm T n x < Dm T n y → key2 T n loc0 x < key2 T n loc0 y
  | d, x, y, hd, hx, hy, h => by
    rcases lt_trichotomy (code T n x) (code T n y) with g | g | g
    · exact key2_code hx hy g
    · obtain ⟨eT, ty⟩ := code_SL g
      cases hS : isS T n x
      · have hS' : isS T n y = false := by rw [← ty, hS]
        rw [← Em_not (not_lms_L hS), ← Em_not (not_lms_L hS')] at h
        have := Em_key1 (loc0 := loc0) _ x y rfl (Or.inr ⟨hx, Or.inl hS⟩) (Or.inr ⟨hy, Or.inl hS'⟩) h
        rw [← rk1_iff hx] at this
        rw [key2_L hx hS, key2_L hy hS', List.cons_lt_cons_iff, eT, List.cons_lt_cons_iff]
        right
        exact ⟨rfl, Or.inl this⟩
      · have hS' : isS T n y = true := by rw [← ty, hS]
        have h1 := isS_lt hS
        have h2 := isS_lt hS'
        rw [Dm_cons hx, Dm_cons hy, List.cons_lt_cons_iff, g, Em_not (lms_succ hS), Em_not (lms_succ hS')] at h
        simp only [lt_irrefl, false_or, true_and] at h
        rw [key2_S hS, key2_S hS', List.cons_lt_cons_iff, eT]
        right
        exact ⟨rfl, Dm_key2 (n - (x + 1)) (x + 1) (y + 1) rfl h1 h2 h⟩
    · rw [Dm_cons hx, Dm_cons hy, List.cons_lt_cons_iff] at h
      omega
termination_by d => d
decreasing_by omega

theorem lms_same {x y : Nat} (h : code T n x = code T n y) (h1 : code T n (x + 1) = code T n (y + 1)) :
    isLMS T n (x + 1) = isLMS T n (y + 1) := by
  have e1 := (code_SL h).2
  have e2 := (code_SL h1).2
  simp [isLMS, e1, e2]

/-- A smaller piece begins a smaller suffix. -/
theorem Dm_sf : ∀ (d x y : Nat), n - x = d → x < n → y < n → Dm T n x < Dm T n y → sf T n x < sf T n y
  | d, x, y, hd, hx, hy, h => by
    rcases lt_trichotomy (code T n x) (code T n y) with g | g | g
    · exact sf_of_code hx hy g
    · rw [Dm_cons hx, Dm_cons hy, List.cons_lt_cons_iff, g] at h
      simp only [lt_irrefl, false_or, true_and] at h
      rw [sf_cons hx, sf_cons hy, List.cons_lt_cons_iff, (code_SL g).1]
      refine Or.inr ⟨rfl, ?_⟩
      by_cases hy1 : y + 1 < n
      · by_cases hx1 : x + 1 < n
        · obtain ⟨s, hs⟩ := Em_head (T := T) hx1
          obtain ⟨t, ht⟩ := Em_head (T := T) hy1
          rcases lt_trichotomy (code T n (x + 1)) (code T n (y + 1)) with g1 | g1 | g1
          · exact sf_of_code hx1 hy1 g1
          · have hl := lms_same g g1
            cases hx2 : isLMS T n (x + 1)
            · rw [Em_not hx2, Em_not (by rw [← hl, hx2])] at h
              exact Dm_sf (n - (x + 1)) (x + 1) (y + 1) rfl hx1 hy1 h
            · rw [Em_lms hx2, Em_lms (by rw [← hl, hx2]), g1] at h
              exact absurd h (lt_irrefl _)
          · rw [hs, ht, List.cons_lt_cons_iff] at h
            omega
        · rw [sf_end (a := x + 1) (by omega), sf_cons hy1]
          simp
      · rw [Em_end (a := y + 1) (by omega)] at h
        simp at h
    · rw [Dm_cons hx, Dm_cons hy, List.cons_lt_cons_iff] at h
      omega
termination_by d => d
decreasing_by omega

/-! ### The next leftmost S position -/

/-- `nx` with the number of positions left. -/
def nxF (T : Nat → Nat) (n : Nat) : Nat → Nat → Nat
  | 0, _ => n
  | d + 1, a => if isLMS T n (a + 1) then a + 1 else nxF T n d (a + 1)

/-- The next leftmost S position, or the end. -/
def nx (T : Nat → Nat) (n a : Nat) : Nat := nxF T n (n - a) a

theorem nx_step {a : Nat} (h : a < n) : nx T n a = if isLMS T n (a + 1) then a + 1 else nx T n (a + 1) := by
  unfold nx
  obtain ⟨d, hd⟩ : ∃ d, n - a = d + 1 := ⟨n - a - 1, by omega⟩
  have : n - (a + 1) = d := by omega
  rw [hd, this]
  rfl

theorem nx_end {a : Nat} (h : n ≤ a) : nx T n a = n := by
  unfold nx
  rw [Nat.sub_eq_zero_of_le h]
  rfl

theorem nx_spec : ∀ (d a : Nat), n - a = d → a < n →
    a < nx T n a ∧ nx T n a ≤ n ∧ (nx T n a = n ∨ isLMS T n (nx T n a) = true) ∧ ∀ q, a < q → q < nx T n a → isLMS T n q = false
  | 0, a, hd, h => by omega
  | d + 1, a, hd, h => by
    rw [nx_step h]
    cases hl : isLMS T n (a + 1)
    · simp only [Bool.false_eq_true, if_false]
      by_cases h1 : a + 1 < n
      · obtain ⟨g1, g2, g3, g4⟩ := nx_spec d (a + 1) (by omega) h1
        refine ⟨by omega, g2, g3, fun q hq hq' => ?_⟩
        by_cases e : q = a + 1
        · rw [e, hl]
        · exact g4 q (by omega) hq'
      · rw [nx_end (by omega)]
        exact ⟨h, le_refl _, Or.inl rfl, fun q hq hq' => by omega⟩
    · simp only [if_true]
      exact ⟨by omega, by omega, Or.inr hl, fun q hq hq' => by omega⟩

/-- The pieces from `p` and `q` up to the next leftmost S position are equal: what the naming loop compares. -/
def Seq (T : Nat → Nat) (n p q : Nat) : Prop := nx T n p - p = nx T n q - q ∧ ∀ j, j < nx T n p - p → T (p + j) = T (q + j)

theorem Seq.symm {p q : Nat} (h : Seq T n p q) : Seq T n q p := ⟨h.1.symm, fun j hj => (h.2 j (by rw [h.1]; exact hj)).symm⟩

theorem Seq.trans {p q r : Nat} (h : Seq T n p q) (h' : Seq T n q r) : Seq T n p r :=
  ⟨h.1.trans h'.1, fun j hj => (h.2 j hj).trans (h'.2 j (by rw [← h.1]; exact hj))⟩

theorem Dm_Seq : ∀ (d p q : Nat), n - p = d → p < n → q < n → Dm T n p = Dm T n q → Seq T n p q
  | 0, p, q, hd, hp, hq, h => by omega
  | d + 1, p, q, hd, hp, hq, h => by
    rw [Dm_cons hp, Dm_cons hq] at h
    obtain ⟨g, h⟩ := List.cons.inj h
    have eT := (code_SL g).1
    by_cases hp1 : p + 1 < n
    · by_cases hq1 : q + 1 < n
      · have g1 : code T n (p + 1) = code T n (q + 1) := by
          obtain ⟨s, hs⟩ := Em_head (T := T) hp1
          obtain ⟨t, ht⟩ := Em_head (T := T) hq1
          rw [hs, ht] at h
          exact (List.cons.inj h).1
        have hl := lms_same g g1
        have sp := (nx_spec (T := T) _ (p + 1) rfl hp1).1
        have sq := (nx_spec (T := T) _ (q + 1) rfl hq1).1
        unfold Seq
        rw [nx_step hp, nx_step hq, ← hl]
        cases hx2 : isLMS T n (p + 1)
        · rw [Em_not hx2, Em_not (by rw [← hl, hx2])] at h
          obtain ⟨i1, i2⟩ := Dm_Seq d (p + 1) (q + 1) (by omega) hp1 hq1 h
          simp only [Bool.false_eq_true, if_false]
          refine ⟨by omega, fun j hj => ?_⟩
          cases j with
          | zero => exact eT
          | succ j =>
            have := i2 j (by omega)
            rw [show p + (j + 1) = p + 1 + j by omega, show q + (j + 1) = q + 1 + j by omega]
            exact this
        · simp only [if_true]
          refine ⟨by omega, fun j hj => ?_⟩
          have : j = 0 := by omega
          subst this
          exact eT
      · rw [Em_end (a := q + 1) (by omega)] at h
        obtain ⟨s, hs⟩ := Em_head (T := T) hp1
        rw [hs] at h
        cases h
    · by_cases hq1 : q + 1 < n
      · rw [Em_end (a := p + 1) (by omega)] at h
        obtain ⟨s, hs⟩ := Em_head (T := T) hq1
        rw [hs] at h
        cases h
      · have : p = q := by omega
        subst this
        exact ⟨rfl, fun _ _ => rfl⟩

theorem sf_prefix : ∀ (len p q : Nat), p + len ≤ n → q + len ≤ n → (∀ j, j < len → T (p + j) = T (q + j)) →
    sf T n (p + len) < sf T n (q + len) → sf T n p < sf T n q
  | 0, p, q, _, _, _, h => h
  | len + 1, p, q, hp, hq, he, h => by
    rw [sf_cons (a := p) (by omega), sf_cons (a := q) (by omega), List.cons_lt_cons_iff]
    refine Or.inr ⟨he 0 (by omega), ?_⟩
    apply sf_prefix len (p + 1) (q + 1) (by omega) (by omega)
    · intro j hj
      have := he (j + 1) (by omega)
      rw [show p + 1 + j = p + (j + 1) by omega, show q + 1 + j = q + (j + 1) by omega]
      exact this
    · rw [show p + 1 + len = p + (len + 1) by omega, show q + 1 + len = q + (len + 1) by omega]
      exact h

theorem Seq_sf {p q : Nat} (hp : p < n) (hq : q < n) (h : Seq T n p q) (hs : sf T n (nx T n p) < sf T n (nx T n q)) :
    sf T n p < sf T n q := by
  have s1 := nx_spec (T := T) _ p rfl hp
  have s2 := nx_spec (T := T) _ q rfl hq
  have e := h.1
  apply sf_prefix (nx T n p - p) p q (by omega) (by omega) h.2
  rw [show p + (nx T n p - p) = nx T n p by omega, show q + (nx T n p - p) = nx T n q by omega]
  exact hs

/-! ### The reduced text -/

/-- The number of leftmost S positions before `p`. -/
def om (T : Nat → Nat) (n p : Nat) : Nat := rk (LM T n) id p

theorem om_lt {p : Nat} (h : isLMS T n p = true) : om T n p < (LM T n).card := rk_lt (mem_LM.mpr h)

theorem om_end : om T n n = (LM T n).card := by
  unfold om rk
  congr 1
  rw [filter_true_of_mem]
  intro b hb
  have := lms_lt (mem_LM.mp hb)
  simp
  omega

theorem om_inj {p q : Nat} (hp : isLMS T n p = true) (hq : isLMS T n q = true) (h : om T n p = om T n q) : p = q :=
  rk_inj (fun _ _ _ _ h => h) (mem_LM.mpr hp) (mem_LM.mpr hq) h

theorem om_surj {t : Nat} (h : t < (LM T n).card) : ∃ p, isLMS T n p = true ∧ om T n p = t := by
  obtain ⟨p, hp, e⟩ := rk_surj (s := LM T n) (key := id) (fun _ _ _ _ h => h) h
  exact ⟨p, mem_LM.mp hp, e⟩

theorem om_nx {p : Nat} (h : isLMS T n p = true) : om T n (nx T n p) = om T n p + 1 := by
  have hp := lms_lt h
  obtain ⟨s1, s2, s3, s4⟩ := nx_spec (T := T) (n := n) _ p rfl (by omega)
  unfold om rk
  have : ((LM T n).filter fun b => id b < id (nx T n p)) = insert p ((LM T n).filter fun b => id b < id p) := by
    ext b
    simp only [id, mem_insert, mem_filter, mem_LM]
    constructor
    · rintro ⟨h1, h2⟩
      rcases lt_trichotomy b p with g | g | g
      · exact Or.inr ⟨h1, g⟩
      · exact Or.inl g
      · have := s4 b g h2
        rw [h1] at this
        cases this
    · rintro (rfl | ⟨h1, h2⟩)
      · exact ⟨h, s1⟩
      · exact ⟨h1, by omega⟩
  rw [this, card_insert_of_notMem]
  simp

/-- The names in the order of the text have suffixes in the order of those of the text. -/
theorem reduce {T' : Nat → Nat} {nm : Nat → Nat} (hn : ∀ p, isLMS T n p = true → T' (om T n p) + 1 = nm p)
    (h1 : ∀ p q, isLMS T n p = true → isLMS T n q = true → nm p = nm q → Seq T n p q)
    (h2 : ∀ p q, isLMS T n p = true → isLMS T n q = true → nm p < nm q → sf T n p < sf T n q) :
    ∀ (d p q : Nat), n - p = d → (p = n ∨ isLMS T n p = true) → (q = n ∨ isLMS T n q = true) →
      sf T' (LM T n).card (om T n p) < sf T' (LM T n).card (om T n q) → sf T n p < sf T n q
  | d, p, q, hd, hp, hq, h => by
    rcases hq with rfl | hq
    · rw [om_end, sf_end (a := (LM T q).card) (le_refl _)] at h
      simp at h
    have hqn := lms_lt hq
    rcases hp with rfl | hp
    · rw [sf_end (a := p) (le_refl _), sf_cons (by omega)]
      simp
    have hpn := lms_lt hp
    rw [sf_cons (om_lt hp), sf_cons (om_lt hq), List.cons_lt_cons_iff] at h
    have e1 := hn p hp
    have e2 := hn q hq
    rcases h with h | ⟨h, h'⟩
    · exact h2 p q hp hq (by omega)
    · rw [← om_nx hp, ← om_nx hq] at h'
      have sp := nx_spec (T := T) (n := n) _ p rfl (by omega)
      have sq := nx_spec (T := T) (n := n) _ q rfl (by omega)
      apply Seq_sf (by omega) (by omega) (h1 p q hp hq (by omega))
      exact reduce hn h1 h2 (n - nx T n p) (nx T n p) (nx T n q) rfl sp.2.2.1 sq.2.2.1 h'
termination_by d => d
decreasing_by omega

/-! ### Names -/

open Classical in
/-- The last name and the first position that got it, after `i` positions of the list `l`. -/
noncomputable def NS (T : Nat → Nat) (n : Nat) (l : Nat → Nat) : Nat → Nat × Nat
  | 0 => (0, n)
  | i + 1 => if Seq T n (l i) (NS T n l i).2 then NS T n l i else ((NS T n l i).1 + 1, l i)

theorem not_Seq_end {p : Nat} (h : p < n) : ¬ Seq T n p n := by
  intro hs
  have := hs.1
  rw [nx_end (le_refl n)] at this
  have := (nx_spec (T := T) _ p rfl h).1
  omega

variable {l : Nat → Nat} {m : Nat}

theorem NS_step (i : Nat) : (Seq T n (l i) (NS T n l i).2 ∧ NS T n l (i + 1) = NS T n l i) ∨
    (¬ Seq T n (l i) (NS T n l i).2 ∧ NS T n l (i + 1) = ((NS T n l i).1 + 1, l i)) := by
  by_cases h : Seq T n (l i) (NS T n l i).2
  · left
    exact ⟨h, by rw [NS, if_pos h]⟩
  · right
    exact ⟨h, by rw [NS, if_neg h]⟩

theorem NS_le : ∀ i, (NS T n l i).1 ≤ i
  | 0 => by simp [NS]
  | i + 1 => by
    have := NS_le i
    rcases NS_step (T := T) (n := n) (l := l) i with h | h
    · rw [h.2]; omega
    · rw [h.2]; simp; omega

theorem NS_mono {i : Nat} : ∀ d, (NS T n l i).1 ≤ (NS T n l (i + d)).1
  | 0 => le_refl _
  | d + 1 => by
    have := NS_mono (i := i) d
    rcases NS_step (T := T) (n := n) (l := l) (i + d) with h | h
    · rw [← Nat.add_assoc, h.2]; exact this
    · rw [← Nat.add_assoc, h.2]; simp; omega

theorem NS_stable {i : Nat} : ∀ d, (NS T n l (i + d)).1 = (NS T n l i).1 → NS T n l (i + d) = NS T n l i
  | 0, _ => rfl
  | d + 1, h => by
    have h0 := NS_mono (T := T) (n := n) (l := l) (i := i) d
    rcases NS_step (T := T) (n := n) (l := l) (i + d) with g | g
    · rw [← Nat.add_assoc, g.2] at h ⊢
      exact NS_stable d h
    · rw [← Nat.add_assoc, g.2] at h
      simp at h
      omega

/-- The name stands for the piece that was just seen. -/
theorem NS_Seq (i : Nat) : Seq T n (l i) (NS T n l (i + 1)).2 := by
  rcases NS_step (T := T) (n := n) (l := l) i with h | h
  · rw [h.2]; exact h.1
  · rw [h.2]; exact ⟨rfl, fun _ _ => rfl⟩

theorem NS_pos (hl : ∀ i, i < m → l i < n) {i : Nat} (hi : i < m) : 0 < (NS T n l (i + 1)).1 := by
  have h0 := NS_mono (T := T) (n := n) (l := l) (i := 1) i
  have : (NS T n l 1).1 = 1 := by
    rcases NS_step (T := T) (n := n) (l := l) 0 with h | h
    · exact absurd h.1 (by simpa [NS] using not_Seq_end (hl 0 (by omega)))
    · rw [h.2]; simp [NS]
  rw [Nat.add_comm] at h0
  omega

theorem NS_same {i j : Nat} (h : i ≤ j) (he : (NS T n l (i + 1)).1 = (NS T n l (j + 1)).1) : Seq T n (l i) (l j) := by
  obtain ⟨d, rfl⟩ : ∃ d, j = i + d := ⟨j - i, by omega⟩
  have := NS_stable (T := T) (n := n) (l := l) (i := i + 1) d (by rw [he]; congr 2; omega)
  have h1 := NS_Seq (T := T) (n := n) (l := l) i
  have h2 := NS_Seq (T := T) (n := n) (l := l) (i + d)
  rw [show i + d + 1 = i + 1 + d by omega, this] at h2
  exact h1.trans h2.symm

theorem NS_diff (hl : ∀ i, i < m → l i < n) (hs : ∀ i j, i < j → j < m → key2 T n loc0 (l i) < key2 T n loc0 (l j)) {i j : Nat}
    (h : i < j) (hj : j < m) (he : (NS T n l (i + 1)).1 < (NS T n l (j + 1)).1) : sf T n (l i) < sf T n (l j) := by
  have hle : ∀ s t, s < t → t < m → Dm T n (l s) ≤ Dm T n (l t) := by
    intro s t hst ht
    by_contra hc
    have := Dm_key2 (loc0 := loc0) _ (l t) (l s) rfl (hl t ht) (hl s (by omega)) (not_le.mp hc)
    exact lt_asymm this (hs s t hst ht)
  rcases lt_or_eq_of_le (hle i j h hj) with g | g
  · exact Dm_sf _ _ _ rfl (hl i (by omega)) (hl j hj) g
  · exfalso
    have key : ∀ d, i + d ≤ j → (NS T n l (i + d + 1)).1 = (NS T n l (i + 1)).1 := by
      intro d
      induction d with
      | zero => intro _; rfl
      | succ d ih =>
        intro hd
        have ih := ih (by omega)
        have e1 : Dm T n (l (i + d)) = Dm T n (l i) := by
          by_cases hz : d = 0
          · subst hz; rfl
          · apply le_antisymm
            · rw [g]; exact hle _ _ (by omega) hj
            · exact hle _ _ (by omega) (by omega)
        have e2 : Dm T n (l (i + d + 1)) = Dm T n (l i) := by
          apply le_antisymm
          · rw [g]
            by_cases hz : i + d + 1 = j
            · rw [hz]
            · exact hle _ _ (by omega) hj
          · exact hle _ _ (by omega) (by omega)
        have hsq := Dm_Seq _ (l (i + d + 1)) (l (i + d)) rfl (hl _ (by omega)) (hl _ (by omega)) (by rw [e1, e2])
        have := hsq.trans (NS_Seq (T := T) (n := n) (l := l) (i + d))
        rcases NS_step (T := T) (n := n) (l := l) (i + d + 1) with w | w
        · rw [show i + (d + 1) + 1 = i + d + 1 + 1 by omega, w.2, ih]
        · exact absurd this w.1
    have := key (j - i) (by omega)
    rw [show i + (j - i) + 1 = j + 1 by omega] at this
    omega

theorem NS_full (h : (NS T n l m).1 = m) : ∀ i, i ≤ m → (NS T n l i).1 = i := by
  intro i hi
  have key : ∀ d, i + d ≤ m → (NS T n l (i + d)).1 ≤ (NS T n l i).1 + d := by
    intro d
    induction d with
    | zero => intro _; simp
    | succ d ih =>
      intro hd
      have := ih (by omega)
      rcases NS_step (T := T) (n := n) (l := l) (i + d) with w | w
      · rw [← Nat.add_assoc, w.2]; omega
      · rw [← Nat.add_assoc, w.2]; simp; omega
  have h1 := key (m - i) (by omega)
  rw [show i + (m - i) = m by omega, h] at h1
  have := NS_le (T := T) (n := n) (l := l) i
  omega

end Verif.Sais
