import Verif.Proof.SaisBase

set_option linter.unusedSimpArgs false

/-! The two passes of `induceSA`: for any placement of the leftmost S positions they sort all positions by a key. -/
namespace Verif.Sais
open Finset

variable {T : Nat → Nat} {n k : Nat} {loc0 : Nat → Nat}

/-! ### Keys -/

/-- `key1` with the number of positions left. -/
def key1F (T : Nat → Nat) (n : Nat) (loc0 : Nat → Nat) : Nat → Nat → List Nat
  | 0, _ => []
  | d + 1, a => if isS T n a then [2 * T a + 1, loc0 a, a] else 2 * T a :: key1F T n loc0 d (a + 1)

/-- What the first pass sorts by. -/
def key1 (T : Nat → Nat) (n : Nat) (loc0 : Nat → Nat) (a : Nat) : List Nat := key1F T n loc0 (n - a) a

/-- Where the first pass puts an L position. -/
def rk1 (T : Nat → Nat) (n : Nat) (loc0 : Nat → Nat) (a : Nat) : Nat := rk (range n) (key1 T n loc0) a

/-- `key2` with the number of positions left. -/
def key2F (T : Nat → Nat) (n : Nat) (loc0 : Nat → Nat) : Nat → Nat → List Nat
  | 0, _ => []
  | d + 1, a => if isS T n a then (2 * T a + 1) :: key2F T n loc0 d (a + 1) else [2 * T a, rk1 T n loc0 a]

/-- What both passes together sort by. -/
def key2 (T : Nat → Nat) (n : Nat) (loc0 : Nat → Nat) (a : Nat) : List Nat := key2F T n loc0 (n - a) a

/-- Where a position ends up. -/
def rk2 (T : Nat → Nat) (n : Nat) (loc0 : Nat → Nat) (a : Nat) : Nat := rk (range n) (key2 T n loc0) a

theorem key1_end {a : Nat} (h : n ≤ a) : key1 T n loc0 a = [] := by
  unfold key1
  rw [Nat.sub_eq_zero_of_le h]
  rfl

theorem key1_S {a : Nat} (h : isS T n a = true) : key1 T n loc0 a = [2 * T a + 1, loc0 a, a] := by
  have := isS_lt h
  unfold key1
  obtain ⟨d, hd⟩ : ∃ d, n - a = d + 1 := ⟨n - a - 1, by omega⟩
  rw [hd]
  simp [key1F, h]

theorem key1_L {a : Nat} (ha : a < n) (h : isS T n a = false) : key1 T n loc0 a = 2 * T a :: key1 T n loc0 (a + 1) := by
  unfold key1
  obtain ⟨d, hd⟩ : ∃ d, n - a = d + 1 := ⟨n - a - 1, by omega⟩
  have : n - (a + 1) = d := by omega
  rw [hd, this]
  simp [key1F, h]

theorem key2_S {a : Nat} (h : isS T n a = true) : key2 T n loc0 a = (2 * T a + 1) :: key2 T n loc0 (a + 1) := by
  have := isS_lt h
  unfold key2
  obtain ⟨d, hd⟩ : ∃ d, n - a = d + 1 := ⟨n - a - 1, by omega⟩
  have : n - (a + 1) = d := by omega
  rw [hd, this]
  simp [key2F, h]

theorem key2_L {a : Nat} (ha : a < n) (h : isS T n a = false) : key2 T n loc0 a = [2 * T a, rk1 T n loc0 a] := by
  unfold key2
  obtain ⟨d, hd⟩ : ∃ d, n - a = d + 1 := ⟨n - a - 1, by omega⟩
  rw [hd]
  simp [key2F, h]

theorem code_S {a : Nat} (h : isS T n a = true) : code T n a = 2 * T a + 1 := by simp [code, h]
theorem code_L {a : Nat} (h : isS T n a = false) : code T n a = 2 * T a := by simp [code, h]

theorem key1_head {a : Nat} (ha : a < n) : ∃ t, key1 T n loc0 a = code T n a :: t := by
  cases h : isS T n a
  · rw [key1_L ha h, code_L h]
    exact ⟨_, rfl⟩
  · rw [key1_S h, code_S h]
    exact ⟨_, rfl⟩

theorem key2_head {a : Nat} (ha : a < n) : ∃ t, key2 T n loc0 a = code T n a :: t := by
  cases h : isS T n a
  · rw [key2_L ha h, code_L h]
    exact ⟨_, rfl⟩
  · rw [key2_S h, code_S h]
    exact ⟨_, rfl⟩

theorem key1_code {a b : Nat} (ha : a < n) (hb : b < n) (h : code T n a < code T n b) : key1 T n loc0 a < key1 T n loc0 b := by
  obtain ⟨s, hs⟩ := key1_head (T := T) (loc0 := loc0) ha
  obtain ⟨t, ht⟩ := key1_head (T := T) (loc0 := loc0) hb
  rw [hs, ht, List.cons_lt_cons_iff]
  exact Or.inl h

theorem key2_code {a b : Nat} (ha : a < n) (hb : b < n) (h : code T n a < code T n b) : key2 T n loc0 a < key2 T n loc0 b := by
  obtain ⟨s, hs⟩ := key2_head (T := T) (loc0 := loc0) ha
  obtain ⟨t, ht⟩ := key2_head (T := T) (loc0 := loc0) hb
  rw [hs, ht, List.cons_lt_cons_iff]
  exact Or.inl h

theorem code_SL {a b : Nat} (h : code T n a = code T n b) : T a = T b ∧ isS T n a = isS T n b := by
  cases ha : isS T n a <;> cases hb : isS T n b <;> simp [code, ha, hb] at h ⊢ <;> omega

theorem key1_inj : ∀ (d a b : Nat), n - a = d → a ≤ n → b ≤ n → key1 T n loc0 a = key1 T n loc0 b → a = b
  | 0, a, b, hd, ha, hb, h => by
    rw [key1_end (a := a) (by omega)] at h
    by_cases hb' : b < n
    · obtain ⟨t, ht⟩ := key1_head (T := T) (loc0 := loc0) hb'
      rw [ht] at h
      cases h
    · omega
  | d + 1, a, b, hd, ha, hb, h => by
    have ha' : a < n := by omega
    by_cases hb' : b < n
    · obtain ⟨s, hs⟩ := key1_head (T := T) (loc0 := loc0) ha'
      obtain ⟨t, ht⟩ := key1_head (T := T) (loc0 := loc0) hb'
      have hc : code T n a = code T n b := by
        rw [hs, ht] at h
        exact (List.cons.inj h).1
      obtain ⟨_, ty⟩ := code_SL hc
      cases hS : isS T n a
      · rw [key1_L ha' hS, key1_L hb' (by rw [← ty, hS])] at h
        have := key1_inj d (a + 1) (b + 1) (by omega) (by omega) (by omega) (List.cons.inj h).2
        omega
      · rw [key1_S hS, key1_S (by rw [← ty, hS])] at h
        simp at h
        exact h.2.2
    · obtain ⟨s, hs⟩ := key1_head (T := T) (loc0 := loc0) ha'
      rw [hs, key1_end (a := b) (by omega)] at h
      cases h

theorem key1_injOn : Set.InjOn (key1 T n loc0) (range n : Finset Nat) := by
  intro a ha b hb h
  simp at ha hb
  exact key1_inj _ a b rfl (by omega) (by omega) h

theorem rk1_region {a : Nat} (ha : a < n) : cl T n (code T n a) ≤ rk1 T n loc0 a ∧ rk1 T n loc0 a < cl T n (code T n a + 1) :=
  (rk_region (T := T) (key := key1 T n loc0) ha (fun _ hb h => key1_code hb ha h) (fun _ hb h => key1_code ha hb h)).2

theorem rk1_lt {a : Nat} (ha : a < n) : rk1 T n loc0 a < n := by
  have := rk_lt (s := range n) (key := key1 T n loc0) (mem_range.mpr ha)
  simpa [rk1] using this

theorem rk1_iff {a b : Nat} (ha : a < n) : rk1 T n loc0 a < rk1 T n loc0 b ↔ key1 T n loc0 a < key1 T n loc0 b :=
  rk_lt_iff (mem_range.mpr ha)

theorem rk1_inj {a b : Nat} (ha : a < n) (hb : b < n) (h : rk1 T n loc0 a = rk1 T n loc0 b) : a = b :=
  rk_inj key1_injOn (mem_range.mpr ha) (mem_range.mpr hb) h

theorem key2_inj : ∀ (d a b : Nat), n - a = d → a < n → b < n → key2 T n loc0 a = key2 T n loc0 b → a = b
  | 0, a, b, hd, ha, hb, h => by omega
  | d + 1, a, b, hd, ha, hb, h => by
    obtain ⟨s, hs⟩ := key2_head (T := T) (loc0 := loc0) ha
    obtain ⟨t, ht⟩ := key2_head (T := T) (loc0 := loc0) hb
    have hc : code T n a = code T n b := by
      rw [hs, ht] at h
      exact (List.cons.inj h).1
    obtain ⟨_, ty⟩ := code_SL hc
    cases hS : isS T n a
    · rw [key2_L ha hS, key2_L hb (by rw [← ty, hS])] at h
      simp at h
      exact rk1_inj ha hb h.2
    · have hS' : isS T n b = true := by rw [← ty, hS]
      have h1 := isS_lt hS
      have h2 := isS_lt hS'
      rw [key2_S hS, key2_S hS'] at h
      have := key2_inj d (a + 1) (b + 1) (by omega) (by omega) (by omega) (List.cons.inj h).2
      omega

theorem key2_injOn : Set.InjOn (key2 T n loc0) (range n : Finset Nat) := by
  intro a ha b hb h
  simp at ha hb
  exact key2_inj _ a b rfl (by omega) (by omega) h

theorem rk2_lt {a : Nat} (ha : a < n) : rk2 T n loc0 a < n := by
  have := rk_lt (s := range n) (key := key2 T n loc0) (mem_range.mpr ha)
  simpa [rk2] using this

theorem rk2_iff {a b : Nat} (ha : a < n) : rk2 T n loc0 a < rk2 T n loc0 b ↔ key2 T n loc0 a < key2 T n loc0 b :=
  rk_lt_iff (mem_range.mpr ha)

theorem rk2_inj {a b : Nat} (ha : a < n) (hb : b < n) (h : rk2 T n loc0 a = rk2 T n loc0 b) : a = b :=
  rk_inj key2_injOn (mem_range.mpr ha) (mem_range.mpr hb) h

theorem rk2_surj {x : Nat} (h : x < n) : ∃ a, a < n ∧ rk2 T n loc0 a = x := by
  obtain ⟨a, ha, e⟩ := rk_surj (s := range n) (key := key2 T n loc0) key2_injOn (x := x) (by simpa using h)
  exact ⟨a, mem_range.mp ha, e⟩

/-- An L position comes after the next one. -/
theorem key1_next : ∀ (d a : Nat), n - a = d → a < n → isS T n a = false → key1 T n loc0 (a + 1) < key1 T n loc0 a
  | 0, a, hd, ha, _ => by omega
  | d + 1, a, hd, ha, h => by
    rw [key1_L ha h]
    by_cases h1 : a + 1 < n
    · rcases (isL_step (T := T) h1).mp h with g | ⟨g, g'⟩
      · obtain ⟨t, ht⟩ := key1_head (T := T) (loc0 := loc0) h1
        rw [ht, List.cons_lt_cons_iff]
        left
        unfold code
        split <;> omega
      · have := key1_next d (a + 1) (by omega) h1 g'
        rw [key1_L h1 g', List.cons_lt_cons_iff]
        right
        refine ⟨by omega, ?_⟩
        rw [key1_L h1 g'] at this
        exact this
    · rw [key1_end (a := a + 1) (by omega)]
      simp

/-- An S position comes before the next one. -/
theorem key2_next : ∀ (d a : Nat), n - a = d → isS T n a = true → key2 T n loc0 a < key2 T n loc0 (a + 1)
  | 0, a, hd, h => by
    have := isS_lt h
    omega
  | d + 1, a, hd, h => by
    have h1 := isS_lt h
    rcases (isS_step (T := T) h1).mp h with g | ⟨g, g'⟩
    · obtain ⟨t, ht⟩ := key2_head (T := T) (loc0 := loc0) h1
      rw [key2_S h, ht, List.cons_lt_cons_iff]
      left
      unfold code
      split <;> omega
    · have := key2_next d (a + 1) (by omega) g'
      rw [key2_S h]
      rw [key2_S g', List.cons_lt_cons_iff]
      right
      refine ⟨by omega, ?_⟩
      rw [key2_S g'] at this
      exact this

/-! ### Places in the first pass -/

/-- The leftmost S positions have places at the ends of their buckets. -/
structure Placed (T : Nat → Nat) (n : Nat) (loc0 : Nat → Nat) : Prop where
  lo : ∀ p, isLMS T n p = true → cl T n (code T n p) ≤ loc0 p
  hi : ∀ p, isLMS T n p = true → loc0 p < cl T n (code T n p + 1)
  inj : ∀ p q, isLMS T n p = true → isLMS T n q = true → loc0 p = loc0 q → p = q

/-- The place of an L or leftmost S position. -/
def Lam (T : Nat → Nat) (n : Nat) (loc0 : Nat → Nat) (x : Nat) : Nat := if isS T n x then loc0 x else rk1 T n loc0 x

theorem Lam_S {x : Nat} (h : isS T n x = true) : Lam T n loc0 x = loc0 x := by simp [Lam, h]
theorem Lam_L {x : Nat} (h : isS T n x = false) : Lam T n loc0 x = rk1 T n loc0 x := by simp [Lam, h]

/-- The positions that have a place in the first pass. -/
def Has (T : Nat → Nat) (n x : Nat) : Prop := x < n ∧ (isS T n x = false ∨ isLMS T n x = true)

theorem has_next {a : Nat} (h1 : a + 1 < n) (h : isS T n a = false) : Has T n (a + 1) := by
  refine ⟨h1, ?_⟩
  cases hS : isS T n (a + 1)
  · exact Or.inl rfl
  · exact Or.inr (lms_of_L h hS)

theorem Lam_region (hP : Placed T n loc0) {x : Nat} (h : Has T n x) :
    cl T n (code T n x) ≤ Lam T n loc0 x ∧ Lam T n loc0 x < cl T n (code T n x + 1) := by
  rcases h.2 with g | g
  · rw [Lam_L g]
    exact rk1_region h.1
  · rw [Lam_S (lms_iff.mp g).2.1]
    exact ⟨hP.lo x g, hP.hi x g⟩

theorem Lam_lt (hP : Placed T n loc0) {x : Nat} (h : Has T n x) : Lam T n loc0 x < n := by
  have := (Lam_region hP h).2
  have := cl_le (T := T) (n := n) (code T n x + 1)
  omega

theorem Lam_mono (hP : Placed T n loc0) {x y : Nat} (hx : Has T n x) (hy : Has T n y)
    (h : key1 T n loc0 x < key1 T n loc0 y) : Lam T n loc0 x < Lam T n loc0 y := by
  rcases lt_trichotomy (code T n x) (code T n y) with g | g | g
  · have h1 := (Lam_region hP hx).2
    have h2 := (Lam_region hP hy).1
    have := cl_mono (T := T) (n := n) (x := code T n x + 1) (y := code T n y) (by omega)
    omega
  · obtain ⟨eT, ty⟩ := code_SL g
    cases hS : isS T n x
    · rw [Lam_L hS, Lam_L (by rw [← ty, hS])]
      exact (rk1_iff hx.1).mpr h
    · have hS' : isS T n y = true := by rw [← ty, hS]
      rw [Lam_S hS, Lam_S hS']
      rw [key1_S hS, key1_S hS'] at h
      simp only [List.cons_lt_cons_iff, eT, lt_irrefl, false_or, true_and] at h
      rcases h with h | ⟨h, h'⟩
      · exact h
      · have lx : isLMS T n x = true := by
          rcases hx.2 with w | w
          · rw [hS] at w; cases w
          · exact w
        have ly : isLMS T n y = true := by
          rcases hy.2 with w | w
          · rw [hS'] at w; cases w
          · exact w
        have := hP.inj x y lx ly h
        subst this
        simp at h'
  · exact absurd h (not_lt_of_gt (key1_code hy.1 hx.1 g))

theorem Lam_iff (hP : Placed T n loc0) {x y : Nat} (hx : Has T n x) (hy : Has T n y) :
    Lam T n loc0 x < Lam T n loc0 y ↔ key1 T n loc0 x < key1 T n loc0 y := by
  refine ⟨fun h => ?_, Lam_mono hP hx hy⟩
  by_contra hc
  rcases lt_or_eq_of_le (not_lt.mp hc) with g | g
  · have := Lam_mono hP hy hx g
    omega
  · have := key1_inj _ y x rfl (by have := hy.1; omega) (by have := hx.1; omega) g
    subst this
    omega

theorem Lam_inj (hP : Placed T n loc0) {x y : Nat} (hx : Has T n x) (hy : Has T n y)
    (h : Lam T n loc0 x = Lam T n loc0 y) : x = y := by
  rcases lt_trichotomy (key1 T n loc0 x) (key1 T n loc0 y) with g | g | g
  · have := Lam_mono hP hx hy g
    omega
  · exact key1_inj _ x y rfl (by have := hx.1; omega) (by have := hy.1; omega) g
  · have := Lam_mono hP hy hx g
    omega

theorem Lam_next (hP : Placed T n loc0) {a : Nat} (h1 : a + 1 < n) (h : isS T n a = false) :
    Lam T n loc0 (a + 1) < rk1 T n loc0 a := by
  rw [← Lam_L h]
  exact Lam_mono hP (has_next h1 h) ⟨by omega, Or.inl h⟩ (key1_next _ a rfl (by omega) h)

/-! ### The cached bucket pointer -/

/-- `B[c]`, taking into account the one held in `b`. -/
def eff (s : Ind) (c : Nat) : Int := if c = s.c1 then s.b else s.B c

theorem switch_ok (s : Ind) {c0 : Nat} (h1 : s.c1 < k) (h0 : c0 < k) :
    ∃ s', switch k s c0 = .ok s' ∧ s'.SA = s.SA ∧ s'.c1 = c0 ∧ s'.b = eff s c0 ∧ ∀ c, eff s' c = eff s c := by
  unfold switch
  by_cases e : c0 = s.c1
  · rw [if_pos e]
    exact ⟨s, rfl, rfl, e.symm, by simp [eff, e], fun _ => rfl⟩
  · rw [if_neg e, wr_ok h1, Res.ok_bind, rd_ok h0, Res.ok_bind, Res.pure_eq]
    refine ⟨_, rfl, rfl, rfl, by simp [eff, e, upd], fun c => ?_⟩
    by_cases h2 : c = c0
    · subst h2
      simp [eff, upd, e]
    · by_cases h3 : c = s.c1
      · subst h3
        simp [eff, upd, h2]
      · simp [eff, upd, h2, h3]

/-- A step of the pointer changes its bucket only. -/
theorem eff_move (s : Ind) (A : Arr) (d : Int) (c : Nat) :
    eff { s with SA := A, b := s.b + d } c = eff s c + (if c = s.c1 then d else 0) := by
  unfold eff
  by_cases h : c = s.c1 <;> simp [h]

/-! ### First pass -/

/-- What is stored for an L position. -/
def encL (T : Nat → Nat) (a : Nat) : Int := if 0 < a ∧ T (a - 1) < T a then cpl a else a

theorem flagL_ok {a : Nat} (ha : a < n) : flagL T n (a : Int) (T a) = .ok (encL T a) := by
  unfold flagL encL
  by_cases h : 0 < a
  · rw [if_pos (by omega), chr_int (i := a - 1) (by omega) (by omega), Res.ok_bind, Res.pure_eq]
    simp [h]
  · rw [if_neg (by omega), if_neg (by omega)]

/-- The value in a cell: complemented once the loop has passed it. -/
def flip (i x : Nat) (v : Int) : Int := if x < i then cpl v else v

theorem flip_self (i : Nat) (v : Int) : flip i i v = v := by simp [flip]
theorem flip_done (i : Nat) (v : Int) : flip (i + 1) i v = cpl v := by simp [flip]
theorem flip_ne {i x : Nat} (v : Int) (h : x ≠ i) : flip (i + 1) x v = flip i x v := by
  unfold flip
  by_cases h1 : x < i
  · rw [if_pos h1, if_pos (by omega)]
  · rw [if_neg h1, if_neg (by omega)]

/-- The loop has met the position after `a`. -/
def pl (T : Nat → Nat) (n : Nat) (loc0 : Nat → Nat) (i a : Nat) : Prop := a + 1 = n ∨ Lam T n loc0 (a + 1) < i

instance (i a : Nat) : Decidable (pl T n loc0 i a) := by unfold pl; infer_instance

/-- The L positions of a bucket that are in place. -/
def plSet (T : Nat → Nat) (n : Nat) (loc0 : Nat → Nat) (i c : Nat) : Finset Nat :=
  (range n).filter fun a => code T n a = 2 * c ∧ pl T n loc0 i a

/-- The state of the first loop. -/
structure Inv1 (T : Nat → Nat) (n k : Nat) (loc0 : Nat → Nat) (A0 : Arr) (i : Nat) (s : Ind) : Prop where
  c1k : s.c1 < k
  p1 : ∀ a, a < n → isS T n a = false → pl T n loc0 i a → s.SA (rk1 T n loc0 a) = flip i (rk1 T n loc0 a) (encL T a)
  p2 : ∀ a, a < n → isS T n a = false → ¬ pl T n loc0 i a → s.SA (rk1 T n loc0 a) = 0
  p3 : ∀ p, isLMS T n p = true → s.SA (loc0 p) = flip i (loc0 p) p
  p4 : ∀ x, x < n → (∀ a, a < n → isS T n a = false → rk1 T n loc0 a ≠ x) → (∀ p, isLMS T n p = true → loc0 p ≠ x) →
    s.SA x = flip i x 0
  b : ∀ c, c < k → eff s c = cl T n (2 * c) + (plSet T n loc0 i c).card
  fr : ∀ x, n ≤ x → s.SA x = A0 x

theorem placed_at (hP : Placed T n loc0) {i a : Nat} (ha : a < n) (hL : isS T n a = false) (e : i ≤ rk1 T n loc0 a + 1)
    (h : rk1 T n loc0 a ≤ i) : pl T n loc0 i a := by
  unfold pl
  by_cases h1 : a + 1 < n
  · right
    have := Lam_next hP h1 hL
    omega
  · left
    omega

/-- A step that only complements its cell. -/
theorem inv1_skip (hP : Placed T n loc0) {A0 : Arr} {i : Nat} {s : Ind} (hI : Inv1 T n k loc0 A0 i s) (hi : i < n)
    (hno : ∀ a, a + 1 < n → isS T n a = false → Lam T n loc0 (a + 1) ≠ i) :
    Inv1 T n k loc0 A0 (i + 1) { s with SA := upd s.SA i (cpl (s.SA i)) } := by
  have hpl : ∀ a, a < n → isS T n a = false → (pl T n loc0 (i + 1) a ↔ pl T n loc0 i a) := by
    intro a ha hL
    unfold pl
    by_cases h1 : a + 1 = n
    · simp [h1]
    · have := hno a (by omega) hL
      simp [h1]
      omega
  refine ⟨hI.c1k, ?_, ?_, ?_, ?_, ?_, ?_⟩
  · intro a ha hL h
    have h' := (hpl a ha hL).mp h
    have := hI.p1 a ha hL h'
    by_cases e : rk1 T n loc0 a = i
    · rw [e] at this ⊢
      simp only [upd, if_true, flip_done]
      rw [this, flip_self]
    · simp only [upd, e, if_false]
      rw [this, flip_ne _ e]
  · intro a ha hL h
    have h' : ¬ pl T n loc0 i a := fun w => h ((hpl a ha hL).mpr w)
    have e : rk1 T n loc0 a ≠ i := by
      intro e
      exact h' (placed_at hP ha hL (by omega) (by omega))
    simp only [upd, e, if_false]
    exact hI.p2 a ha hL h'
  · intro p hp
    have := hI.p3 p hp
    by_cases e : loc0 p = i
    · rw [e] at this ⊢
      simp only [upd, if_true, flip_done]
      rw [this, flip_self]
    · simp only [upd, e, if_false]
      rw [this, flip_ne _ e]
  · intro x hx h1 h2
    have := hI.p4 x hx h1 h2
    by_cases e : x = i
    · subst e
      simp only [upd, if_true, flip_done]
      rw [this, flip_self]
    · simp only [upd, e, if_false]
      rw [this, flip_ne _ e]
  · intro c hc
    have e : plSet T n loc0 (i + 1) c = plSet T n loc0 i c := by
      unfold plSet
      apply filter_congr
      intro a ha
      by_cases hcd : code T n a = 2 * c
      · have := hpl a (mem_range.mp ha) (code_even.mp hcd).2
        simp [hcd, this]
      · simp [hcd]
    rw [e, ← hI.b c hc]
    rfl
  · intro x hx
    have : x ≠ i := by omega
    simp only [upd, this, if_false]
    exact hI.fr x hx

/-- The place of an L position is the bucket start plus the number of those already in place. -/
theorem rk1_count (hP : Placed T n loc0) {a : Nat} (h1 : a + 1 < n) (hL : isS T n a = false) :
    rk1 T n loc0 a = cl T n (2 * T a) + (plSet T n loc0 (Lam T n loc0 (a + 1)) (T a)).card := by
  have := (rk_region (T := T) (key := key1 T n loc0) (a := a) (by omega) (fun _ hb h => key1_code hb (by omega) h)
    (fun _ hb h => key1_code (by omega) hb h)).1
  unfold rk1
  rw [this, code_L hL]
  congr 2
  unfold plSet
  ext b
  simp only [mem_filter, mem_range, and_congr_right_iff]
  intro hb
  by_cases hcd : code T n b = 2 * T a
  · obtain ⟨eT, bL⟩ := code_even.mp hcd
    simp only [hcd, true_and]
    rw [key1_L hb bL, key1_L (by omega) hL, List.cons_lt_cons_iff, eT]
    simp only [lt_irrefl, false_or, true_and]
    unfold pl
    by_cases h2 : b + 1 < n
    · rw [← Lam_iff hP (has_next h2 bL) (has_next h1 hL)]
      intro _
      constructor
      · exact Or.inr
      · rintro (h | h)
        · omega
        · exact h
    · rw [key1_end (a := b + 1) (by omega)]
      obtain ⟨t, ht⟩ := key1_head (T := T) (loc0 := loc0) h1
      rw [ht]
      simp
      left
      omega
  · simp [hcd]

/-- A step that also places an L position. -/
theorem inv1_place (hP : Placed T n loc0) {A0 : Arr} {b : Nat} {s s' : Ind} (h1 : b + 1 < n) (hL : isS T n b = false)
    (hI : Inv1 T n k loc0 A0 (Lam T n loc0 (b + 1)) s)
    (hSA : s'.SA = upd (upd s.SA (Lam T n loc0 (b + 1)) (cpl (s.SA (Lam T n loc0 (b + 1))))) (rk1 T n loc0 b) (encL T b))
    (hc : s'.c1 < k) (heff : ∀ c, eff s' c = eff s c + (if c = T b then 1 else 0)) :
    Inv1 T n k loc0 A0 (Lam T n loc0 (b + 1) + 1) s' := by
  have hnx := Lam_next hP h1 hL
  obtain ⟨i, hi⟩ : ∃ i, i = Lam T n loc0 (b + 1) := ⟨_, rfl⟩
  rw [← hi] at hI hSA hnx ⊢
  have hin : i < n := by
    have := rk1_lt (T := T) (loc0 := loc0) (n := n) (a := b) (by omega)
    omega
  have hpl : ∀ a, a < n → isS T n a = false → (pl T n loc0 (i + 1) a ↔ pl T n loc0 i a ∨ a = b) := by
    intro a ha aL
    unfold pl
    by_cases h2 : a + 1 = n
    · simp [h2]
    · simp only [h2, false_or]
      constructor
      · intro h
        by_cases h3 : Lam T n loc0 (a + 1) < i
        · exact Or.inl h3
        · right
          have : Lam T n loc0 (a + 1) = Lam T n loc0 (b + 1) := by omega
          have := Lam_inj hP (has_next (by omega) aL) (has_next h1 hL) this
          omega
      · rintro (h | h)
        · omega
        · subst h
          omega
  have hnb : ¬ pl T n loc0 i b := by
    unfold pl
    omega
  refine ⟨hc, ?_, ?_, ?_, ?_, ?_, ?_⟩
  · intro a ha aL h
    rw [hSA]
    rcases (hpl a ha aL).mp h with h' | rfl
    · have e2 : rk1 T n loc0 a ≠ rk1 T n loc0 b := by
        intro e
        have := rk1_inj ha (by omega) e
        subst this
        exact hnb h'
      have := hI.p1 a ha aL h'
      by_cases e : rk1 T n loc0 a = i
      · rw [e] at this e2 ⊢
        simp only [upd, e2, if_false, if_true, flip_done]
        rw [this, flip_self]
      · simp only [upd, e, e2, if_false]
        rw [this, flip_ne _ e]
    · simp only [upd, if_true]
      unfold flip
      rw [if_neg (by omega)]
  · intro a ha aL h
    rw [hpl a ha aL, not_or] at h
    have e2 : rk1 T n loc0 a ≠ rk1 T n loc0 b := by
      intro e
      exact h.2 (rk1_inj ha (by omega) e)
    have e : rk1 T n loc0 a ≠ i := by
      intro e
      exact h.1 (placed_at hP ha aL (by omega) (by omega))
    rw [hSA]
    simp only [upd, e, e2, if_false]
    exact hI.p2 a ha aL h.1
  · intro p hp
    have e2 : loc0 p ≠ rk1 T n loc0 b := by
      intro e
      have hpS := (lms_iff.mp hp).2.1
      rw [← Lam_S (loc0 := loc0) hpS, ← Lam_L hL] at e
      have := Lam_inj hP ⟨by have := lms_lt hp; omega, Or.inr hp⟩ ⟨by omega, Or.inl hL⟩ e
      subst this
      rw [hpS] at hL
      cases hL
    have := hI.p3 p hp
    rw [hSA]
    by_cases e : loc0 p = i
    · rw [e] at this e2 ⊢
      simp only [upd, e2, if_false, if_true, flip_done]
      rw [this, flip_self]
    · simp only [upd, e, e2, if_false]
      rw [this, flip_ne _ e]
  · intro x hx g1 g2
    have := hI.p4 x hx g1 g2
    have e2 : x ≠ rk1 T n loc0 b := fun e => g1 b (by omega) hL e.symm
    rw [hSA]
    by_cases e : x = i
    · subst e
      simp only [upd, e2, if_false, if_true, flip_done]
      rw [this, flip_self]
    · simp only [upd, e, e2, if_false]
      rw [this, flip_ne _ e]
  · intro c hck
    rw [heff, hI.b c hck]
    by_cases e : c = T b
    · subst e
      have : plSet T n loc0 (i + 1) (T b) = insert b (plSet T n loc0 i (T b)) := by
        ext a
        unfold plSet
        simp only [mem_insert, mem_filter, mem_range]
        constructor
        · rintro ⟨w1, w2, w3⟩
          rcases (hpl a w1 (code_even.mp w2).2).mp w3 with w | w
          · exact Or.inr ⟨w1, w2, w⟩
          · exact Or.inl w
        · rintro (rfl | ⟨w1, w2, w3⟩)
          · exact ⟨by omega, code_L hL, (hpl a (by omega) hL).mpr (Or.inr rfl)⟩
          · exact ⟨w1, w2, (hpl a w1 (code_even.mp w2).2).mpr (Or.inl w3)⟩
      rw [this, card_insert_of_notMem]
      · simp
        omega
      · intro w
        unfold plSet at w
        exact hnb (mem_filter.mp w).2.2
    · have : plSet T n loc0 (i + 1) c = plSet T n loc0 i c := by
        unfold plSet
        apply filter_congr
        intro a ha
        by_cases hcd : code T n a = 2 * c
        · have hne : a ≠ b := by
            rintro rfl
            exact e (code_even.mp hcd).1.symm
          have := hpl a (mem_range.mp ha) (code_even.mp hcd).2
          simp [hcd, this, hne]
        · simp [hcd]
      rw [this]
      simp [e]
  · intro x hx
    have h3 := rk1_lt (T := T) (loc0 := loc0) (n := n) (a := b) (by omega)
    have e1 : x ≠ i := by omega
    have e2 : x ≠ rk1 T n loc0 b := by omega
    rw [hSA]
    simp only [upd, e1, e2, if_false]
    exact hI.fr x hx

theorem stepL_ok (hP : Placed T n loc0) (hT : ∀ i, i < n → T i < k) {A0 : Arr} {i : Nat} {s : Ind}
    (hI : Inv1 T n k loc0 A0 i s) (hi : i < n) : ∃ s', stepL T n k i s = .ok s' ∧ Inv1 T n k loc0 A0 (i + 1) s' ∧ (0 < s.SA i → (i : Int) < s'.b - 1) := by
  unfold stepL
  rw [rd_ok hi, Res.ok_bind, wr_ok hi, Res.ok_bind]
  have hplace : ∀ b, b + 1 < n → isS T n b = false → Lam T n loc0 (b + 1) = i → s.SA i = ((b + 1 : Nat) : Int) →
      ∃ s', (if 0 < s.SA i then do
        let c0 ← chr T n (s.SA i - 1)
        let s1 ← switch k { s with SA := upd s.SA i (cpl (s.SA i)) } c0
        let v ← flagL T n (s.SA i - 1) c0
        let SA ← wr n s1.SA s1.b v
        pure { s1 with SA := SA, b := s1.b + 1 }
      else pure { s with SA := upd s.SA i (cpl (s.SA i)) } : Res Ind) = .ok s' ∧ Inv1 T n k loc0 A0 (i + 1) s' ∧ (0 < s.SA i → (i : Int) < s'.b - 1) := by
    intro b h1 hL e ev
    have e1 : s.SA i - 1 = (b : Int) := by omega
    rw [if_pos (by omega), chr_int e1 (by omega), Res.ok_bind]
    obtain ⟨s1, g1, g2, g3, g4, g5⟩ := switch_ok (k := k) { s with SA := upd s.SA i (cpl (s.SA i)) } (c0 := T b) hI.c1k (hT b (by omega))
    have g6 : ∀ c, eff { s with SA := upd s.SA i (cpl (s.SA i)) } c = eff s c := fun _ => rfl
    have g7 : s1.b = (rk1 T n loc0 b : Nat) := by
      rw [g4, g6, hI.b _ (hT b (by omega)), rk1_count hP h1 hL, e]
      simp
    rw [g1, Res.ok_bind, e1, flagL_ok (by omega), Res.ok_bind, wr_int g7 (rk1_lt (by omega)), Res.ok_bind, Res.pure_eq]
    have hlt := Lam_next hP h1 hL
    refine ⟨_, rfl, ?_, fun _ => by simp only; omega⟩
    clear hlt
    rw [← e]
    rw [← e] at hI
    refine inv1_place hP h1 hL hI ?_ ?_ ?_
    · show upd s1.SA _ _ = _
      rw [g2, e]
    · show s1.c1 < k
      rw [g3]
      exact hT b (by omega)
    · intro c
      rw [eff_move, g5, g6, g3]
  have hskip : ¬ 0 < s.SA i → (∀ a, a + 1 < n → isS T n a = false → Lam T n loc0 (a + 1) ≠ i) →
      ∃ s', (if 0 < s.SA i then do
        let c0 ← chr T n (s.SA i - 1)
        let s1 ← switch k { s with SA := upd s.SA i (cpl (s.SA i)) } c0
        let v ← flagL T n (s.SA i - 1) c0
        let SA ← wr n s1.SA s1.b v
        pure { s1 with SA := SA, b := s1.b + 1 }
      else pure { s with SA := upd s.SA i (cpl (s.SA i)) } : Res Ind) = .ok s' ∧ Inv1 T n k loc0 A0 (i + 1) s' ∧ (0 < s.SA i → (i : Int) < s'.b - 1) := by
    intro h1 h2
    rw [if_neg h1, Res.pure_eq]
    exact ⟨_, rfl, inv1_skip hP hI hi h2, fun h => absurd h h1⟩
  by_cases c1 : ∃ a, a < n ∧ isS T n a = false ∧ rk1 T n loc0 a = i
  · obtain ⟨a, ha, aL, e⟩ := c1
    have v : s.SA i = encL T a := by
      have := hI.p1 a ha aL (placed_at hP ha aL (by omega) (by omega))
      rw [e, flip_self] at this
      exact this
    have eL : Lam T n loc0 a = i := by rw [Lam_L aL, e]
    have uniq : ∀ b, b + 1 < n → isS T n b = false → Lam T n loc0 (b + 1) = i → b + 1 = a := by
      intro b h1 hL h
      exact Lam_inj hP (has_next h1 hL) ⟨ha, Or.inl aL⟩ (by rw [h, eL])
    by_cases h0 : 0 < a
    · by_cases h1 : T (a - 1) < T a
      · apply hskip
        · rw [v]
          unfold encL cpl
          rw [if_pos ⟨h0, h1⟩]
          omega
        · intro b hb bL h
          have := uniq b hb bL h
          subst this
          simp at h1
          rw [(isS_step (T := T) hb).mpr (Or.inl h1)] at bL
          cases bL
      · obtain ⟨b, rfl⟩ : ∃ b, a = b + 1 := ⟨a - 1, by omega⟩
        simp at h1
        apply hplace b ha
        · rcases Nat.lt_or_ge (T (b + 1)) (T b) with g | g
          · exact (isL_step ha).mpr (Or.inl g)
          · exact (isL_step ha).mpr (Or.inr ⟨by omega, aL⟩)
        · exact eL
        · rw [v]
          unfold encL
          rw [if_neg (by simp; omega)]
    · apply hskip
      · rw [v]
        unfold encL
        rw [if_neg (by omega)]
        omega
      · intro b hb bL h
        have := uniq b hb bL h
        omega
  · by_cases c2 : ∃ p, isLMS T n p = true ∧ loc0 p = i
    · obtain ⟨p, hp, e⟩ := c2
      have v : s.SA i = p := by
        have := hI.p3 p hp
        rw [e, flip_self] at this
        exact this
      obtain ⟨h0, h1, h2⟩ := lms_iff.mp hp
      obtain ⟨b, rfl⟩ : ∃ b, p = b + 1 := ⟨p - 1, by omega⟩
      have := lms_lt hp
      apply hplace b (by omega)
      · simpa using h2
      · rw [Lam_S h1, e]
      · exact v
    · have v := hI.p4 i hi (fun a ha hL e => c1 ⟨a, ha, hL, e⟩) (fun p hp e => c2 ⟨p, hp, e⟩)
      rw [flip_self] at v
      apply hskip (by omega)
      intro b hb bL h
      rcases (has_next hb bL).2 with g | g
      · exact c1 ⟨b + 1, hb, g, by rw [← Lam_L g, h]⟩
      · exact c2 ⟨b + 1, g, by rw [← Lam_S (loc0 := loc0) (lms_iff.mp g).2.1, h]⟩

theorem loopL_ok (hP : Placed T n loc0) (hT : ∀ i, i < n → T i < k) {A0 : Arr} : ∀ (d i : Nat) (s : Ind), i + d = n →
    Inv1 T n k loc0 A0 i s → ∃ s', loopL T n k d i s = .ok s' ∧ Inv1 T n k loc0 A0 n s'
  | 0, i, s, h, hI => by
    have : i = n := by omega
    subst this
    exact ⟨s, rfl, hI⟩
  | d + 1, i, s, h, hI => by
    obtain ⟨s1, h1, h2, _⟩ := stepL_ok hP hT hI (by omega)
    simp only [loopL]
    rw [h1, Res.ok_bind]
    exact loopL_ok hP hT d (i + 1) s1 (by omega) h2

/-- The array before `induceSA`: the leftmost S positions are in place, everything else is 0. -/
structure Start (T : Nat → Nat) (n : Nat) (loc0 : Nat → Nat) (A : Arr) : Prop where
  at_ : ∀ p, isLMS T n p = true → A (loc0 p) = p
  zero : ∀ x, x < n → (∀ p, isLMS T n p = true → loc0 p ≠ x) → A x = 0

/-- The array after the first pass. -/
structure Mid (T : Nat → Nat) (n : Nat) (loc0 : Nat → Nat) (A : Arr) : Prop where
  at_ : ∀ a, a < n → isS T n a = false → A (rk1 T n loc0 a) = cpl (encL T a)

theorem rk1_last (h0 : 0 < n) : rk1 T n loc0 (n - 1) = cl T n (2 * T (n - 1)) := by
  have hL := isS_last (T := T) (n := n) (i := n - 1) (by omega)
  have := (rk_region (T := T) (key := key1 T n loc0) (a := n - 1) (by omega) (fun _ hb h => key1_code hb (by omega) h)
    (fun _ hb h => key1_code (by omega) hb h)).1
  unfold rk1
  rw [this, code_L hL]
  simp only [Nat.add_eq_left, card_eq_zero, filter_eq_empty_iff, mem_range, not_and]
  intro b hb hcd
  obtain ⟨eT, bL⟩ := code_even.mp hcd
  rw [key1_L hb bL, key1_L (a := n - 1) (by omega) hL, List.cons_lt_cons_iff, eT, key1_end (a := n - 1 + 1) (by omega)]
  simp

/-- The start of the first half, of `induceSA` and of `computeBWT`. -/
theorem induceL_pre (hP : Placed T n loc0) (hT : ∀ i, i < n → T i < k) (h0 : 0 < n) {A : Arr} {u : Buf}
    (hA : Start T n loc0 A) (hu : Counted T n k u) :
    ∃ (s0 : Ind) (u2 : Buf), u2.same = u.same ∧ Counted T n k u2 ∧ Inv1 T n k loc0 A 0 s0 ∧
      induceL T n k A u = (loopL T n k n 0 s0 >>= fun s => pure (s.SA, { u2 with B := s.B })) ∧
      bwtL T n k A u = (bwtLoopL T n k n 0 s0 >>= fun s => pure (s.SA, { u2 with B := s.B })) := by
  unfold induceL bwtL
  obtain ⟨u1, g1, g2, g3⟩ := recount_ok hT u hu
  obtain ⟨u2, g4, g5, g6, g7⟩ := getBuckets_ok false u1 g3
  have hL := isS_last (T := T) (n := n) (i := n - 1) (by omega)
  have hk := hT (n - 1) (by omega)
  have hb := g7 _ hk
  have hr := rk1_last (T := T) (loc0 := loc0) h0
  have hrn := rk1_lt (T := T) (loc0 := loc0) (n := n) (a := n - 1) (by omega)
  simp only [Bool.false_eq_true, if_false] at hb g7
  rw [← hr] at hb
  have e1 : (n : Int) - 1 = ((n - 1 : Nat) : Int) := by omega
  have hI : Inv1 T n k loc0 A 0 ⟨upd A (rk1 T n loc0 (n - 1)) (encL T (n - 1)), u2.B, u2.B (T (n - 1)) + 1, T (n - 1)⟩ := by
    have hpl : ∀ a, pl T n loc0 0 a ↔ a = n - 1 := by
      intro a
      unfold pl
      omega
    have hneq : ∀ p, isLMS T n p = true → loc0 p ≠ rk1 T n loc0 (n - 1) := by
      intro p hp e
      have hpS := (lms_iff.mp hp).2.1
      rw [← Lam_S (loc0 := loc0) hpS, ← Lam_L hL] at e
      have := Lam_inj hP ⟨by have := lms_lt hp; omega, Or.inr hp⟩ ⟨by omega, Or.inl hL⟩ e
      subst this
      rw [hpS] at hL
      cases hL
    refine ⟨hk, ?_, ?_, ?_, ?_, ?_, ?_⟩
    · intro a ha aL h
      rw [(hpl a).mp h]
      simp [upd, flip]
    · intro a ha aL h
      have e : rk1 T n loc0 a ≠ rk1 T n loc0 (n - 1) := fun e => h ((hpl a).mpr (rk1_inj ha (by omega) e))
      simp only [upd, e, if_false]
      apply hA.zero _ (rk1_lt ha)
      intro p hp e
      have hpS := (lms_iff.mp hp).2.1
      rw [← Lam_S (loc0 := loc0) hpS, ← Lam_L aL] at e
      have := Lam_inj hP ⟨by have := lms_lt hp; omega, Or.inr hp⟩ ⟨by omega, Or.inl aL⟩ e
      subst this
      rw [hpS] at aL
      cases aL
    · intro p hp
      simp only [upd, hneq p hp, if_false]
      simp [flip, hA.at_ p hp]
    · intro x hx h1 h2
      have e : x ≠ rk1 T n loc0 (n - 1) := fun e => h1 (n - 1) (by omega) hL e.symm
      simp only [upd, e, if_false]
      simp [flip, hA.zero x hx h2]
    · intro c hc
      have hset : plSet T n loc0 0 c = if c = T (n - 1) then {n - 1} else ∅ := by
        unfold plSet
        ext a
        simp only [mem_filter, mem_range, hpl]
        split
        · rename_i e
          rw [mem_singleton]
          constructor
          · exact fun h => h.2.2
          · rintro rfl
            exact ⟨by omega, by rw [code_L hL, e], rfl⟩
        · rename_i e
          simp only [notMem_empty, iff_false, not_and]
          rintro _ h rfl
          exact e (code_even.mp h).1.symm
      unfold eff
      by_cases e : c = T (n - 1)
      · subst e
        rw [hset]
        simp
        rw [hb, hr]
      · rw [hset]
        simp [e, g7 c hc]
    · intro x hx
      have e : x ≠ rk1 T n loc0 (n - 1) := by omega
      simp only [upd, e, if_false]
  refine ⟨_, u2, by rw [g5, g2], g6, hI, ?_, ?_⟩
  · rw [g1, Res.ok_bind, g4, Res.ok_bind, e1, chr_ok (by omega), Res.ok_bind, rd_ok hk, Res.ok_bind, flagL_ok (by omega), Res.ok_bind,
      wr_int hb hrn, Res.ok_bind]
  · rw [g1, Res.ok_bind, g4, Res.ok_bind, e1, chr_ok (by omega), Res.ok_bind, rd_ok hk, Res.ok_bind, flagL_ok (by omega), Res.ok_bind,
      wr_int hb hrn, Res.ok_bind]

theorem induceL_ok (hP : Placed T n loc0) (hT : ∀ i, i < n → T i < k) (h0 : 0 < n) {A : Arr} {u : Buf}
    (hA : Start T n loc0 A) (hu : Counted T n k u) :
    ∃ A' u', induceL T n k A u = .ok (A', u') ∧ u'.same = u.same ∧ Counted T n k u' ∧ Mid T n loc0 A' ∧ ∀ x, n ≤ x → A' x = A x := by
  obtain ⟨s0, u2, g2, g6, hI, e1, _⟩ := induceL_pre hP hT h0 hA hu
  rw [e1]
  obtain ⟨s', f1, f2⟩ := loopL_ok hP hT n 0 _ (by omega) hI
  rw [f1, Res.ok_bind, Res.pure_eq]
  refine ⟨_, _, rfl, g2, ?_, ?_, f2.fr⟩
  · exact g6
  · constructor
    intro a ha aL
    have := f2.p1 a ha aL (by
      unfold pl
      by_cases h1 : a + 1 < n
      · exact Or.inr (Lam_lt hP (has_next h1 aL))
      · left; omega)
    rw [this]
    unfold flip
    rw [if_pos (rk1_lt ha)]

/-! ### Second pass -/

theorem rk2_L {a : Nat} (ha : a < n) (hL : isS T n a = false) : rk2 T n loc0 a = rk1 T n loc0 a := by
  unfold rk2
  rw [rk1, rk, rk]
  congr 1
  ext b
  simp only [mem_filter, mem_range, and_congr_right_iff]
  intro hb
  rcases lt_trichotomy (code T n b) (code T n a) with g | g | g
  · simp [key1_code (loc0 := loc0) hb ha g, key2_code (loc0 := loc0) hb ha g]
  · obtain ⟨eT, ty⟩ := code_SL g
    have bL : isS T n b = false := by rw [ty, hL]
    rw [← rk1_iff (loc0 := loc0) hb, key2_L hb bL, key2_L ha hL]
    simp [List.cons_lt_cons_iff, eT]
  · have h1 := key1_code (loc0 := loc0) ha hb g
    have h2 := key2_code (loc0 := loc0) ha hb g
    simp [not_lt_of_gt h1, not_lt_of_gt h2]

theorem rk2_next {a : Nat} (h : isS T n a = true) : rk2 T n loc0 a < rk2 T n loc0 (a + 1) :=
  (rk2_iff (by have := isS_lt h; omega)).mpr (key2_next _ a rfl h)

/-- What is stored for an S position. -/
def encS (T : Nat → Nat) (a : Nat) : Int := if a = 0 ∨ T a < T (a - 1) then cpl a else a

theorem flagS_ok {a : Nat} (ha : a < n) : flagS T n (a : Int) (T a) = .ok (encS T a) := by
  unfold flagS encS
  by_cases h : a = 0
  · rw [if_pos (by omega), if_pos (Or.inl h)]
  · rw [if_neg (by omega), chr_int (i := a - 1) (by omega) (by omega), Res.ok_bind, Res.pure_eq]
    simp [h]

/-- The S positions of a bucket that are in place. -/
def plS (T : Nat → Nat) (n : Nat) (loc0 : Nat → Nat) (i c : Nat) : Finset Nat :=
  (range n).filter fun a => code T n a = 2 * c + 1 ∧ i ≤ rk2 T n loc0 (a + 1)

/-- The state of the second loop: the cells from `i` on are done. -/
structure Inv2 (T : Nat → Nat) (n k : Nat) (loc0 : Nat → Nat) (A0 : Arr) (i : Nat) (s : Ind) : Prop where
  c1k : s.c1 < k
  q1 : ∀ a, isS T n a = true → i ≤ rk2 T n loc0 (a + 1) →
    s.SA (rk2 T n loc0 a) = if i ≤ rk2 T n loc0 a then (a : Int) else encS T a
  q2 : ∀ a, a < n → isS T n a = false → s.SA (rk2 T n loc0 a) = if i ≤ rk2 T n loc0 a then (a : Int) else cpl (encL T a)
  b : ∀ c, c < k → eff s c = cl T n (2 * (c + 1)) - (plS T n loc0 i c).card
  fr : ∀ x, n ≤ x → s.SA x = A0 x

theorem fl_ne {i x : Nat} {v w : Int} (h : x ≠ i) : (if i ≤ x then v else w) = if i + 1 ≤ x then v else w := by
  by_cases h1 : i ≤ x
  · rw [if_pos h1, if_pos (by omega)]
  · rw [if_neg h1, if_neg (by omega)]

theorem inv2_skip {A0 : Arr} {i : Nat} {s : Ind} (hI : Inv2 T n k loc0 A0 (i + 1) s) (hi : i < n)
    (hv : ∀ a, a < n → rk2 T n loc0 a = i → cpl (s.SA i) = a)
    (hno : ∀ a, isS T n a = true → rk2 T n loc0 (a + 1) ≠ i) :
    Inv2 T n k loc0 A0 i { s with SA := upd s.SA i (cpl (s.SA i)) } := by
  refine ⟨hI.c1k, ?_, ?_, ?_, ?_⟩
  · intro a aS h
    have h' : i + 1 ≤ rk2 T n loc0 (a + 1) := by
      have := hno a aS
      omega
    by_cases e : rk2 T n loc0 a = i
    · rw [e]
      simp only [upd, if_true, le_refl]
      exact hv a (by have := isS_lt aS; omega) e
    · simp only [upd, e, if_false]
      rw [hI.q1 a aS h', fl_ne e]
  · intro a ha aL
    by_cases e : rk2 T n loc0 a = i
    · rw [e]
      simp only [upd, if_true, le_refl]
      exact hv a ha e
    · simp only [upd, e, if_false]
      rw [hI.q2 a ha aL, fl_ne e]
  · intro c hc
    have e : plS T n loc0 i c = plS T n loc0 (i + 1) c := by
      unfold plS
      apply filter_congr
      intro a _
      by_cases hcd : code T n a = 2 * c + 1
      · have := hno a (code_odd.mp hcd).2
        simp [hcd]
        omega
      · simp [hcd]
    rw [e, ← hI.b c hc]
    rfl
  · intro x hx
    have : x ≠ i := by omega
    simp only [upd, this, if_false]
    exact hI.fr x hx

/-- The place of an S position is the bucket end minus the number of those already in place. -/
theorem rk2_count {b : Nat} (hS : isS T n b = true) :
    rk2 T n loc0 b + 1 + (plS T n loc0 (rk2 T n loc0 (b + 1) + 1) (T b)).card = cl T n (2 * (T b + 1)) := by
  have hbn := isS_lt hS
  have e1 := rk_region_top (T := T) (key := key2 T n loc0) (b := b) (by omega) (fun _ hb h => key2_code hb (by omega) h)
    (fun _ hb h => key2_code (by omega) hb h) key2_injOn
  rw [code_S hS] at e1
  rw [show 2 * (T b + 1) = 2 * T b + 1 + 1 by omega, ← e1]
  change _ = rk2 T n loc0 b + 1 + _
  congr 2
  unfold plS
  ext a
  simp only [mem_filter, mem_range, and_congr_right_iff]
  intro ha hcd
  obtain ⟨eT, aS⟩ := code_odd.mp hcd
  rw [key2_S hS, key2_S aS, List.cons_lt_cons_iff, eT]
  simp only [lt_irrefl, false_or, true_and]
  rw [← rk2_iff (by omega)]
  omega

theorem inv2_place {A0 : Arr} {b : Nat} {s s' : Ind} (hS : isS T n b = true)
    (hI : Inv2 T n k loc0 A0 (rk2 T n loc0 (b + 1) + 1) s) (hv : s.SA (rk2 T n loc0 (b + 1)) = ((b + 1 : Nat) : Int))
    (hSA : s'.SA = upd s.SA (rk2 T n loc0 b) (encS T b))
    (hc : s'.c1 < k) (heff : ∀ c, eff s' c = eff s c + (if c = T b then -1 else 0)) :
    Inv2 T n k loc0 A0 (rk2 T n loc0 (b + 1)) s' := by
  have hnx := rk2_next (loc0 := loc0) hS
  have hbn := isS_lt hS
  have hin := rk2_lt (T := T) (loc0 := loc0) (n := n) (a := b + 1) hbn
  have hpl : ∀ a, isS T n a = true → (rk2 T n loc0 (b + 1) ≤ rk2 T n loc0 (a + 1) ↔
      rk2 T n loc0 (b + 1) + 1 ≤ rk2 T n loc0 (a + 1) ∨ a = b) := by
    intro a aS
    constructor
    · intro h
      by_cases h1 : rk2 T n loc0 (b + 1) + 1 ≤ rk2 T n loc0 (a + 1)
      · exact Or.inl h1
      · right
        have := rk2_inj (T := T) (loc0 := loc0) (a := a + 1) (b := b + 1) (isS_lt aS) hbn (by omega)
        omega
    · rintro (h | rfl) <;> omega
  have hold : ∀ a, a < n → rk2 T n loc0 a = rk2 T n loc0 (b + 1) → s'.SA (rk2 T n loc0 (b + 1)) = a := by
    intro a ha e
    have := rk2_inj ha hbn e
    subst this
    have hne : rk2 T n loc0 (b + 1) ≠ rk2 T n loc0 b := by omega
    rw [hSA]
    simp only [upd, hne, if_false]
    exact hv
  refine ⟨hc, ?_, ?_, ?_, ?_⟩
  · intro a aS h
    have han := isS_lt aS
    by_cases e : rk2 T n loc0 a = rk2 T n loc0 (b + 1)
    · have := hold a (by omega) e
      rw [e, this]
      simp
    · rcases (hpl a aS).mp h with h' | rfl
      · have e2 : a ≠ b := by
          rintro rfl
          omega
        have e3 : rk2 T n loc0 a ≠ rk2 T n loc0 b := fun w => e2 (rk2_inj (by omega) (by omega) w)
        rw [hSA]
        simp only [upd, e3, if_false]
        rw [hI.q1 a aS h', fl_ne e]
      · rw [hSA, if_neg (by omega)]
        simp [upd]
  · intro a ha aL
    by_cases e : rk2 T n loc0 a = rk2 T n loc0 (b + 1)
    · have := hold a ha e
      rw [e, this]
      simp
    · have e2 : a ≠ b := by
        rintro rfl
        rw [hS] at aL
        cases aL
      have e3 : rk2 T n loc0 a ≠ rk2 T n loc0 b := fun w => e2 (rk2_inj (by omega) (by omega) w)
      rw [hSA]
      simp only [upd, e3, if_false]
      rw [hI.q2 a ha aL, fl_ne e]
  · intro c hck
    rw [heff, hI.b c hck]
    by_cases e : c = T b
    · subst e
      have : plS T n loc0 (rk2 T n loc0 (b + 1)) (T b) = insert b (plS T n loc0 (rk2 T n loc0 (b + 1) + 1) (T b)) := by
        ext a
        unfold plS
        simp only [mem_insert, mem_filter, mem_range]
        constructor
        · rintro ⟨w1, w2, w3⟩
          rcases (hpl a (code_odd.mp w2).2).mp w3 with w | w
          · exact Or.inr ⟨w1, w2, w⟩
          · exact Or.inl w
        · rintro (rfl | ⟨w1, w2, w3⟩)
          · exact ⟨by omega, code_S hS, le_refl _⟩
          · exact ⟨w1, w2, by omega⟩
      rw [this, card_insert_of_notMem]
      · simp
        omega
      · intro w
        unfold plS at w
        have := (mem_filter.mp w).2.2
        omega
    · have : plS T n loc0 (rk2 T n loc0 (b + 1)) c = plS T n loc0 (rk2 T n loc0 (b + 1) + 1) c := by
        unfold plS
        apply filter_congr
        intro a ha
        by_cases hcd : code T n a = 2 * c + 1
        · have hne : a ≠ b := by
            rintro rfl
            exact e (code_odd.mp hcd).1.symm
          have := hpl a (code_odd.mp hcd).2
          simp only [hcd, true_and, this, hne, or_false]
        · simp [hcd]
      rw [this]
      simp [e]
  · intro x hx
    have e2 : x ≠ rk2 T n loc0 b := by omega
    rw [hSA]
    simp only [upd, e2, if_false]
    exact hI.fr x hx

theorem stepS_ok (hT : ∀ i, i < n → T i < k) {A0 : Arr} {i : Nat} {s : Ind}
    (hI : Inv2 T n k loc0 A0 (i + 1) s) (hi : i < n) : ∃ s', stepS T n k i s = .ok s' ∧ Inv2 T n k loc0 A0 i s' ∧ (0 < s.SA i → s'.b < i) := by
  unfold stepS
  rw [rd_ok hi, Res.ok_bind]
  obtain ⟨a, ha, e⟩ := rk2_surj (T := T) (loc0 := loc0) hi
  have uniq : ∀ b, isS T n b = true → rk2 T n loc0 (b + 1) = i → b + 1 = a := by
    intro b bS h
    exact rk2_inj (isS_lt bS) ha (by rw [h, e])
  have hplace : ∀ b, isS T n b = true → b + 1 = a → s.SA i = ((b + 1 : Nat) : Int) →
      ∃ s', (if 0 < s.SA i then do
        let c0 ← chr T n (s.SA i - 1)
        let s1 ← switch k s c0
        let v ← flagS T n (s.SA i - 1) c0
        let SA ← wr n s1.SA (s1.b - 1) v
        pure { s1 with SA := SA, b := s1.b - 1 }
      else do
        let SA ← wr n s.SA i (cpl (s.SA i))
        pure { s with SA := SA } : Res Ind) = .ok s' ∧ Inv2 T n k loc0 A0 i s' ∧ (0 < s.SA i → s'.b < i) := by
    intro b hS eb ev
    have hbn := isS_lt hS
    have e1 : s.SA i - 1 = (b : Int) := by omega
    rw [if_pos (by omega), chr_int e1 (by omega), Res.ok_bind]
    obtain ⟨s1, g1, g2, g3, g4, g5⟩ := switch_ok (k := k) s (c0 := T b) hI.c1k (hT b (by omega))
    have ei : rk2 T n loc0 (b + 1) = i := by rw [eb, e]
    have hcnt := rk2_count (loc0 := loc0) hS
    have g7 : s1.b - 1 = (rk2 T n loc0 b : Nat) := by
      rw [g4, hI.b _ (hT b (by omega)), ← hcnt, ei]
      push_cast
      omega
    rw [g1, Res.ok_bind, e1, flagS_ok (by omega), Res.ok_bind, wr_int g7 (rk2_lt (by omega)), Res.ok_bind, Res.pure_eq]
    have hlt := rk2_next (loc0 := loc0) hS
    refine ⟨_, rfl, ?_, fun _ => by simp only; omega⟩
    clear hlt
    rw [← ei]
    rw [← ei] at hI ev
    refine inv2_place hS hI ev ?_ ?_ ?_
    · show upd s1.SA _ _ = _
      rw [g2]
    · show s1.c1 < k
      rw [g3]
      exact hT b (by omega)
    · intro c
      have hh : (if c = s1.c1 then (-1 : Int) else 0) = if c = T b then -1 else 0 := by rw [g3]
      have := eff_move s1 (upd s1.SA (rk2 T n loc0 b) (encS T b)) (-1) c
      rw [g5, hh] at this
      exact this
  have hskip : ¬ 0 < s.SA i → cpl (s.SA i) = a → (∀ b, isS T n b = true → b + 1 ≠ a) →
      ∃ s', (if 0 < s.SA i then do
        let c0 ← chr T n (s.SA i - 1)
        let s1 ← switch k s c0
        let v ← flagS T n (s.SA i - 1) c0
        let SA ← wr n s1.SA (s1.b - 1) v
        pure { s1 with SA := SA, b := s1.b - 1 }
      else do
        let SA ← wr n s.SA i (cpl (s.SA i))
        pure { s with SA := SA } : Res Ind) = .ok s' ∧ Inv2 T n k loc0 A0 i s' ∧ (0 < s.SA i → s'.b < i) := by
    intro h1 h2 h3
    rw [if_neg h1, wr_ok hi, Res.ok_bind, Res.pure_eq]
    refine ⟨_, rfl, inv2_skip hI hi ?_ (fun b bS h => h3 b bS (uniq b bS h)), fun h => absurd h h1⟩
    intro a' ha' e'
    have := rk2_inj ha' ha (by rw [e', e])
    subst this
    exact h2
  cases hS : isS T n a
  · have v := hI.q2 a ha hS
    rw [e, if_neg (by omega)] at v
    unfold encL at v
    by_cases h0 : 0 < a ∧ T (a - 1) < T a
    · obtain ⟨b, rfl⟩ : ∃ b, a = b + 1 := ⟨a - 1, by omega⟩
      rw [if_pos h0] at v
      have hb := (isS_step (T := T) ha).mpr (Or.inl (by simpa using h0.2))
      apply hplace b hb rfl
      rw [v]
      unfold cpl
      omega
    · rw [if_neg h0] at v
      apply hskip
      · rw [v]
        unfold cpl
        omega
      · rw [v]
        unfold cpl
        omega
      · rintro b bS rfl
        simp at h0
        rcases (isS_step (T := T) ha).mp bS with g | g
        · omega
        · rw [hS] at g
          cases g.2
  · have v := hI.q1 a hS (by
      have := rk2_next (loc0 := loc0) hS
      omega)
    rw [e, if_neg (by omega)] at v
    unfold encS at v
    by_cases h0 : a = 0 ∨ T a < T (a - 1)
    · rw [if_pos h0] at v
      apply hskip
      · rw [v]
        unfold cpl
        omega
      · rw [v]
        unfold cpl
        omega
      · rintro b bS rfl
        simp at h0
        rcases (isS_step (T := T) ha).mp bS with g | g
        · omega
        · omega
    · rw [if_neg h0] at v
      obtain ⟨b, rfl⟩ : ∃ b, a = b + 1 := ⟨a - 1, by omega⟩
      simp at h0
      apply hplace b _ rfl v
      apply (isS_step (T := T) ha).mpr
      rcases Nat.lt_or_ge (T b) (T (b + 1)) with g | g
      · exact Or.inl g
      · exact Or.inr ⟨by omega, hS⟩

theorem loopS_ok (hT : ∀ i, i < n → T i < k) {A0 : Arr} : ∀ (i : Nat) (s : Ind), i ≤ n →
    Inv2 T n k loc0 A0 i s → ∃ s', loopS T n k i s = .ok s' ∧ Inv2 T n k loc0 A0 0 s'
  | 0, s, h, hI => ⟨s, rfl, hI⟩
  | i + 1, s, h, hI => by
    obtain ⟨s1, h1, h2, _⟩ := stepS_ok hT hI (by omega)
    simp only [loopS]
    rw [h1, Res.ok_bind]
    exact loopS_ok hT i s1 (by omega) h2

/-- The start of the second half. -/
theorem induceS_pre (hT : ∀ i, i < n → T i < k) (h0 : 0 < n) {A : Arr} {u : Buf}
    (hA : Mid T n loc0 A) (hu : Counted T n k u) :
    ∃ (s0 : Ind) (u2 : Buf), Inv2 T n k loc0 A n s0 ∧ s0.SA = A ∧
      induceS T n k A u = (loopS T n k n s0 >>= fun s => pure (s.SA, { u2 with B := s.B })) ∧
      ∀ A', bwtS T n k A' u = (bwtLoopS T n k n ({ s0 with SA := A' }, -1) >>= fun s => pure (s.2, s.1.SA, { u2 with B := s.1.B })) := by
  unfold induceS bwtS
  obtain ⟨u1, g1, g2, g3⟩ := recount_ok hT u hu
  obtain ⟨u2, g4, g5, g6, g7⟩ := getBuckets_ok true u1 g3
  have hk : 0 < k := by
    have := hT 0 h0
    omega
  simp only [if_true] at g7
  have hI : Inv2 T n k loc0 A n ⟨A, u2.B, u2.B 0, 0⟩ := by
    refine ⟨hk, ?_, ?_, ?_, fun _ _ => rfl⟩
    · intro a aS h
      have := rk2_lt (T := T) (loc0 := loc0) (isS_lt aS)
      omega
    · intro a ha aL
      have := rk2_lt (T := T) (loc0 := loc0) ha
      rw [if_neg (by omega), rk2_L ha aL]
      exact hA.at_ a ha aL
    · intro c hc
      have hset : plS T n loc0 n c = ∅ := by
        unfold plS
        rw [filter_eq_empty_iff]
        rintro a _ ⟨h1, h2⟩
        have := rk2_lt (T := T) (loc0 := loc0) (isS_lt (code_odd.mp h1).2)
        omega
      rw [hset]
      unfold eff
      by_cases e : c = 0
      · subst e
        simp [g7 0 hk]
      · simp [e, g7 c hc]
  refine ⟨_, u2, hI, rfl, ?_, fun A' => ?_⟩
  · rw [g1, Res.ok_bind, g4, Res.ok_bind, rd_int (z := 0) (i := 0) (by simp) hk, Res.ok_bind]
  · rw [g1, Res.ok_bind, g4, Res.ok_bind, rd_int (z := 0) (i := 0) (by simp) hk, Res.ok_bind]

theorem induceS_ok (hT : ∀ i, i < n → T i < k) (h0 : 0 < n) {A : Arr} {u : Buf}
    (hA : Mid T n loc0 A) (hu : Counted T n k u) :
    ∃ A' u', induceS T n k A u = .ok (A', u') ∧ (∀ a, a < n → A' (rk2 T n loc0 a) = a) ∧ ∀ x, n ≤ x → A' x = A x := by
  obtain ⟨s0, u2, hI, _, e1, _⟩ := induceS_pre (loc0 := loc0) hT h0 hA hu
  rw [e1]
  obtain ⟨s', f1, f2⟩ := loopS_ok hT n _ (le_refl n) hI
  rw [f1, Res.ok_bind, Res.pure_eq]
  refine ⟨_, _, rfl, ?_, f2.fr⟩
  intro a ha
  cases hS : isS T n a
  · have := f2.q2 a ha hS
    simpa using this
  · have := f2.q1 a hS (by omega)
    simpa using this

/-- `induceSA` sorts the positions by `key2`. -/
theorem induceSA_ok (hP : Placed T n loc0) (hT : ∀ i, i < n → T i < k) (h0 : 0 < n) {A : Arr} {u : Buf}
    (hA : Start T n loc0 A) (hu : Counted T n k u) :
    ∃ A' u', induceSA T n k A u = .ok (A', u') ∧ (∀ a, a < n → A' (rk2 T n loc0 a) = a) ∧ ∀ x, n ≤ x → A' x = A x := by
  unfold induceSA
  obtain ⟨A1, u1, g1, _, g2, g3, g4⟩ := induceL_ok hP hT h0 hA hu
  obtain ⟨A2, u2, f1, f2, f3⟩ := induceS_ok (loc0 := loc0) hT h0 g3 g2
  rw [g1, Res.ok_bind]
  exact ⟨A2, u2, f1, f2, fun x hx => by rw [f3 x hx, g4 x hx]⟩

/-! ### The same passes with characters instead of positions -/

/-- What `computeBWT` holds where `induceSA` holds `x`, in the cells the first loop has passed. -/
def conv (T : Nat → Nat) (x : Int) : Int := if 0 ≤ x then x else if x = -1 then 0 else cpl (T ((cpl x).toNat - 1))

/-- The same in the cells the second loop has passed. -/
def fin (T : Nat → Nat) (x : Int) : Int := if x ≤ 0 then 0 else T (x.toNat - 1)

/-- The states of the two first loops. -/
def SimL (T : Nat → Nat) (i : Nat) (s t : Ind) : Prop :=
  t.B = s.B ∧ t.b = s.b ∧ t.c1 = s.c1 ∧ ∀ x, t.SA x = if x < i then conv T (s.SA x) else s.SA x

theorem cpl_cpl (x : Int) : cpl (cpl x) = x := by unfold cpl; omega

theorem switch_other {s s' t : Ind} {c : Nat} (hB : t.B = s.B) (hb : t.b = s.b) (hc : t.c1 = s.c1) (h : switch k s c = .ok s') :
    switch k t c = .ok { s' with SA := t.SA } := by
  unfold switch at h ⊢
  rw [hB, hb, hc]
  by_cases e : c = s.c1
  · rw [if_pos e] at h ⊢
    injection h with h
    subst h
    rw [← hB, ← hb, ← hc]
  · rw [if_neg e] at h ⊢
    simp only [Res.bind_eq_ok, Res.pure_eq] at h
    obtain ⟨B, h1, b, h2, h⟩ := h
    injection h with h
    subst h
    rw [h1, Res.ok_bind, h2, Res.ok_bind, Res.pure_eq]

theorem switch_keeps {s s' : Ind} {c : Nat} (h : switch k s c = .ok s') : s'.SA = s.SA := by
  unfold switch at h
  by_cases e : c = s.c1
  · rw [if_pos e] at h
    injection h with h
    rw [h]
  · rw [if_neg e] at h
    simp only [Res.bind_eq_ok, Res.pure_eq] at h
    obtain ⟨B, h1, b, h2, h⟩ := h
    injection h with h
    rw [← h]

theorem wr_inv {lim : Nat} {A A' : Arr} {i v : Int} (h : wr lim A i v = .ok A') : ∃ x : Nat, i = x ∧ x < lim ∧ A' = upd A x v := by
  unfold wr at h
  by_cases hc : 0 ≤ i ∧ i < lim
  · rw [if_pos hc] at h
    injection h with h
    exact ⟨i.toNat, by omega, by omega, h.symm⟩
  · rw [if_neg hc] at h
    cases h

theorem chr_inv {T : Nat → Nat} {n : Nat} {i : Int} {c : Nat} (h : chr T n i = .ok c) : ∃ x : Nat, i = x ∧ x < n ∧ c = T x := by
  unfold chr at h
  by_cases hc : 0 ≤ i ∧ i < n
  · rw [if_pos hc] at h
    injection h with h
    exact ⟨i.toNat, by omega, by omega, h.symm⟩
  · rw [if_neg hc] at h
    cases h

theorem simL_step {i : Nat} {s s' t : Ind} (hs : SimL T i s t) (hi : i < n) (h : stepL T n k i s = .ok s')
    (hb : 0 < s.SA i → (i : Int) < s'.b - 1) : ∃ t', bwtStepL T n k i t = .ok t' ∧ SimL T (i + 1) s' t' := by
  obtain ⟨e1, e2, e3, e4⟩ := hs
  unfold stepL at h
  unfold bwtStepL
  rw [rd_ok hi, Res.ok_bind, wr_ok hi, Res.ok_bind] at h
  have hti : t.SA i = s.SA i := by rw [e4 i, if_neg (by omega)]
  rw [rd_ok hi, Res.ok_bind, hti]
  by_cases hj : 0 < s.SA i
  · rw [if_pos hj] at h ⊢
    simp only [Res.bind_eq_ok, Res.pure_eq] at h
    obtain ⟨c0, h1, s1, h2, v, h3, A1, h4, h⟩ := h
    injection h with h
    subst h
    have hb' := hb hj
    simp only at hb'
    obtain ⟨x, x1, x2, x3⟩ := wr_inv h4
    obtain ⟨p, p1, p2, p3⟩ := chr_inv h1
    have k1 := switch_keeps h2
    simp only at k1
    rw [h1, Res.ok_bind, wr_ok hi, Res.ok_bind,
      switch_other (t := { t with SA := upd t.SA i (cpl c0) }) (by exact e1) (by exact e2) (by exact e3) h2, Res.ok_bind, h3, Res.ok_bind]
    simp only
    rw [wr_int x1 x2, Res.ok_bind, Res.pure_eq]
    refine ⟨_, rfl, rfl, rfl, rfl, ?_⟩
    intro y
    simp only
    rw [x3, k1]
    by_cases y1 : y = x
    · subst y1
      simp only [upd, if_true]
      rw [if_neg (by omega)]
    · by_cases y2 : y = i
      · subst y2
        simp only [upd, y1, if_false, if_true, Nat.lt_succ_self]
        unfold conv
        rw [if_neg (by unfold cpl; omega), if_neg (by unfold cpl; omega), cpl_cpl, p3]
        congr 3
        omega
      · simp only [upd, y1, y2, if_false]
        rw [e4 y]
        by_cases y3 : y < i
        · rw [if_pos y3, if_pos (by omega)]
        · rw [if_neg y3, if_neg (by omega)]
  · rw [if_neg hj, Res.pure_eq] at h
    rw [if_neg hj]
    injection h with h
    subst h
    by_cases hz : s.SA i = 0
    · rw [if_neg (by omega), Res.pure_eq]
      refine ⟨t, rfl, e1, e2, e3, ?_⟩
      intro y
      by_cases y2 : y = i
      · subst y2
        rw [hti, hz]
        simp [upd, conv, cpl]
      · simp only [upd, y2, if_false]
        rw [e4 y]
        by_cases y3 : y < i
        · rw [if_pos y3, if_pos (by omega)]
        · rw [if_neg y3, if_neg (by omega)]
    · rw [if_pos hz, wr_ok hi, Res.ok_bind, Res.pure_eq]
      refine ⟨_, rfl, e1, e2, e3, ?_⟩
      intro y
      by_cases y2 : y = i
      · subst y2
        simp only [upd, if_true, Nat.lt_succ_self]
        unfold conv
        rw [if_pos (by unfold cpl; omega)]
      · simp only [upd, y2, if_false]
        rw [e4 y]
        by_cases y3 : y < i
        · rw [if_pos y3, if_pos (by omega)]
        · rw [if_neg y3, if_neg (by omega)]

theorem bwtLoopL_ok (hP : Placed T n loc0) (hT : ∀ i, i < n → T i < k) {A0 : Arr} : ∀ (d i : Nat) (s t : Ind), i + d = n →
    Inv1 T n k loc0 A0 i s → SimL T i s t →
    ∃ s' t', loopL T n k d i s = .ok s' ∧ bwtLoopL T n k d i t = .ok t' ∧ SimL T n s' t'
  | 0, i, s, t, h, _, hS => by
    have : i = n := by omega
    subst this
    exact ⟨s, t, rfl, rfl, hS⟩
  | d + 1, i, s, t, h, hI, hS => by
    obtain ⟨s1, h1, h2, h3⟩ := stepL_ok hP hT hI (by omega)
    obtain ⟨t1, g1, g2⟩ := simL_step hS (by omega) h1 h3
    simp only [loopL, bwtLoopL]
    rw [h1, Res.ok_bind, g1, Res.ok_bind]
    exact bwtLoopL_ok hP hT d (i + 1) s1 t1 (by omega) h2 g2

/-- The states of the two second loops. -/
def SimS (T : Nat → Nat) (n i : Nat) (s : Ind) (t : Ind × Int) : Prop :=
  t.1.B = s.B ∧ t.1.b = s.b ∧ t.1.c1 = s.c1 ∧
  (∀ x, x < n → t.1.SA x = if i ≤ x then fin T (s.SA x) else conv T (s.SA x)) ∧
  ((∃ x, i ≤ x ∧ x < n ∧ s.SA x ≤ 0) → ∃ x : Nat, t.2 = x ∧ i ≤ x ∧ x < n ∧ s.SA x ≤ 0)

theorem conv_pos {x : Int} : 0 < conv T x ↔ 0 < x := by
  unfold conv
  by_cases h : 0 ≤ x
  · rw [if_pos h]
  · rw [if_neg h]
    by_cases h1 : x = -1
    · rw [if_pos h1]
      omega
    · rw [if_neg h1]
      unfold cpl
      omega

theorem conv_zero {x : Int} : conv T x = 0 ↔ x = 0 ∨ x = -1 := by
  unfold conv
  by_cases h : 0 ≤ x
  · rw [if_pos h]
    omega
  · rw [if_neg h]
    by_cases h1 : x = -1
    · rw [if_pos h1]
      omega
    · rw [if_neg h1]
      unfold cpl
      omega

theorem conv_of_pos {x : Int} (h : 0 < x) : conv T x = x := by
  unfold conv
  rw [if_pos (by omega)]

theorem flagB_conv {j : Int} {c : Nat} {v : Int} (hj : 0 ≤ j) (h : flagS T n j c = .ok v) : flagB T n j c = .ok (conv T v) := by
  unfold flagS at h
  unfold flagB
  by_cases h0 : j = 0
  · subst h0
    rw [if_pos rfl] at h
    injection h with h
    subst h
    rw [if_neg (by omega)]
    simp [conv, cpl]
  · rw [if_neg h0] at h
    simp only [Res.bind_eq_ok, Res.pure_eq] at h
    obtain ⟨d, h1, h⟩ := h
    injection h with h
    obtain ⟨p, p1, p2, p3⟩ := chr_inv h1
    rw [if_pos (by omega), h1, Res.ok_bind, Res.pure_eq]
    congr 1
    by_cases hd : c < d
    · rw [if_pos hd] at h ⊢
      rw [← h]
      unfold conv
      rw [if_neg (by unfold cpl; omega), if_neg (by unfold cpl; omega), cpl_cpl, p3]
      congr 3
      omega
    · rw [if_neg hd] at h ⊢
      rw [← h, conv_of_pos (by omega)]

theorem simS_step {i : Nat} {s s' : Ind} {t : Ind × Int} (hs : SimS T n (i + 1) s t) (hi : i < n) (h : stepS T n k i s = .ok s')
    (hb : 0 < s.SA i → s'.b < i) : ∃ t', bwtStepS T n k i t = .ok t' ∧ SimS T n i s' t' := by
  obtain ⟨e1, e2, e3, e4, e5⟩ := hs
  unfold stepS at h
  unfold bwtStepS
  rw [rd_ok hi, Res.ok_bind] at h
  have hti : t.1.SA i = conv T (s.SA i) := by rw [e4 i hi, if_neg (by omega)]
  rw [rd_ok hi, Res.ok_bind, hti]
  by_cases hj : 0 < s.SA i
  · rw [if_pos hj] at h
    rw [if_pos (conv_pos.mpr hj), conv_of_pos hj]
    simp only [Res.bind_eq_ok, Res.pure_eq] at h
    obtain ⟨c0, h1, s1, h2, v, h3, A1, h4, h⟩ := h
    injection h with h
    subst h
    have hb' := hb hj
    simp only at hb'
    obtain ⟨x, x1, x2, x3⟩ := wr_inv h4
    obtain ⟨p, p1, p2, p3⟩ := chr_inv h1
    have k1 := switch_keeps h2
    rw [h1, Res.ok_bind, wr_ok hi, Res.ok_bind,
      switch_other (t := { t.1 with SA := upd t.1.SA i c0 }) (by exact e1) (by exact e2) (by exact e3) h2, Res.ok_bind,
      flagB_conv (by omega) h3, Res.ok_bind]
    simp only
    rw [wr_int x1 x2, Res.ok_bind, Res.pure_eq]
    have hxi : x ≠ i := by omega
    refine ⟨_, rfl, rfl, rfl, rfl, ?_, ?_⟩
    · intro y hy
      simp only
      rw [x3, k1]
      by_cases y1 : y = x
      · subst y1
        simp only [upd, if_true]
        rw [if_neg (by omega)]
      · by_cases y2 : y = i
        · subst y2
          simp only [upd, y1, if_false, if_true, le_refl]
          unfold fin
          rw [if_neg (by omega), p3]
          congr 2
          omega
        · simp only [upd, y1, y2, if_false]
          rw [e4 y hy]
          by_cases y3 : i ≤ y
          · rw [if_pos y3, if_pos (by omega)]
          · rw [if_neg y3, if_neg (by omega)]
    · simp only
      rw [x3, k1]
      have hval : ∀ y, i ≤ y → upd s.SA x v y = s.SA y := by
        intro y hy
        have : y ≠ x := by omega
        simp only [upd, this, if_false]
      rintro ⟨y, y1, y2, y3⟩
      rw [hval y y1] at y3
      have : y ≠ i := by
        rintro rfl
        omega
      obtain ⟨z, z1, z2, z3, z4⟩ := e5 ⟨y, by omega, y2, y3⟩
      exact ⟨z, z1, by omega, z3, by rw [hval z (by omega)]; exact z4⟩
  · rw [if_neg hj, wr_ok hi, Res.ok_bind, Res.pure_eq] at h
    rw [if_neg (fun w => hj (conv_pos.mp w))]
    injection h with h
    subst h
    by_cases hz : conv T (s.SA i) = 0
    · rw [if_neg (by simpa using hz), Res.pure_eq]
      have hz' := conv_zero.mp hz
      refine ⟨_, rfl, e1, e2, e3, ?_, ?_⟩
      · intro y hy
        by_cases y2 : y = i
        · subst y2
          simp only [upd, if_true, le_refl]
          rw [hti, hz]
          unfold fin
          rw [if_pos (by unfold cpl; omega)]
        · simp only [upd, y2, if_false]
          rw [e4 y hy]
          by_cases y3 : i ≤ y
          · rw [if_pos y3, if_pos (by omega)]
          · rw [if_neg y3, if_neg (by omega)]
      · intro _
        refine ⟨i, rfl, le_refl _, hi, ?_⟩
        simp only [upd, if_true]
        unfold cpl
        omega
    · rw [if_pos (by simpa using hz), wr_ok hi, Res.ok_bind, Res.pure_eq]
      have hneg : s.SA i < -1 := by
        by_contra hc
        exact hz (conv_zero.mpr (by omega))
      refine ⟨_, rfl, e1, e2, e3, ?_, ?_⟩
      · intro y hy
        by_cases y2 : y = i
        · subst y2
          simp only [upd, if_true, le_refl]
          unfold conv fin
          rw [if_neg (by omega), if_neg (by omega), if_neg (by unfold cpl; omega), cpl_cpl]
        · simp only [upd, y2, if_false]
          rw [e4 y hy]
          by_cases y3 : i ≤ y
          · rw [if_pos y3, if_pos (by omega)]
          · rw [if_neg y3, if_neg (by omega)]
      · rintro ⟨y, y1, y2, y3⟩
        have : y ≠ i := by
          rintro rfl
          simp only [upd, if_true] at y3
          unfold cpl at y3
          omega
        simp only [upd, this, if_false] at y3
        obtain ⟨z, z1, z2, z3, z4⟩ := e5 ⟨y, by omega, y2, y3⟩
        have hne : z ≠ i := by omega
        exact ⟨z, z1, by omega, z3, by simp only [upd, hne, if_false]; exact z4⟩

theorem bwtLoopS_ok (hT : ∀ i, i < n → T i < k) {A0 : Arr} : ∀ (i : Nat) (s : Ind) (t : Ind × Int), i ≤ n →
    Inv2 T n k loc0 A0 i s → SimS T n i s t →
    ∃ s' t', loopS T n k i s = .ok s' ∧ bwtLoopS T n k i t = .ok t' ∧ SimS T n 0 s' t'
  | 0, s, t, h, _, hS => ⟨s, t, rfl, rfl, hS⟩
  | i + 1, s, t, h, hI, hS => by
    obtain ⟨s1, h1, h2, h3⟩ := stepS_ok hT hI (by omega)
    obtain ⟨t1, g1, g2⟩ := simS_step hS (by omega) h1 h3
    simp only [loopS, bwtLoopS]
    rw [h1, Res.ok_bind, g1, Res.ok_bind]
    exact bwtLoopS_ok hT i s1 t1 (by omega) h2 g2

/-- What `finish` leaves: the sorted positions, or the characters before them and the place of position 0. -/
def Out (r : Nat → Nat) (T : Nat → Nat) (n : Nat) (isbwt : Bool) (e : Int) (A : Arr) : Prop :=
  if isbwt then e = r 0 ∧ ∀ a, 0 < a → a < n → A (r a) = T (a - 1) else e = 0 ∧ ∀ a, a < n → A (r a) = a

theorem computeBWT_ok (hP : Placed T n loc0) (hT : ∀ i, i < n → T i < k) (h0 : 0 < n) {A : Arr} {u : Buf}
    (hA : Start T n loc0 A) (hu : Counted T n k u) :
    ∃ e A' u', computeBWT T n k A u = .ok (e, A', u') ∧ e = rk2 T n loc0 0 ∧ ∀ a, 0 < a → a < n → A' (rk2 T n loc0 a) = T (a - 1) := by
  unfold computeBWT
  obtain ⟨A1, u1, g1, _, g2, g3, g4⟩ := induceL_ok hP hT h0 hA hu
  obtain ⟨s0, u2, _, _, hI, e1, e2⟩ := induceL_pre hP hT h0 hA hu
  obtain ⟨s1, t1, f1, f2, f3, f4, f5, f6⟩ := bwtLoopL_ok hP hT n 0 s0 s0 (by omega) hI ⟨rfl, rfl, rfl, fun x => by rw [if_neg (by omega)]⟩
  rw [e1, f1, Res.ok_bind, Res.pure_eq] at g1
  injection g1 with g1
  injection g1 with g1 g1'
  rw [e2, f2, Res.ok_bind, Res.pure_eq, Res.ok_bind]
  simp only
  obtain ⟨A2, u3, d1, d2, d3⟩ := induceS_ok (loc0 := loc0) hT h0 g3 g2
  obtain ⟨r0, u4, hI2, hr, c1, c2⟩ := induceS_pre (loc0 := loc0) hT h0 g3 g2
  rw [f3, g1', c2]
  obtain ⟨s2, t2, b1, b2, b3, b4, b5, b6, b7⟩ := bwtLoopS_ok hT n r0 ({ r0 with SA := t1.SA }, -1) (le_refl n) hI2 ⟨rfl, rfl, rfl, by
    intro x hx
    simp only
    rw [f6 x, if_pos hx, if_neg (by omega), hr, g1], by
    rintro ⟨x, h1, h2, _⟩
    omega⟩
  rw [c1, b1, Res.ok_bind, Res.pure_eq] at d1
  injection d1 with d1
  injection d1 with d1 _
  rw [b2, Res.ok_bind, Res.pure_eq]
  refine ⟨_, _, _, rfl, ?_, ?_⟩
  · have hz := d2 0 h0
    obtain ⟨x, x1, _, x3, x4⟩ := b7 ⟨rk2 T n loc0 0, by omega, rk2_lt h0, by rw [d1, hz]; simp⟩
    obtain ⟨a, ha, e⟩ := rk2_surj (T := T) (loc0 := loc0) x3
    rw [d1, ← e, d2 a ha] at x4
    have : a = 0 := by omega
    subst this
    rw [x1, e]
  · intro a h1 h2
    rw [b6 _ (rk2_lt h2), if_pos (by omega), d1, d2 a h2]
    unfold fin
    rw [if_neg (by omega), Int.toNat_natCast]

theorem finish_ok (hP : Placed T n loc0) (hT : ∀ i, i < n → T i < k) (h0 : 0 < n) {A : Arr} {u : Buf}
    (hA : Start T n loc0 A) (hu : Counted T n k u) (isbwt : Bool) :
    ∃ e A' u', finish isbwt T n k A u = .ok (e, A', u') ∧ Out (rk2 T n loc0) T n isbwt e A' := by
  unfold finish Out
  cases isbwt
  · obtain ⟨A', u', h1, h2, _⟩ := induceSA_ok hP hT h0 hA hu
    simp only [Bool.false_eq_true, if_false]
    rw [h1]
    exact ⟨0, A', u', rfl, rfl, h2⟩
  · simp only [if_true]
    exact computeBWT_ok hP hT h0 hA hu

end Verif.Sais
