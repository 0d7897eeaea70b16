import Verif.Model.Sais
import Mathlib.Data.List.Lex
import Mathlib.Data.Finset.Card
import Mathlib.Data.Finset.Range
import Mathlib.Order.Interval.Finset.Nat

set_option linter.unusedSimpArgs false

/-! Ranks, the two kinds of positions of a text, and the simple loops of the suffix sorter. -/
namespace Verif.Sais
open Finset

/-! ### Ranks -/

section rank
variable {α : Type} [LinearOrder α]

/-- The number of elements of `s` with a smaller key. -/
def rk (s : Finset Nat) (key : Nat → α) (a : Nat) : Nat := (s.filter fun b => key b < key a).card

theorem rk_lt {s : Finset Nat} {key : Nat → α} {a : Nat} (ha : a ∈ s) : rk s key a < s.card := by
  apply card_lt_card
  refine ⟨filter_subset _ _, fun h => ?_⟩
  have := h ha
  simp at this

theorem rk_mono {s : Finset Nat} {key : Nat → α} {a b : Nat} (h : key a ≤ key b) : rk s key a ≤ rk s key b := by
  apply card_le_card
  intro x hx
  rw [mem_filter] at hx ⊢
  exact ⟨hx.1, lt_of_lt_of_le hx.2 h⟩

theorem rk_lt_iff {s : Finset Nat} {key : Nat → α} {a b : Nat} (ha : a ∈ s) : rk s key a < rk s key b ↔ key a < key b := by
  constructor
  · intro h
    by_contra hc
    have := rk_mono (s := s) (not_lt.mp hc)
    omega
  · intro h
    apply card_lt_card
    constructor
    · intro x hx
      rw [mem_filter] at hx ⊢
      exact ⟨hx.1, lt_trans hx.2 h⟩
    · intro hc
      have := hc (mem_filter.mpr ⟨ha, h⟩)
      simp at this

theorem rk_inj {s : Finset Nat} {key : Nat → α} (hi : Set.InjOn key s) {a b : Nat} (ha : a ∈ s) (hb : b ∈ s)
    (h : rk s key a = rk s key b) : a = b := by
  apply hi ha hb
  rcases lt_trichotomy (key a) (key b) with g | g | g
  · have := (rk_lt_iff ha).mpr g
    omega
  · exact g
  · have := (rk_lt_iff hb).mpr g
    omega

theorem rk_surj {s : Finset Nat} {key : Nat → α} (hi : Set.InjOn key s) {x : Nat} (hx : x < s.card) :
    ∃ a ∈ s, rk s key a = x := by
  have h : s.image (rk s key) = range s.card := by
    apply eq_of_subset_of_card_le
    · intro y hy
      obtain ⟨a, ha, rfl⟩ := mem_image.mp hy
      exact mem_range.mpr (rk_lt ha)
    · rw [card_range, card_image_of_injOn (fun a ha b hb e => rk_inj hi ha hb e)]
  have : x ∈ s.image (rk s key) := by
    rw [h]
    exact mem_range.mpr hx
  obtain ⟨a, ha, e⟩ := mem_image.mp this
  exact ⟨a, ha, e⟩

end rank

/-! ### The kinds of positions -/

/-- `isSF d i`: the position `i`, at most `d` before the last one, is of type S. -/
def isSF (T : Nat → Nat) : Nat → Nat → Bool
  | 0, _ => false
  | d + 1, i => decide (T i < T (i + 1)) || (T i == T (i + 1) && isSF T d (i + 1))

/-- The suffix at `i` is smaller than the next one. -/
def isS (T : Nat → Nat) (n i : Nat) : Bool := isSF T (n - 1 - i) i

/-- A leftmost S position. -/
def isLMS (T : Nat → Nat) (n p : Nat) : Bool := decide (0 < p) && isS T n p && !isS T n (p - 1)

/-- The character and the type. -/
def code (T : Nat → Nat) (n a : Nat) : Nat := 2 * T a + (if isS T n a then 1 else 0)

variable {T : Nat → Nat} {n k : Nat}

theorem isS_step {i : Nat} (h : i + 1 < n) :
    isS T n i = true ↔ T i < T (i + 1) ∨ (T i = T (i + 1) ∧ isS T n (i + 1) = true) := by
  unfold isS
  obtain ⟨d, hd⟩ : ∃ d, n - 1 - i = d + 1 := ⟨n - 1 - i - 1, by omega⟩
  have : n - 1 - (i + 1) = d := by omega
  rw [hd, this]
  simp [isSF]

theorem isS_last {i : Nat} (h : n ≤ i + 1) : isS T n i = false := by
  unfold isS
  have : n - 1 - i = 0 := by omega
  rw [this]
  rfl

theorem isS_lt {i : Nat} (h : isS T n i = true) : i + 1 < n := by
  by_contra hc
  rw [isS_last (by omega)] at h
  cases h

theorem isL_step {i : Nat} (h : i + 1 < n) :
    isS T n i = false ↔ T (i + 1) < T i ∨ (T i = T (i + 1) ∧ isS T n (i + 1) = false) := by
  have := isS_step (T := T) h
  cases h1 : isS T n i <;> cases h2 : isS T n (i + 1) <;> simp [h1, h2] at this ⊢ <;> omega

theorem lms_iff {p : Nat} : isLMS T n p = true ↔ 0 < p ∧ isS T n p = true ∧ isS T n (p - 1) = false := by
  simp [isLMS, and_assoc]

theorem lms_lt {p : Nat} (h : isLMS T n p = true) : p + 1 < n := isS_lt (lms_iff.mp h).2.1

theorem lms_gt {p : Nat} (h : isLMS T n p = true) : T p < T (p - 1) := by
  obtain ⟨h0, h1, h2⟩ := lms_iff.mp h
  obtain ⟨q, rfl⟩ : ∃ q, p = q + 1 := ⟨p - 1, by omega⟩
  have := (isL_step (T := T) (i := q) (by have := isS_lt h1; omega)).mp h2
  rcases this with h | h
  · exact h
  · rw [h1] at h
    cases h.2

theorem lms_succ {p : Nat} (h : isS T n p = true) : isLMS T n (p + 1) = false := by
  cases h1 : isLMS T n (p + 1)
  · rfl
  · have := (lms_iff.mp h1).2.2
    simp at this
    rw [this] at h
    cases h

theorem lms_of_L {a : Nat} (h : isS T n a = false) (h1 : isS T n (a + 1) = true) : isLMS T n (a + 1) = true :=
  lms_iff.mpr ⟨by omega, h1, by simpa using h⟩

theorem lms_space {p q : Nat} (hp : isLMS T n p = true) (hq : isLMS T n q = true) (h : p < q) : p + 2 ≤ q := by
  by_contra hc
  have : q = p + 1 := by omega
  subst this
  rw [lms_succ (lms_iff.mp hp).2.1] at hq
  cases hq

theorem lms_half {p q : Nat} (hp : isLMS T n p = true) (hq : isLMS T n q = true) (h : p < q) : p / 2 < q / 2 := by
  have := lms_space hp hq h
  omega

theorem lms_half_inj {p q : Nat} (hp : isLMS T n p = true) (hq : isLMS T n q = true) (h : p / 2 = q / 2) : p = q := by
  rcases lt_trichotomy p q with g | g | g
  · have := lms_half hp hq g
    omega
  · exact g
  · have := lms_half hq hp g
    omega

theorem lms_half_lt {p : Nat} (hp : isLMS T n p = true) : p / 2 < n / 2 := by
  have := lms_lt hp
  omega

/-- The leftmost S positions. -/
def LM (T : Nat → Nat) (n : Nat) : Finset Nat := (range n).filter fun p => isLMS T n p = true

theorem mem_LM {p : Nat} : p ∈ LM T n ↔ isLMS T n p = true := by
  unfold LM
  rw [mem_filter, mem_range]
  exact ⟨fun h => h.2, fun h => ⟨by have := lms_lt h; omega, h⟩⟩

theorem card_LM : (LM T n).card ≤ n / 2 := by
  have := card_image_of_injOn (s := LM T n) (f := fun p => p / 2)
    (fun a ha b hb e => lms_half_inj (mem_LM.mp ha) (mem_LM.mp hb) e)
  rw [← this]
  have h2 : (LM T n).image (fun p => p / 2) ⊆ range (n / 2) := by
    intro x hx
    obtain ⟨p, hp, rfl⟩ := mem_image.mp hx
    exact mem_range.mpr (lms_half_lt (mem_LM.mp hp))
  simpa using card_le_card h2

/-! ### Buckets -/

/-- The number of positions with a smaller code. -/
def cl (T : Nat → Nat) (n x : Nat) : Nat := ((range n).filter fun b => code T n b < x).card

/-- The number of positions with this code. -/
def ce (T : Nat → Nat) (n x : Nat) : Nat := ((range n).filter fun b => code T n b = x).card

theorem cl_succ (x : Nat) : cl T n (x + 1) = cl T n x + ce T n x := by
  unfold cl ce
  rw [← card_union_of_disjoint]
  · congr 1
    ext b
    simp only [mem_union, mem_filter]
    constructor
    · rintro ⟨h1, h2⟩
      rcases Nat.lt_succ_iff_lt_or_eq.mp h2 with h | h
      · exact Or.inl ⟨h1, h⟩
      · exact Or.inr ⟨h1, h⟩
    · rintro (⟨h1, h2⟩ | ⟨h1, h2⟩)
      · exact ⟨h1, by omega⟩
      · exact ⟨h1, by omega⟩
  · rw [disjoint_filter]
    intro b _ h1 h2
    omega

theorem cl_mono {x y : Nat} (h : x ≤ y) : cl T n x ≤ cl T n y := by
  apply card_le_card
  intro b hb
  rw [mem_filter] at hb ⊢
  exact ⟨hb.1, by omega⟩

theorem cl_le (x : Nat) : cl T n x ≤ n := by
  have := card_le_card (filter_subset (fun b => code T n b < x) (range n))
  simpa [cl] using this

theorem code_div (a : Nat) : code T n a / 2 = T a := by
  unfold code
  split <;> omega

theorem code_eq {a c : Nat} (ty : Bool) (hc : T a = c) (ht : isS T n a = ty) : code T n a = 2 * c + ty.toNat := by
  unfold code
  subst hc
  rw [ht]
  cases ty <;> rfl

theorem code_even {a c : Nat} : code T n a = 2 * c ↔ T a = c ∧ isS T n a = false := by
  unfold code
  split
  · rename_i h
    simp [h]
    omega
  · rename_i h
    simp at h
    simp [h]
    omega

theorem code_odd {a c : Nat} : code T n a = 2 * c + 1 ↔ T a = c ∧ isS T n a = true := by
  unfold code
  split
  · rename_i h
    simp [h]
    omega
  · rename_i h
    simp at h
    simp [h]
    omega

/-- The start of the bucket of `c`. -/
theorem cl_start (c : Nat) : cl T n (2 * c) = ((range n).filter fun b => T b < c).card := by
  unfold cl
  congr 1
  apply filter_congr
  intro b _
  have := code_div (T := T) (n := n) b
  omega

/-- How often `c` occurs in the first `i` characters. -/
def cnt (T : Nat → Nat) (i c : Nat) : Nat := ((range i).filter fun b => T b = c).card

theorem cnt_succ (i c : Nat) : cnt T (i + 1) c = cnt T i c + (if T i = c then 1 else 0) := by
  unfold cnt
  rw [range_add_one, filter_insert]
  split
  · rw [card_insert_of_notMem (by simp)]
  · simp

theorem cl_cnt (c : Nat) : cl T n (2 * (c + 1)) = cl T n (2 * c) + cnt T n c := by
  rw [cl_start, cl_start]
  unfold cnt
  rw [← card_union_of_disjoint]
  · congr 1
    ext b
    simp only [mem_union, mem_filter]
    constructor
    · rintro ⟨h1, h2⟩
      rcases Nat.lt_succ_iff_lt_or_eq.mp h2 with h | h
      · exact Or.inl ⟨h1, h⟩
      · exact Or.inr ⟨h1, h⟩
    · rintro (⟨h1, h2⟩ | ⟨h1, h2⟩)
      · exact ⟨h1, by omega⟩
      · exact ⟨h1, by omega⟩
  · rw [disjoint_filter]
    intro b _ h1 h2
    omega

/-- If the key respects the codes, the rank lies in the part of the bucket of that type. -/
theorem rk_region {α : Type} [LinearOrder α] {key : Nat → α} {a : Nat} (ha : a < n)
    (h : ∀ b, b < n → code T n b < code T n a → key b < key a)
    (h' : ∀ b, b < n → code T n a < code T n b → key a < key b) :
    rk (range n) key a = cl T n (code T n a) + ((range n).filter fun b => code T n b = code T n a ∧ key b < key a).card ∧
    cl T n (code T n a) ≤ rk (range n) key a ∧ rk (range n) key a < cl T n (code T n a + 1) := by
  have e : rk (range n) key a = cl T n (code T n a) + ((range n).filter fun b => code T n b = code T n a ∧ key b < key a).card := by
    unfold rk cl
    rw [← card_union_of_disjoint]
    · congr 1
      ext b
      simp only [mem_union, mem_filter, mem_range]
      constructor
      · rintro ⟨h1, h2⟩
        rcases lt_trichotomy (code T n b) (code T n a) with g | g | g
        · exact Or.inl ⟨h1, g⟩
        · exact Or.inr ⟨h1, g, h2⟩
        · exact absurd h2 (not_lt_of_gt (h' b h1 g))
      · rintro (⟨h1, h2⟩ | ⟨h1, _, h2⟩)
        · exact ⟨h1, h b h1 h2⟩
        · exact ⟨h1, h2⟩
    · rw [disjoint_filter]
      intro b _ h1 h2
      omega
  refine ⟨e, by omega, ?_⟩
  rw [e, cl_succ]
  have : ((range n).filter fun b => code T n b = code T n a ∧ key b < key a).card < ce T n (code T n a) := by
    unfold ce
    apply card_lt_card
    constructor
    · intro b hb
      rw [mem_filter] at hb ⊢
      exact ⟨hb.1, hb.2.1⟩
    · intro hc
      have := hc (mem_filter.mpr ⟨mem_range.mpr ha, rfl⟩)
      simp at this
  omega

/-- The same, counted from the end. -/
theorem rk_region_top {α : Type} [LinearOrder α] {key : Nat → α} {b : Nat} (hb : b < n)
    (h : ∀ a, a < n → code T n a < code T n b → key a < key b)
    (h' : ∀ a, a < n → code T n b < code T n a → key b < key a) (hi : Set.InjOn key (range n : Finset Nat)) :
    rk (range n) key b + 1 + ((range n).filter fun a => code T n a = code T n b ∧ key b < key a).card = cl T n (code T n b + 1) := by
  have e1 := (rk_region hb h h').1
  have hset : ((range n).filter fun a => code T n a = code T n b) =
      (insert b ((range n).filter fun a => code T n a = code T n b ∧ key a < key b)) ∪
      ((range n).filter fun a => code T n a = code T n b ∧ key b < key a) := by
    ext a
    simp only [mem_union, mem_insert, mem_filter, mem_range]
    constructor
    · rintro ⟨h1, h2⟩
      rcases lt_trichotomy (key a) (key b) with g | g | g
      · exact Or.inl (Or.inr ⟨h1, h2, g⟩)
      · exact Or.inl (Or.inl (hi (by simpa using h1) (by simpa using hb) g))
      · exact Or.inr ⟨h1, h2, g⟩
    · rintro ((rfl | h) | h)
      · exact ⟨hb, rfl⟩
      · exact ⟨h.1, h.2.1⟩
      · exact ⟨h.1, h.2.1⟩
  have e4 : ce T n (code T n b) = ((range n).filter fun a => code T n a = code T n b ∧ key a < key b).card +
      1 + ((range n).filter fun a => code T n a = code T n b ∧ key b < key a).card := by
    unfold ce
    rw [hset, card_union_of_disjoint, card_insert_of_notMem]
    · simp
    · rw [disjoint_left]
      intro a h1 h2
      rw [mem_filter] at h2
      rw [mem_insert, mem_filter] at h1
      rcases h1 with rfl | h1
      · exact lt_irrefl _ h2.2.2
      · exact lt_asymm h1.2.2 h2.2.2
  rw [cl_succ, e4]
  omega

/-- Every place below `n` belongs to one bucket and one type. -/
theorem region_exists {x : Nat} (h : x < n) : ∃ a, a < n ∧ cl T n (code T n a) ≤ x ∧ x < cl T n (code T n a + 1) := by
  have key : ∀ y, x < cl T n y → ∃ z, z < y ∧ cl T n z ≤ x ∧ x < cl T n (z + 1) := by
    intro y
    induction y with
    | zero =>
      intro h
      simp [cl] at h
    | succ y ih =>
      intro h
      by_cases g : x < cl T n y
      · obtain ⟨z, hz, hz'⟩ := ih g
        exact ⟨z, by omega, hz'⟩
      · exact ⟨y, by omega, by omega, h⟩
  obtain ⟨z, _, h1, h2⟩ := key ((range n).sup (code T n) + 1) (by
    have : cl T n ((range n).sup (code T n) + 1) = n := by
      unfold cl
      rw [filter_true_of_mem, card_range]
      intro b hb
      have := le_sup (f := code T n) hb
      omega
    omega)
  rw [cl_succ] at h2
  have : 0 < ce T n z := by omega
  obtain ⟨a, ha⟩ := card_pos.mp this
  rw [mem_filter, mem_range] at ha
  exact ⟨a, ha.1, by rw [ha.2]; exact h1, by rw [ha.2, cl_succ]; exact h2⟩

/-! ### Accesses -/

theorem rd_ok {len : Nat} {a : Arr} {i : Nat} (h : i < len) : rd len a i = .ok (a i) := by
  unfold rd
  rw [if_pos (by omega)]
  simp

theorem wr_ok {len : Nat} {a : Arr} {i : Nat} {v : Int} (h : i < len) : wr len a i v = .ok (upd a i v) := by
  unfold wr
  rw [if_pos (by omega)]
  simp

theorem chr_ok {i : Nat} (h : i < n) : chr T n i = .ok (T i) := by
  unfold chr
  rw [if_pos (by omega)]
  simp

theorem rd_int {len : Nat} {a : Arr} {z : Int} {i : Nat} (e : z = i) (h : i < len) : rd len a z = .ok (a i) := by
  rw [e, rd_ok h]

theorem wr_int {len : Nat} {a : Arr} {z v : Int} {i : Nat} (e : z = i) (h : i < len) : wr len a z v = .ok (upd a i v) := by
  rw [e, wr_ok h]

theorem chr_int {z : Int} {i : Nat} (e : z = i) (h : i < n) : chr T n z = .ok (T i) := by
  rw [e, chr_ok h]

/-! ### Simple loops -/

theorem zeroLoop_ok (len : Nat) : ∀ (c i : Nat) (a : Arr), i + c ≤ len →
    zeroLoop len c i a = .ok (fun x => if i ≤ x ∧ x < i + c then 0 else a x)
  | 0, i, a, _ => by
    simp only [zeroLoop]
    congr 1
    funext x
    rw [if_neg (by omega)]
  | c + 1, i, a, h => by
    simp only [zeroLoop]
    rw [wr_ok (by omega), Res.ok_bind, zeroLoop_ok len c (i + 1) _ (by omega)]
    congr 1
    funext x
    by_cases h1 : x = i
    · subst h1
      rw [if_neg (by omega), if_pos (by omega)]
      simp [upd]
    · by_cases h2 : i + 1 ≤ x ∧ x < i + 1 + c
      · rw [if_pos h2, if_pos (by omega)]
      · rw [if_neg h2, if_neg (by omega)]
        simp [upd, h1]

theorem countLoop_ok (hT : ∀ i, i < n → T i < k) : ∀ (d i : Nat) (C : Arr), i + d = n → (∀ c, c < k → C c = cnt T i c) →
    ∃ C', countLoop T n k d i C = .ok C' ∧ ∀ c, c < k → C' c = cnt T n c
  | 0, i, C, h, hC => by
    have : i = n := by omega
    subst this
    exact ⟨C, rfl, hC⟩
  | d + 1, i, C, h, hC => by
    simp only [countLoop]
    rw [chr_ok (by omega), Res.ok_bind, rd_ok (hT i (by omega)), Res.ok_bind, wr_ok (hT i (by omega)), Res.ok_bind]
    apply countLoop_ok hT d (i + 1) _ (by omega)
    intro c hc
    rw [cnt_succ]
    by_cases e : c = T i
    · subst e
      simp [upd, hC _ hc]
    · rw [if_neg (by omega)]
      simp [upd, e, hC _ hc]

/-- The counts of a bucket pair are usable by `induceSA`. -/
def Counted (T : Nat → Nat) (n k : Nat) (u : Buf) : Prop := u.same = false → ∀ c, c < k → u.C c = cnt T n c

theorem getCounts_ok (hT : ∀ i, i < n → T i < k) (u : Buf) :
    ∃ u', getCounts T n k u = .ok u' ∧ u'.same = u.same ∧ ∀ c, c < k → u'.cnt c = cnt T n c := by
  unfold getCounts
  rw [zeroLoop_ok k k 0 _ (by omega), Res.ok_bind]
  obtain ⟨C', h1, h2⟩ := countLoop_ok hT n 0 (fun x => if 0 ≤ x ∧ x < 0 + k then 0 else u.cnt x) (by omega) (by
    intro c hc
    rw [if_pos (by omega)]
    simp [cnt])
  rw [h1, Res.ok_bind, Res.pure_eq]
  refine ⟨_, rfl, ?_, ?_⟩
  · unfold Buf.setC
    split <;> rfl
  · intro c hc
    rw [← h2 c hc]
    unfold Buf.setC Buf.cnt
    cases u.same <;> rfl

theorem bucketLoop_ok (fin : Bool) : ∀ (d i : Nat) (sum : Int) (u : Buf), i + d = k → sum = cl T n (2 * i) →
    (∀ c, i ≤ c → c < k → u.cnt c = cnt T n c) → (u.same = false → ∀ c, c < k → u.C c = cnt T n c) →
    (∀ c, c < i → u.B c = cl T n (2 * (if fin then c + 1 else c))) →
    ∃ u', bucketLoop k fin d i sum u = .ok u' ∧ u'.same = u.same ∧ (u'.same = false → ∀ c, c < k → u'.C c = cnt T n c) ∧
      ∀ c, c < k → u'.B c = cl T n (2 * (if fin then c + 1 else c))
  | 0, i, sum, u, h, hs, h1, h2, h3 => by
    have : i = k := by omega
    subst this
    exact ⟨u, rfl, rfl, h2, h3⟩
  | d + 1, i, sum, u, h, hs, h1, h2, h3 => by
    simp only [bucketLoop]
    rw [rd_ok (by omega), Res.ok_bind, wr_ok (by omega), Res.ok_bind]
    have e1 := h1 i (by omega) (by omega)
    have e2 := cl_cnt (T := T) (n := n) i
    obtain ⟨u', g1, g2, g3, g4⟩ := bucketLoop_ok fin d (i + 1) (sum + u.cnt i)
      { u with B := upd u.B i (if fin then sum + u.cnt i else sum + u.cnt i - u.cnt i) } (by omega) (by rw [e1, hs, e2]; omega)
      (by
        intro c hc hk
        rw [← h1 c (by omega) hk]
        unfold Buf.cnt
        cases hb : u.same
        · simp
        · have : c ≠ i := by omega
          simp [upd, this])
      (by
        intro hb c hc
        exact h2 hb c hc)
      (by
        intro c hc
        by_cases e : c = i
        · subst e
          cases fin
          · simp [upd]
            exact hs
          · simp only [upd, if_true]
            rw [e1, hs, e2]
            omega
        · simp only [upd, e, if_false]
          exact h3 c (by omega))
    exact ⟨u', g1, g2, g3, g4⟩

/-- After `getBuckets` the array `B` holds the starts or the ends of the buckets. -/
theorem getBuckets_ok (fin : Bool) (u : Buf) (h : ∀ c, c < k → u.cnt c = cnt T n c) :
    ∃ u', getBuckets k fin u = .ok u' ∧ u'.same = u.same ∧ Counted T n k u' ∧
      ∀ c, c < k → u'.B c = cl T n (2 * (if fin then c + 1 else c)) := by
  unfold getBuckets Counted
  exact bucketLoop_ok (T := T) (n := n) fin k 0 0 u (by omega) (by simp [cl]) (fun c _ hc => h c hc)
    (by
      intro hb c hc
      have := h c hc
      unfold Buf.cnt at this
      rw [hb] at this
      exact this)
    (by intro c hc; omega)

/-- `if(C == B) getCounts; getBuckets` (the begin of both halves of `induceSA`). -/
theorem recount_ok (hT : ∀ i, i < n → T i < k) (u : Buf) (h : Counted T n k u) :
    ∃ u', recount T n k u = .ok u' ∧ u'.same = u.same ∧ ∀ c, c < k → u'.cnt c = cnt T n c := by
  unfold recount
  cases hb : u.same
  · refine ⟨u, rfl, hb, ?_⟩
    intro c hc
    unfold Buf.cnt
    rw [hb]
    exact h hb c hc
  · obtain ⟨u', h1, h2, h3⟩ := getCounts_ok hT u
    exact ⟨u', h1, by rw [h2, hb], h3⟩

/-! ### The scan for leftmost S positions -/

theorem scanLoop_ok {σ : Type} {body : Nat → Nat → σ → Res σ} (I : Nat → σ → Prop)
    (hb : ∀ p s, isLMS T n p = true → I p s → ∃ s', body p (T p) s = .ok s' ∧ I (p - 1) s')
    (hn : ∀ p s, 0 < p → isLMS T n p = false → I p s → I (p - 1) s) :
    ∀ (i : Nat) (s : σ), i < n → I i s →
      ∃ s', scanLoop T n body i (if isS T n i then 1 else 0) (T i) s = .ok s' ∧ I 0 s'
  | 0, s, _, hI => ⟨s, rfl, hI⟩
  | i + 1, s, hi, hI => by
    simp only [scanLoop]
    rw [chr_ok (by omega), Res.ok_bind]
    have st := isS_step (T := T) (n := n) (i := i) hi
    cases hS : isS T n i
    · have h1 : ¬ T i < T (i + 1) + (if isS T n (i + 1) = true then 1 else 0) := by
        rw [hS] at st
        cases hS1 : isS T n (i + 1) <;> simp [hS1] at st ⊢ <;> omega
      rw [if_neg h1]
      cases hS1 : isS T n (i + 1)
      · have hl : isLMS T n (i + 1) = false := by simp [isLMS, hS1]
        simp only [Bool.false_eq_true, if_false, ne_eq, not_true_eq_false]
        have := scanLoop_ok I hb hn i s (by omega) (by simpa using hn (i + 1) s (by omega) hl hI)
        rw [hS] at this
        simpa using this
      · have hl : isLMS T n (i + 1) = true := lms_of_L hS hS1
        obtain ⟨s', e1, e2⟩ := hb (i + 1) s hl hI
        simp only [if_true, ne_eq, one_ne_zero, not_false_eq_true]
        rw [e1, Res.ok_bind]
        have := scanLoop_ok I hb hn i s' (by omega) (by simpa using e2)
        rw [hS] at this
        simpa using this
    · have h1 : T i < T (i + 1) + (if isS T n (i + 1) = true then 1 else 0) := by
        rw [hS] at st
        cases hS1 : isS T n (i + 1) <;> simp [hS1] at st ⊢ <;> omega
      rw [if_pos h1]
      have := scanLoop_ok I hb hn i s (by omega) (by simpa using hn (i + 1) s (by omega) (lms_succ hS) hI)
      rw [hS] at this
      simpa using this

theorem scan_ok {σ : Type} {body : Nat → Nat → σ → Res σ} (I : Nat → σ → Prop) (h0 : 0 < n)
    (hb : ∀ p s, isLMS T n p = true → I p s → ∃ s', body p (T p) s = .ok s' ∧ I (p - 1) s')
    (hn : ∀ p s, 0 < p → isLMS T n p = false → I p s → I (p - 1) s) (s : σ) (hI : I (n - 1) s) :
    ∃ s', scan T n body s = .ok s' ∧ I 0 s' := by
  unfold scan
  rw [chr_int (i := n - 1) (by omega) (by omega), Res.ok_bind]
  have := scanLoop_ok I hb hn (n - 1) s (by omega) hI
  rw [isS_last (by omega)] at this
  simpa using this

end Verif.Sais
