import Verif.Spec.FMindex
import Verif.Spec.Wavelet
import Verif.Proof.Frequency
import Verif.Proof.WaveletTop
set_option linter.unusedSimpArgs false

/-! The arithmetic of backward search on a sorted suffix array, for C16 and C17. -/
namespace Verif.FMindex
open Verif.Spec.FMindex

/-! ## Lexicographic order -/

/-- `y` is smaller than every word that begins with `p`, or begins with `p` itself. -/
def ltOrPre : List Nat → List Nat → Bool
  | [], _ => true
  | _ :: _, [] => true
  | p :: ps, y :: ys => decide (y < p) || (y == p && ltOrPre ps ys)

theorem lexLt_irrefl (x : List Nat) : lexLt x x = false := by
  induction x with
  | nil => rfl
  | cons a x ih => simp [lexLt, ih]

theorem lexLt_nil (x : List Nat) : lexLt x [] = false := by cases x <;> rfl

theorem lexLt_trans : ∀ (x y z : List Nat), lexLt x y = true → lexLt y z = true → lexLt x z = true
  | x, y, [], _, h2 => by simp [lexLt_nil] at h2
  | x, [], c :: z, h1, _ => by simp [lexLt_nil] at h1
  | [], b :: y, c :: z, _, _ => rfl
  | a :: x, b :: y, c :: z, h1, h2 => by
    have ih := lexLt_trans x y z
    simp only [lexLt, Bool.or_eq_true, decide_eq_true_eq, Bool.and_eq_true, beq_iff_eq] at *
    rcases h1 with h1 | ⟨h1, h1'⟩ <;> rcases h2 with h2 | ⟨h2, h2'⟩
    · left; omega
    · left; omega
    · left; omega
    · right; exact ⟨by omega, ih h1' h2'⟩

theorem ltOrPre_down : ∀ (p x y : List Nat), lexLt x y = true → ltOrPre p y = true → ltOrPre p x = true
  | [], _, _, _, _ => rfl
  | _ :: _, [], _, _, _ => rfl
  | p :: ps, a :: x, [], h1, _ => by simp [lexLt] at h1
  | p :: ps, a :: x, b :: y, h1, h2 => by
    have ih := ltOrPre_down ps x y
    simp only [lexLt, ltOrPre, Bool.or_eq_true, decide_eq_true_eq, Bool.and_eq_true, beq_iff_eq] at *
    rcases h1 with h1 | ⟨h1, h1'⟩ <;> rcases h2 with h2 | ⟨h2, h2'⟩
    · left; omega
    · left; omega
    · left; omega
    · right; exact ⟨by omega, ih h1' h2'⟩

theorem ltOrPre_iff : ∀ (p y : List Nat),
    (ltOrPre p y = true ↔ lexLt y p = true ∨ p.isPrefixOf y = true) ∧
      ¬ (lexLt y p = true ∧ p.isPrefixOf y = true)
  | [], y => by simp [ltOrPre, lexLt_nil]
  | _ :: _, [] => by simp [ltOrPre, lexLt]
  | p :: ps, a :: y => by
    have ih := ltOrPre_iff ps y
    simp only [lexLt, ltOrPre, List.isPrefixOf, Bool.or_eq_true, decide_eq_true_eq, Bool.and_eq_true, beq_iff_eq] at *
    obtain ⟨h1, h2⟩ := ih
    rw [h1]
    constructor
    · constructor
      · rintro (h | ⟨h, h' | h'⟩)
        · left; left; exact h
        · left; right; exact ⟨h, h'⟩
        · right; exact ⟨h.symm, h'⟩
      · rintro ((h | ⟨h, h'⟩) | ⟨h, h'⟩)
        · left; exact h
        · right; exact ⟨h, Or.inl h'⟩
        · right; exact ⟨h.symm, Or.inr h'⟩
    · rintro ⟨h | ⟨h, h'⟩, h3, h4⟩
      · omega
      · exact h2 ⟨h', h4⟩

/-! ## Rows -/

/-- Number of positions whose suffix satisfies `Q`. -/
def cntSuf (v : List Nat) (Q : List Nat → Bool) : Nat := (List.range v.length).countP fun j => Q (v.drop j)

/-- First row of the words beginning with `p`. -/
def lo (v p : List Nat) : Nat := cntSuf v fun y => lexLt y p
/-- One behind the last row. -/
def hi (v p : List Nat) : Nat := cntSuf v (ltOrPre p)

theorem lo_nil (v : List Nat) : lo v [] = 0 := by
  simp [lo, cntSuf, lexLt_nil]

theorem hi_nil (v : List Nat) : hi v [] = v.length := by
  simp [hi, cntSuf, ltOrPre]

theorem hi_eq (v p : List Nat) : hi v p = lo v p + occurrences v p := by
  rw [hi, lo, occurrences, cntSuf, cntSuf]
  apply Verif.Wavelet.countP_or
  intro j _
  exact ltOrPre_iff p (v.drop j)

/-- The last column. -/
def bwtAt (v : List Nat) (j : Nat) : Nat := if j > 0 then v.getD (j - 1) 0 else v.getD (v.length - 1) 0

section
variable {v sa : List Nat}

theorem rows_lt (hs : IsSuffixArray v sa) (Q : List Nat → Bool)
    (hQ : ∀ x y, lexLt x y = true → Q y = true → Q x = true) :
    sa.Pairwise fun a b => Q (v.drop b) = true → Q (v.drop a) = true :=
  hs.sorted.imp fun h => hQ _ _ h

theorem cnt_sa (hs : IsSuffixArray v sa) (Q : List Nat → Bool) :
    sa.countP (fun j => Q (v.drop j)) = cntSuf v Q := hs.perm.countP_eq _

/-- Backward step.  `Qc` is the predicate for the longer word. -/
theorem step (hs : IsSuffixArray v sa) (h0 : 0 < v.length) (hlast : v.getD (v.length - 1) 0 = 0)
    (Q Qc : List Nat → Bool) (hQ : ∀ x y, lexLt x y = true → Q y = true → Q x = true) {c : Nat} (hc : c ≠ 0)
    (hQc : ∀ x xs, Qc (x :: xs) = (decide (x < c) || (x == c && Q xs))) :
    cntSuf v Qc = v.countP (fun x => decide (x < c)) +
      Verif.Spec.Wavelet.countOf (sa.map (bwtAt v)) c (cntSuf v Q) := by
  have hA : cntSuf v Qc = (List.range v.length).countP (fun j => decide (v.getD j 0 < c)) +
      (List.range v.length).countP (fun j => v.getD j 0 == c && Q (v.drop (j + 1))) := by
    rw [cntSuf]
    apply Verif.Wavelet.countP_or
    intro j hj
    rw [List.mem_range] at hj
    rw [List.drop_eq_getElem_cons hj, hQc]
    simp only [List.getD_eq_getElem?_getD, List.getElem?_eq_getElem hj, Option.getD_some, Bool.or_eq_true,
      decide_eq_true_eq, Bool.and_eq_true, beq_iff_eq, List.drop_eq_getElem_cons hj]
    refine ⟨trivial, ?_⟩
    rintro ⟨h1, h2, _⟩; omega
  have hB : (List.range v.length).countP (fun j => decide (v.getD j 0 < c)) = v.countP (fun x => decide (x < c)) := by
    have : v = (List.range v.length).map fun j => v.getD j 0 := by
      apply List.ext_getElem
      · simp
      · intro i h1 h2; simp [h1]
    conv => rhs; rw [this]
    rw [List.countP_map]; rfl
  rw [hA, hB]
  congr 1
  rw [Verif.Spec.Wavelet.countOf, ← List.map_take, ← cnt_sa hs, take_countP (rows_lt hs Q hQ), List.count,
    List.countP_map, List.countP_filter, hs.perm.countP_eq]
  obtain ⟨n, hn⟩ : ∃ n, v.length = n + 1 := ⟨v.length - 1, by omega⟩
  rw [hn]
  conv => lhs; rw [List.range_succ, List.countP_append]
  conv => rhs; rw [List.range_succ_eq_map, List.countP_cons, List.countP_map]
  have e1 : v.getD n 0 = 0 := by rw [hn] at hlast; simpa using hlast
  have e2 : bwtAt v 0 = 0 := by rw [bwtAt]; simpa using hlast
  have e3 : (0 == c) = false := by simp; omega
  have e4 : List.countP (fun j => v.getD j 0 == c && Q (List.drop (j + 1) v)) [n] = 0 := by
    simp only [List.countP_cons, List.countP_nil, e1, e3, Bool.false_and]; rfl
  rw [e4]
  simp only [Function.comp, e2, e3, Bool.false_and, Bool.and_false, Bool.false_eq_true, if_false, Nat.add_zero]
  apply List.countP_congr
  intro j _
  simp [bwtAt, Bool.and_comm, and_comm]

theorem lo_cons (hs : IsSuffixArray v sa) (h0 : 0 < v.length) (hlast : v.getD (v.length - 1) 0 = 0)
    {c : Nat} (hc : c ≠ 0) (p : List Nat) :
    lo v (c :: p) = v.countP (fun x => decide (x < c)) +
      Verif.Spec.Wavelet.countOf (sa.map (bwtAt v)) c (lo v p) :=
  step hs h0 hlast (fun y => lexLt y p) (fun y => lexLt y (c :: p)) (fun x y h1 h2 => lexLt_trans x y p h1 h2) hc
    (fun _ _ => rfl)

theorem hi_cons (hs : IsSuffixArray v sa) (h0 : 0 < v.length) (hlast : v.getD (v.length - 1) 0 = 0)
    {c : Nat} (hc : c ≠ 0) (p : List Nat) :
    hi v (c :: p) = v.countP (fun x => decide (x < c)) +
      Verif.Spec.Wavelet.countOf (sa.map (bwtAt v)) c (hi v p) :=
  step hs h0 hlast (ltOrPre p) (ltOrPre (c :: p)) (ltOrPre_down p) hc (fun _ _ => rfl)

theorem sa_lt (hs : IsSuffixArray v sa) {i : Nat} (hi : i < sa.length) : sa[i] < v.length :=
  List.mem_range.mp (hs.perm.mem_iff.mp (List.getElem_mem hi))

theorem sa_length (hs : IsSuffixArray v sa) : sa.length = v.length := by
  rw [hs.perm.length_eq, List.length_range]

theorem sorted_getElem (hs : IsSuffixArray v sa) {i j : Nat} (hi : i < sa.length) (hj : j < sa.length) (h : i < j) :
    lexLt (v.drop sa[i]) (v.drop sa[j]) = true := List.pairwise_iff_getElem.mp hs.sorted i j hi hj h

/-- A row satisfying `Q` is one of the first `cntSuf v Q`. -/
theorem row_iff (hs : IsSuffixArray v sa) (Q : List Nat → Bool)
    (hQ : ∀ x y, lexLt x y = true → Q y = true → Q x = true) {i : Nat} (hi : i < sa.length) :
    i < cntSuf v Q ↔ Q (v.drop sa[i]) = true := by
  rw [← cnt_sa hs, lt_countP_iff (rows_lt hs Q hQ) hi]

/-- The row of a suffix is the number of smaller ones. -/
theorem lo_row (hs : IsSuffixArray v sa) {i : Nat} (h : i < sa.length) : lo v (v.drop sa[i]) = i := by
  have key : ∀ k, k < sa.length → (k < lo v (v.drop sa[i]) ↔ k < i) := by
    intro k hk
    rw [lo, row_iff hs (fun y => lexLt y (v.drop sa[i])) (fun x y h1 h2 => lexLt_trans x y _ h1 h2) hk]
    constructor
    · intro hlt
      apply Nat.lt_of_not_le
      intro hle
      rcases Nat.lt_or_eq_of_le hle with hl | hl
      · have := lexLt_trans _ _ _ (sorted_getElem hs h hk hl) hlt
        simp [lexLt_irrefl] at this
      · subst hl; simp [lexLt_irrefl] at hlt
    · intro hlt; exact sorted_getElem hs hk h hlt
  have h1 := key i h
  have hle : lo v (v.drop sa[i]) ≤ i := by omega
  rcases Nat.eq_zero_or_pos i with h2 | h2
  · omega
  · have h3 := key (i - 1) (by omega)
    omega

/-- The rows of a word are those between `lo` and `hi`. -/
theorem range_iff (hs : IsSuffixArray v sa) (p : List Nat) {i : Nat} (h : i < sa.length) :
    (lo v p ≤ i ∧ i < hi v p) ↔ p.isPrefixOf (v.drop sa[i]) = true := by
  have h1 := row_iff hs (fun y => lexLt y p) (fun x y h1 h2 => lexLt_trans x y p h1 h2) h
  have h2 := row_iff hs (ltOrPre p) (ltOrPre_down p) h
  have h3 := ltOrPre_iff p (v.drop sa[i])
  rw [lo, hi]
  rw [h2, h3.1, ← Nat.not_lt, h1]
  constructor
  · rintro ⟨h4, h5 | h5⟩
    · exact absurd h5 h4
    · exact h5
  · intro h5
    exact ⟨fun h4 => h3.2 ⟨h4, h5⟩, Or.inr h5⟩

theorem hi_le (v p : List Nat) : hi v p ≤ v.length := by
  rw [hi, cntSuf]
  exact Nat.le_trans List.countP_le_length (by simp)

/-- The last-to-first step. -/
theorem lf_row (hs : IsSuffixArray v sa) (hlast : v.getD (v.length - 1) 0 = 0)
    {i : Nat} (h : i < sa.length) {j : Nat} (hj : sa[i] = j + 1) (hc : v.getD j 0 ≠ 0) :
    ∃ i', ∃ h' : i' < sa.length, sa[i'] = j ∧
      i' = v.countP (fun x => decide (x < v.getD j 0)) +
        Verif.Spec.Wavelet.countOf (sa.map (bwtAt v)) (v.getD j 0) i := by
  have hlt := sa_lt hs h
  have hmem : j ∈ sa := hs.perm.mem_iff.mpr (List.mem_range.mpr (by omega))
  obtain ⟨i', h', e⟩ := List.mem_iff_getElem.mp hmem
  refine ⟨i', h', e, ?_⟩
  have hd : v.drop j = v.getD j 0 :: v.drop (j + 1) := by
    rw [List.drop_eq_getElem_cons (by omega)]
    rw [List.getD_eq_getElem?_getD, List.getElem?_eq_getElem (by omega), Option.getD_some]
  have h1 := lo_row hs h'
  rw [e, hd, lo_cons hs (by omega) hlast hc, ← hj, lo_row hs h] at h1
  exact h1.symm

end

/-! ## The terminator -/

theorem prefix_term {t key : List Nat} (hk : ∀ c ∈ key, c ≠ 0) :
    key.isPrefixOf (t ++ [0]) = key.isPrefixOf t := by
  induction key generalizing t with
  | nil => simp
  | cons c key ih =>
    cases t with
    | nil =>
      have : c ≠ 0 := hk c (by simp)
      simp [List.isPrefixOf, this]
    | cons x t =>
      simp only [List.cons_append, List.isPrefixOf]
      rw [ih (fun c hc => hk c (by simp [hc]))]

theorem occurrences_term {t key : List Nat} (hk : ∀ c ∈ key, c ≠ 0) (hne : key ≠ []) :
    occurrences (t ++ [0]) key = occurrences t key := by
  rw [occurrences, occurrences, List.length_append, List.length_singleton, List.range_succ, List.countP_append]
  have : ∀ p, p ≤ t.length → key.isPrefixOf ((t ++ [0]).drop p) = key.isPrefixOf (t.drop p) := by
    intro p hp
    rw [List.drop_append_of_le_length hp, prefix_term hk]
  rw [List.countP_cons, this t.length (Nat.le_refl _)]
  have h0 : key.isPrefixOf (t.drop t.length) = false := by
    rw [List.drop_length]; cases key with
    | nil => exact absurd rfl hne
    | cons => rfl
  simp only [h0, List.countP_nil, Bool.false_eq_true, if_false, Nat.add_zero]
  apply List.countP_congr
  intro p hp
  rw [this p (by have := List.mem_range.mp hp; omega)]

/-- A coding that is injective on the text keeps occurrences. -/
theorem prefix_map {t key : List Nat} (f : Nat → Nat) (hf : ∀ a ∈ key, ∀ b ∈ t, f a = f b → a = b) :
    (key.map f).isPrefixOf (t.map f) = key.isPrefixOf t := by
  induction key generalizing t with
  | nil => simp
  | cons c key ih =>
    cases t with
    | nil => rfl
    | cons x t =>
      simp only [List.map_cons, List.isPrefixOf]
      rw [ih (fun a ha b hb => hf a (by simp [ha]) b (by simp [hb]))]
      congr 1
      rw [Bool.eq_iff_iff, beq_iff_eq, beq_iff_eq]
      exact ⟨hf c (by simp) x (by simp), fun h => by rw [h]⟩

theorem occurrences_map {t key : List Nat} (f : Nat → Nat) (hf : ∀ a ∈ key, ∀ b ∈ t, f a = f b → a = b) :
    occurrences (t.map f) (key.map f) = occurrences t key := by
  rw [occurrences, occurrences, List.length_map]
  apply List.countP_congr
  intro p _
  rw [← List.map_drop, prefix_map f fun a ha b hb => hf a ha b (List.mem_of_mem_drop hb)]

end Verif.FMindex
