import Verif.Model.UFind
import Verif.Spec.UFind
import Verif.Proof.Utf

/-! Lemmas about searches and about the UTF-8 form of a sequence. -/
set_option linter.unusedSimpArgs false
namespace Verif.UFind
open Verif.Spec.UFind Verif.Spec.Utf Verif.Utf

theorem occurs_iff {key s : List Nat} {p : Nat} : Occurs key s p ↔ p ≤ s.length ∧ key <+: s.drop p := by
  constructor
  · rintro ⟨a, b, rfl, rfl⟩
    refine ⟨by simp, ⟨b, ?_⟩⟩
    simp [List.append_assoc]
  · rintro ⟨h, b, e⟩
    refine ⟨s.take p, b, ?_, by simp; omega⟩
    rw [List.append_assoc, e, List.take_append_drop]

theorem first_unique {P : Nat → Prop} {off : Nat} {a b : Option Nat} (ha : IsFirst P off a) (hb : IsFirst P off b) : a = b := by
  cases a with
  | none => cases b with
    | none => rfl
    | some q => exact absurd hb.2.1 (ha q hb.1)
  | some x => cases b with
    | none => exact absurd ha.2.1 (hb x ha.1)
    | some y =>
      rcases Nat.lt_trichotomy x y with h | h | h
      · exact absurd ha.2.1 (hb.2.2 x ha.1 h)
      · rw [h]
      · exact absurd hb.2.1 (ha.2.2 y hb.1 h)

theorem last_unique {P : Nat → Prop} {off : Nat} {a b : Option Nat} (ha : IsLast P off a) (hb : IsLast P off b) : a = b := by
  cases a with
  | none => cases b with
    | none => rfl
    | some q => exact absurd hb.2.1 (ha q hb.1)
  | some x => cases b with
    | none => exact absurd ha.2.1 (hb x ha.1)
    | some y =>
      rcases Nat.lt_trichotomy x y with h | h | h
      · exact absurd hb.2.1 (ha.2.2 y hb.1 h)
      · rw [h]
      · exact absurd ha.2.1 (hb.2.2 x ha.1 h)

theorem isFirst_congr {P Q : Nat → Prop} {off : Nat} {r : Option Nat} (h : ∀ p, P p ↔ Q p) (hr : IsFirst P off r) : IsFirst Q off r := by
  have : P = Q := funext fun p => propext (h p)
  rw [← this]; exact hr

theorem findLoop_first (key : List Nat) : ∀ (t : List Nat) (p : Nat),
    IsFirst (fun i => p ≤ i ∧ i ≤ p + t.length ∧ key <+: t.drop (i - p)) p (findLoop key t p)
  | [], p => by
    rw [findLoop]
    cases key with
    | nil => simp only [List.isEmpty_nil, if_true]; exact ⟨Nat.le_refl _, ⟨Nat.le_refl _, by simp, by simp⟩, fun i h1 h2 => by omega⟩
    | cons k ks =>
      simp only [List.isEmpty_cons, Bool.false_eq_true, if_false]
      rintro i _ ⟨_, _, h⟩
      simp at h
  | c :: s, p => by
    rw [findLoop]
    split
    · rename_i h
      exact ⟨Nat.le_refl _, ⟨Nat.le_refl _, by simp, by simpa using h⟩, fun i h1 h2 => by omega⟩
    · rename_i h
      have ih := findLoop_first key s (p + 1)
      have h0 : ¬ key <+: (c :: s) := by simpa using h
      have shift : ∀ i, p + 1 ≤ i → (c :: s).drop (i - p) = s.drop (i - (p + 1)) := by
        intro i hi
        rw [show i - p = (i - (p + 1)) + 1 by omega, List.drop_succ_cons]
      cases hr : findLoop key s (p + 1) with
      | none =>
        rw [hr] at ih
        rintro i hi ⟨_, hl, hp⟩
        by_cases e : i = p
        · subst e; simp at hp; exact h0 hp
        · simp only [List.length_cons] at hl
          exact ih i (by omega) ⟨by omega, by omega, by rw [← shift i (by omega)]; exact hp⟩
      | some q =>
        rw [hr] at ih
        obtain ⟨a1, ⟨a2, a3, a4⟩, a5⟩ := ih
        refine ⟨by omega, ⟨by omega, by simp only [List.length_cons]; omega, by rw [shift q a1]; exact a4⟩, ?_⟩
        rintro i hi hq ⟨_, hl, hp⟩
        by_cases e : i = p
        · subst e; simp at hp; exact h0 hp
        · simp only [List.length_cons] at hl
          exact a5 i (by omega) hq ⟨by omega, by omega, by rw [← shift i (by omega)]; exact hp⟩

theorem isFirst_on {P Q : Nat → Prop} {off : Nat} {r : Option Nat} (h : ∀ p, off ≤ p → (P p ↔ Q p)) (hr : IsFirst P off r) :
    IsFirst Q off r := by
  cases r with
  | none => exact fun p hp hq => hr p hp ((h p hp).2 hq)
  | some q => exact ⟨hr.1, (h q hr.1).1 hr.2.1, fun p hp hpq hq => hr.2.2 p hp hpq ((h p hp).2 hq)⟩

theorem find_first (s key : List Nat) (off : Nat) : IsFirst (Occurs key s) off (find s key off) := by
  rw [find]
  split
  · rename_i h
    intro p hp ho
    have := (occurs_iff.1 ho).1
    omega
  · rename_i h
    refine isFirst_on ?_ (findLoop_first key (s.drop off) off)
    intro p hp
    rw [occurs_iff, List.length_drop, List.drop_drop, show off + (p - off) = p by omega]
    constructor
    · rintro ⟨_, a, b⟩; exact ⟨by omega, b⟩
    · rintro ⟨a, b⟩; exact ⟨hp, by omega, b⟩

theorem rfindLoop_last (s key : List Nat) : ∀ p, IsLast (fun i => key <+: s.drop i) p (rfindLoop s key p)
  | 0 => by
    rw [rfindLoop]
    split
    · rename_i h; exact ⟨Nat.le_refl _, by simpa using h, fun i h1 h2 => by omega⟩
    · rename_i h
      intro i hi hp
      rw [show i = 0 by omega] at hp
      simp at hp
      exact h (by simpa using hp)
  | p + 1 => by
    rw [rfindLoop]
    split
    · rename_i h; exact ⟨Nat.le_refl _, by simpa using h, fun i h1 h2 => by omega⟩
    · rename_i h
      have h0 : ¬ key <+: s.drop (p + 1) := by simpa using h
      have ih := rfindLoop_last s key p
      cases hr : rfindLoop s key p with
      | none =>
        rw [hr] at ih
        intro i hi hp
        by_cases e : i = p + 1
        · subst e; exact h0 hp
        · exact ih i (by omega) hp
      | some q =>
        rw [hr] at ih
        refine ⟨by have := ih.1; omega, ih.2.1, fun i hi hq hp => ?_⟩
        by_cases e : i = p + 1
        · subst e; exact h0 hp
        · exact ih.2.2 i (by omega) hq hp

theorem occurs_le {key s : List Nat} {p : Nat} (h : Occurs key s p) : p + key.length ≤ s.length := by
  obtain ⟨a, b, rfl, rfl⟩ := h
  simp

theorem rfind_last (s key : List Nat) (off : Nat) : IsLast (Occurs key s) off (rfind s key off) := by
  rw [rfind]
  split
  · rename_i h
    intro p hp ho
    have := occurs_le ho
    omega
  · rename_i h
    have := rfindLoop_last s key (min (s.length - key.length) off)
    cases hr : rfindLoop s key (min (s.length - key.length) off) with
    | none =>
      rw [hr] at this
      intro p hp ho
      have hl := occurs_le ho
      exact this p (by omega) (occurs_iff.1 ho).2
    | some q =>
      rw [hr] at this
      have h1 := this.1
      refine ⟨by omega, occurs_iff.2 ⟨by omega, this.2.1⟩, fun p hp hq ho => ?_⟩
      have hl := occurs_le ho
      exact this.2.2 p (by omega) hq (occurs_iff.1 ho).2

theorem scan_first (test : Nat → Bool) : ∀ (t : List Nat) (p : Nat),
    IsFirst (fun i => ∃ c, t[i - p]? = some c ∧ test c = true) p (scan test t p)
  | [], p => by rw [scan]; rintro i _ ⟨c, h, _⟩; simp at h
  | c :: s, p => by
    rw [scan]
    split
    · rename_i h
      exact ⟨Nat.le_refl _, ⟨c, by simp, h⟩, fun i h1 h2 => by omega⟩
    · rename_i h
      have ih := scan_first test s (p + 1)
      have key : ∀ i, p ≤ i → (∃ d, (c :: s)[i - p]? = some d ∧ test d = true) →
          p + 1 ≤ i ∧ ∃ d, s[i - (p + 1)]? = some d ∧ test d = true := by
        rintro i hi ⟨d, e, t⟩
        by_cases e0 : i = p
        · subst e0; simp at e; subst e; exact absurd t h
        · rw [show i - p = (i - (p + 1)) + 1 by omega, List.getElem?_cons_succ] at e
          exact ⟨by omega, d, e, t⟩
      cases hr : scan test s (p + 1) with
      | none =>
        rw [hr] at ih
        intro i hi hx
        obtain ⟨a, b⟩ := key i hi hx
        exact ih i a b
      | some q =>
        rw [hr] at ih
        obtain ⟨a1, ⟨d, a2, a3⟩, a5⟩ := ih
        refine ⟨by omega, ⟨d, by rw [show q - p = (q - (p + 1)) + 1 by omega, List.getElem?_cons_succ]; exact a2, a3⟩, ?_⟩
        intro i hi hq hx
        obtain ⟨a, b⟩ := key i hi hx
        exact a5 i a hq b

theorem scan_drop (test : Nat → Bool) (s : List Nat) (off : Nat) :
    IsFirst (fun i => ∃ c, s[i]? = some c ∧ test c = true) off (scan test (s.drop off) off) := by
  refine isFirst_on ?_ (scan_first test (s.drop off) off)
  intro p hp
  rw [List.getElem?_drop, show off + (p - off) = p by omega]

theorem scanDown_spec (test : Nat → Bool) (s : List Nat) : ∀ n, (match scanDown test s n with
    | none => ∀ p, p < n → ¬ ∃ c, s[p]? = some c ∧ test c = true
    | some q => q < n ∧ (∃ c, s[q]? = some c ∧ test c = true) ∧ ∀ p, p < n → q < p → ¬ ∃ c, s[p]? = some c ∧ test c = true)
  | 0 => by rw [scanDown]; intro p hp; omega
  | n + 1 => by
    rw [scanDown]
    by_cases h : (s[n]?.map test).getD false = true
    · rw [if_pos h]
      refine ⟨by omega, ?_, fun p h1 h2 => by omega⟩
      cases e : s[n]? with
      | none => rw [e] at h; simp at h
      | some c => rw [e] at h; exact ⟨c, rfl, by simpa using h⟩
    · rw [if_neg h]
      have h0 : ¬ ∃ c, s[n]? = some c ∧ test c = true := by
        rintro ⟨c, e, t⟩
        rw [e] at h
        exact h (by simpa using t)
      have ih := scanDown_spec test s n
      cases hr : scanDown test s n with
      | none =>
        rw [hr] at ih
        intro p hp
        by_cases e : p = n
        · subst e; exact h0
        · exact ih p (by omega)
      | some q =>
        rw [hr] at ih
        refine ⟨by have := ih.1; omega, ih.2.1, fun p hp hq => ?_⟩
        by_cases e : p = n
        · subst e; exact h0
        · exact ih.2.2 p (by omega) hq

theorem scanDown_last (test : Nat → Bool) (s : List Nat) (off : Nat) :
    IsLast (fun i => ∃ c, s[i]? = some c ∧ test c = true) off (scanDown test s (min s.length (off + 1))) := by
  have h := scanDown_spec test s (min s.length (off + 1))
  have lt : ∀ p, (∃ c, s[p]? = some c ∧ test c = true) → p < s.length := by
    rintro p ⟨c, e, _⟩
    exact (List.getElem?_eq_some_iff.1 e).1
  cases hr : scanDown test s (min s.length (off + 1)) with
  | none =>
    rw [hr] at h
    intro p hp hx
    exact h p (by have := lt p hx; omega) hx
  | some q =>
    rw [hr] at h
    have h1 := h.1
    exact ⟨by omega, h.2.1, fun p hp hq hx => h.2.2 p (by have := lt p hx; omega) hq hx⟩

/-! ### The UTF-8 form -/

theorem utf8s_app (a b : List Nat) : utf8s (a ++ b) = utf8s a ++ utf8s b := by simp [utf8s]

theorem utf8s_c (c : Nat) (cs : List Nat) : utf8s (c :: cs) = utf8 c ++ utf8s cs := by simp [utf8s]

/-- The first byte of a character is no continuation byte, all the others are. -/
theorem utf8_shape (c : Nat) (h : Scalar c) :
    ∃ b t, utf8 c = b :: t ∧ ¬ (0x80 ≤ b ∧ b ≤ 0xBF) ∧ ∀ x ∈ t, 0x80 ≤ x ∧ x ≤ 0xBF := by
  obtain ⟨h1, h2⟩ := h
  rw [utf8]
  repeat' split
  all_goals
    refine ⟨_, _, rfl, ?_, ?_⟩
  all_goals first
    | omega
    | (simp only [List.mem_cons, List.not_mem_nil, or_false, forall_eq_or_imp, forall_eq, false_implies, implies_true]; try omega)

theorem utf8_head (c d : Nat) (hc : Scalar c) (hd : Scalar d) (r r' : List Nat) (h : utf8 c ++ r = utf8 d ++ r') : c = d ∧ r = r' := by
  have h1 := decode_utf8 c hc r
  rw [h, decode_utf8 d hd r'] at h1
  simp at h1
  exact ⟨by omega, h1.2.symm⟩

theorem prefix_utf8 : ∀ (key cs : List Nat), (∀ c ∈ key, Scalar c) → (∀ c ∈ cs, Scalar c) → (utf8s key <+: utf8s cs ↔ key <+: cs)
  | [], cs, _, _ => by simp [utf8s]
  | k :: ks, [], _, _ => by
    obtain ⟨b, t, e⟩ := List.exists_cons_of_ne_nil (utf8_ne_nil k)
    simp [utf8s, e]
  | k :: ks, c :: cs, hk, hc => by
    have ih := prefix_utf8 ks cs (fun x hx => hk x (List.mem_cons_of_mem _ hx)) (fun x hx => hc x (List.mem_cons_of_mem _ hx))
    rw [utf8s_c, utf8s_c, List.cons_prefix_cons, ← ih]
    constructor
    · rintro ⟨t, e⟩
      rw [List.append_assoc] at e
      obtain ⟨e1, e2⟩ := utf8_head k c (hk k (by simp)) (hc c (by simp)) _ _ e
      exact ⟨e1, t, e2⟩
    · rintro ⟨rfl, t, e⟩
      exact ⟨t, by rw [List.append_assoc, e]⟩

theorem bytePos_zero (cs : List Nat) : bytePos cs 0 = 0 := by simp [bytePos, utf8s]

theorem bytePos_succ (c : Nat) (cs : List Nat) (i : Nat) : bytePos (c :: cs) (i + 1) = (utf8 c).length + bytePos cs i := by
  rw [bytePos, List.take_succ_cons, utf8s_c, List.length_append, bytePos]

theorem drop_bytePos : ∀ (cs : List Nat) (i : Nat), (utf8s cs).drop (bytePos cs i) = utf8s (cs.drop i)
  | [], i => by simp [bytePos, utf8s]
  | c :: cs, 0 => by rw [bytePos_zero]; rfl
  | c :: cs, i + 1 => by
    rw [bytePos_succ, utf8s_c, ← List.drop_drop, List.drop_left, drop_bytePos cs i, List.drop_succ_cons]

theorem take_bytePos : ∀ (cs : List Nat) (i : Nat), (utf8s cs).take (bytePos cs i) = utf8s (cs.take i)
  | [], i => by simp [bytePos, utf8s]
  | c :: cs, 0 => by rw [bytePos_zero]; simp [utf8s]
  | c :: cs, i + 1 => by
    rw [bytePos_succ, utf8s_c, List.take_length_add_append, take_bytePos cs i, List.take_succ_cons, utf8s_c]

theorem bytePos_mono (cs : List Nat) {i j : Nat} (h : i ≤ j) : bytePos cs i ≤ bytePos cs j := by
  have e : cs.take j = cs.take i ++ (cs.take j).drop i := by
    have := List.take_append_drop i (cs.take j)
    rw [List.take_take, Nat.min_eq_left h] at this
    exact this.symm
  rw [bytePos, bytePos, e, utf8s_app]
  simp

theorem bytePos_lt : ∀ (cs : List Nat) (i j : Nat), i < j → j ≤ cs.length → bytePos cs i < bytePos cs j
  | [], i, j, h, hl => by simp at hl; omega
  | c :: cs, 0, j + 1, _, _ => by
    rw [bytePos_zero, bytePos_succ]
    have := List.length_pos_iff.2 (utf8_ne_nil c)
    omega
  | c :: cs, i + 1, j + 1, h, hl => by
    rw [bytePos_succ, bytePos_succ]
    have := bytePos_lt cs i j (by omega) (by simpa using hl)
    omega

theorem bytePos_le (cs : List Nat) (i : Nat) : bytePos cs i ≤ (utf8s cs).length := by
  have h := bytePos_mono cs (i := min i cs.length) (j := cs.length) (by omega)
  have e : bytePos cs cs.length = (utf8s cs).length := by rw [bytePos, List.take_length]
  have e2 : bytePos cs (min i cs.length) = bytePos cs i := by
    rw [bytePos, bytePos]
    by_cases c : i ≤ cs.length
    · rw [Nat.min_eq_left c]
    · rw [Nat.min_eq_right (by omega), List.take_length, List.take_of_length_le (by omega)]
  omega

theorem bytePos_inj {cs : List Nat} {i j : Nat} (hi : i ≤ cs.length) (hj : j ≤ cs.length) (h : bytePos cs i = bytePos cs j) : i = j := by
  rcases Nat.lt_trichotomy i j with l | l | l
  · have := bytePos_lt cs i j l hj; omega
  · exact l
  · have := bytePos_lt cs j i l hi; omega

/-- A byte that is no continuation byte starts a character. -/
theorem aligned : ∀ (cs : List Nat), (∀ c ∈ cs, Scalar c) → ∀ (p b : Nat), (utf8s cs)[p]? = some b → ¬ (0x80 ≤ b ∧ b ≤ 0xBF) →
    ∃ i, i < cs.length ∧ p = bytePos cs i
  | [], _, p, b, h, _ => by simp [utf8s] at h
  | c :: cs, hc, p, b, h, hb => by
    obtain ⟨x, t, e, _, ht⟩ := utf8_shape c (hc c (by simp))
    by_cases hp : p < (utf8 c).length
    · cases p with
      | zero => exact ⟨0, by simp, by rw [bytePos_zero]⟩
      | succ p =>
        rw [utf8s_c, List.getElem?_append_left hp, e, List.getElem?_cons_succ] at h
        exact absurd (ht b (List.mem_of_getElem? h)) hb
    · rw [utf8s_c, List.getElem?_append_right (by omega)] at h
      obtain ⟨i, hi, e2⟩ := aligned cs (fun x hx => hc x (List.mem_cons_of_mem _ hx)) _ b h hb
      exact ⟨i + 1, by simpa using hi, by rw [bytePos_succ]; omega⟩

theorem sync (key cs : List Nat) (hk : ∀ c ∈ key, Scalar c) (hc : ∀ c ∈ cs, Scalar c) (hne : key ≠ []) (p : Nat) :
    Occurs (utf8s key) (utf8s cs) p ↔ ∃ i, p = bytePos cs i ∧ Occurs key cs i := by
  have sub : ∀ i, ∀ c ∈ cs.drop i, Scalar c := fun i c h => hc c (List.mem_of_mem_drop h)
  constructor
  · intro h
    have h' := occurs_iff.1 h
    obtain ⟨k, ks, rfl⟩ := List.exists_cons_of_ne_nil hne
    obtain ⟨b, t, e, hb, _⟩ := utf8_shape k (hk k (by simp))
    obtain ⟨r, er⟩ := h'.2
    have hb0 : (utf8s cs)[p]? = some b := by
      have : ((utf8s cs).drop p)[0]? = some b := by rw [← er, utf8s_c, e]; rfl
      rwa [List.getElem?_drop, Nat.add_zero] at this
    obtain ⟨i, hi, rfl⟩ := aligned cs hc p b hb0 hb
    refine ⟨i, rfl, occurs_iff.2 ⟨by omega, ?_⟩⟩
    rw [drop_bytePos] at h'
    exact (prefix_utf8 _ _ hk (sub i)).1 h'.2
  · rintro ⟨i, rfl, h⟩
    have h' := occurs_iff.1 h
    refine occurs_iff.2 ⟨bytePos_le _ _, ?_⟩
    rw [drop_bytePos]
    exact (prefix_utf8 _ _ hk (sub i)).2 h'.2

theorem bytePos_lt' {cs : List Nat} {i j : Nat} (h : i < j) (hi : i < cs.length) : bytePos cs i < bytePos cs j := by
  have h1 := bytePos_lt cs i (i + 1) (by omega) (by omega)
  have h2 := bytePos_mono cs (i := i + 1) (j := j) (by omega)
  omega

/-- A search for the first position carries over to bytes. -/
theorem first_map {P Q : Nat → Prop} {cs : List Nat} (hP : ∀ i, P i → i < cs.length) (hQ : ∀ p, Q p ↔ ∃ i, p = bytePos cs i ∧ P i)
    {off : Nat} {r : Option Nat} (h : IsFirst P off r) : IsFirst Q (bytePos cs off) (r.map (bytePos cs)) := by
  have up : ∀ i, P i → bytePos cs off ≤ bytePos cs i → off ≤ i := by
    intro i hi hle
    refine Nat.le_of_not_lt fun c => ?_
    have := bytePos_lt' c (hP i hi)
    omega
  cases r with
  | none =>
    intro p hp hq
    obtain ⟨i, rfl, hi⟩ := (hQ p).1 hq
    exact h i (up i hi hp) hi
  | some q =>
    refine ⟨bytePos_mono cs h.1, (hQ _).2 ⟨q, rfl, h.2.1⟩, fun p hp hpq hq => ?_⟩
    obtain ⟨i, rfl, hi⟩ := (hQ p).1 hq
    refine h.2.2 i (up i hi hp) (Nat.lt_of_not_le fun c => ?_) hi
    have := bytePos_mono cs c
    omega

/-- A search for the last position carries over to bytes. -/
theorem last_map {P Q : Nat → Prop} {cs : List Nat} (hP : ∀ i, P i → i < cs.length) (hQ : ∀ p, Q p ↔ ∃ i, p = bytePos cs i ∧ P i)
    {off : Nat} {r : Option Nat} (h : IsLast P off r) : IsLast Q (bytePos cs off) (r.map (bytePos cs)) := by
  have down : ∀ i, P i → bytePos cs i ≤ bytePos cs off → i ≤ off := by
    intro i hi hle
    refine Nat.le_of_not_lt fun c => ?_
    have := bytePos_lt cs off i c (Nat.le_of_lt (hP i hi))
    omega
  cases r with
  | none =>
    intro p hp hq
    obtain ⟨i, rfl, hi⟩ := (hQ p).1 hq
    exact h i (down i hi hp) hi
  | some q =>
    refine ⟨bytePos_mono cs h.1, (hQ _).2 ⟨q, rfl, h.2.1⟩, fun p hp hpq hq => ?_⟩
    obtain ⟨i, rfl, hi⟩ := (hQ p).1 hq
    refine h.2.2 i (down i hi hp) (Nat.lt_of_not_le fun c => ?_) hi
    have := bytePos_mono cs c
    omega

theorem get_bytePos {cs : List Nat} {i : Nat} {c : Nat} (h : cs[i]? = some c) : (utf8s cs)[bytePos cs i]? = (utf8 c)[0]? := by
  obtain ⟨hi, e⟩ := List.getElem?_eq_some_iff.1 h
  have h1 : ((utf8s cs).drop (bytePos cs i))[0]? = (utf8 c)[0]? := by
    rw [drop_bytePos, List.drop_eq_getElem_cons hi, e, utf8s_c]
    obtain ⟨b, t, e2⟩ := List.exists_cons_of_ne_nil (utf8_ne_nil c)
    rw [e2]; rfl
  rwa [List.getElem?_drop, Nat.add_zero] at h1

theorem ascii_head {c b : Nat} (h : (utf8 c)[0]? = some b) (hb : b < 0x80) : c = b := by
  rw [utf8] at h
  split at h
  · simpa using h
  · split at h
    · simp at h; omega
    · split at h
      · simp at h; omega
      · simp at h; omega

theorem oneOf_ascii (cs set : List Nat) (hc : ∀ c ∈ cs, Scalar c) (hs : ∀ c ∈ set, c < 0x80) (p : Nat) :
    OneOf (utf8s cs) set p ↔ ∃ i, p = bytePos cs i ∧ OneOf cs set i := by
  constructor
  · rintro ⟨b, hb, hm⟩
    have hlt := hs b hm
    obtain ⟨i, hi, rfl⟩ := aligned cs hc p b hb (by omega)
    refine ⟨i, rfl, b, ?_, hm⟩
    have e : cs[i]? = some cs[i] := List.getElem?_eq_getElem hi
    rw [get_bytePos e] at hb
    rw [e, ascii_head hb hlt]
  · rintro ⟨i, rfl, c, e, hm⟩
    have := hs c hm
    exact ⟨c, by rw [get_bytePos e, utf8, if_pos (by omega)]; rfl, hm⟩

end Verif.UFind
