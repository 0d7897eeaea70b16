import Verif.Model.StringOp
import Verif.Spec.StringOp
import Verif.Proof.BitVector
set_option linter.unusedSimpArgs false

/-! Lemmas for C29, C30 and C31. -/
namespace Verif.StringOp
open Verif.Spec.StringOp
open Verif.BitVector (setAt? setAt?_ok)

section
variable {α : Type}

/-! ## Trim -/

theorem skipSpace_spec (sp : α → Bool) (s : List α) (e : Nat) (he : e ≤ s.length) (n : Nat) :
    ∀ b, e - b = n → b ≤ e → ∃ b', skipSpace sp s b e = .ok b' ∧ b ≤ b' ∧ b' ≤ e ∧
      (∀ i (h : i < s.length), b ≤ i → i < b' → sp s[i] = true) ∧ (∀ h : b' < s.length, b' < e → sp s[b'] = false) := by
  induction n with
  | zero =>
    intro b hn hb
    rw [skipSpace, dif_neg (by omega)]
    exact ⟨b, rfl, by omega, hb, fun i h h1 h2 => by omega, fun h h1 => by omega⟩
  | succ n ih =>
    intro b hn hb
    rw [skipSpace, dif_pos (by omega), at?_eq_ok (by omega), Res.ok_bind]
    by_cases hs : sp (s[b]'(by omega)) = true
    · obtain ⟨b', h1, h2, h3, h4, h5⟩ := ih (b + 1) (by omega) (by omega)
      simp only [hs, Bool.not_true, Bool.false_eq_true, if_false]
      refine ⟨b', h1, by omega, h3, fun i h g1 g2 => ?_, h5⟩
      by_cases hib : i = b
      · subst hib; exact hs
      · exact h4 i h (by omega) g2
    · simp only [hs, Bool.not_false, if_true]
      exact ⟨b, rfl, by omega, hb, fun i h h1 h2 => by omega, fun h _ => by simpa using hs⟩

theorem trimEnd_spec (sp : α → Bool) (s : List α) (b : Nat) (n : Nat) :
    ∀ e, e - b = n → b ≤ e → e ≤ s.length → ∃ e', trimEnd sp s b e = .ok e' ∧ b ≤ e' ∧ e' ≤ e ∧
      (∀ i (h : i < s.length), e' ≤ i → i < e → sp s[i] = true) ∧
      (∀ h : e' - 1 < s.length, b < e' → sp s[e' - 1] = false) := by
  induction n with
  | zero =>
    intro e hn hb he
    rw [trimEnd, dif_neg (by omega)]
    exact ⟨e, rfl, hb, by omega, fun i h h1 h2 => by omega, fun h h1 => by omega⟩
  | succ n ih =>
    intro e hn hb he
    rw [trimEnd, dif_pos (by omega), at?_eq_ok (by omega), Res.ok_bind]
    by_cases hs : sp (s[e - 1]'(by omega)) = true
    · obtain ⟨e', h1, h2, h3, h4, h5⟩ := ih (e - 1) (by omega) (by omega) (by omega)
      simp only [hs, Bool.not_true, Bool.false_eq_true, if_false]
      refine ⟨e', h1, h2, by omega, fun i h g1 g2 => ?_, h5⟩
      by_cases hie : i = e - 1
      · subst hie; exact hs
      · exact h4 i h g1 (by omega)
    · simp only [hs, Bool.not_false, if_true]
      exact ⟨e, rfl, hb, by omega, fun i h h1 h2 => by omega, fun h _ => by simpa using hs⟩

theorem positions_spec (sp : α → Bool) (s : List α) :
    ∃ b e, getTrimPosition sp s 0 s.length = .ok (b, e) ∧ b ≤ e ∧ e ≤ s.length ∧
      IsTrimmed sp s ((s.take e).drop b) := by
  obtain ⟨b, h1, h2, h3, h4, h5⟩ := skipSpace_spec sp s s.length (Nat.le_refl _) _ 0 rfl (by omega)
  obtain ⟨e, g1, g2, g3, g4, g5⟩ := trimEnd_spec sp s b _ s.length rfl h3 (Nat.le_refl _)
  refine ⟨b, e, by rw [getTrimPosition, h1, Res.ok_bind, g1]; rfl, g2, g3, s.take b, s.drop e, ?_, ?_, ?_, ?_, ?_⟩
  · rw [List.drop_take, ← List.take_add, show b + (e - b) = e by omega, List.take_append_drop]
  · intro x hx
    obtain ⟨i, hi, rfl⟩ := List.mem_iff_getElem.mp hx
    rw [List.length_take] at hi
    rw [List.getElem_take]
    exact h4 i (by omega) (by omega) (by omega)
  · intro x hx
    obtain ⟨i, hi, rfl⟩ := List.mem_iff_getElem.mp hx
    rw [List.length_drop] at hi
    rw [List.getElem_drop]
    exact g4 (e + i) (by omega) (by omega) (by omega)
  · intro x hx
    rw [List.head?_eq_getElem?, Option.mem_def, List.getElem?_eq_some_iff] at hx
    obtain ⟨h, rfl⟩ := hx
    rw [List.length_drop, List.length_take] at h
    rw [List.getElem_drop, List.getElem_take]
    exact h5 (by omega) (by omega)
  · intro x hx
    rw [List.getLast?_eq_getElem?, Option.mem_def, List.getElem?_eq_some_iff] at hx
    obtain ⟨h, rfl⟩ := hx
    have hl : ((s.take e).drop b).length = e - b := by rw [List.length_drop, List.length_take]; omega
    rw [hl] at h
    have := g5 (by omega) (by omega)
    rw [List.getElem_drop, List.getElem_take]
    rw [← this]
    congr 2
    omega

theorem moveLoop_spec (k : Nat) : ∀ (s : List α) (dst src : Nat), dst ≤ src → src + k ≤ s.length →
    ∃ r, moveLoop k s dst src = .ok r ∧ r.length = s.length ∧
      r.take (dst + k) = s.take dst ++ (s.drop src).take k := by
  induction k with
  | zero => intro s dst src _ _; exact ⟨s, rfl, rfl, by simp⟩
  | succ k ih =>
    intro s dst src h1 h2
    obtain ⟨r, e1, e2, e3⟩ := ih (s.set dst (s[src]'(by omega))) (dst + 1) (src + 1) (by omega) (by simp; omega)
    refine ⟨r, ?_, by simpa using e2, ?_⟩
    · rw [moveLoop, at?_eq_ok (by omega), Res.ok_bind, setAt?_ok _ (by omega), Res.ok_bind, e1]
    · rw [show dst + (k + 1) = dst + 1 + k by omega, e3, List.take_add_one, List.take_set_of_le (Nat.le_refl _),
        List.getElem?_set_self (by omega), List.drop_set_of_lt (by omega), Option.toList_some,
        List.drop_eq_getElem_cons (show src < s.length by omega), List.take_succ_cons]
      simp

theorem trim_eq (sp : α → Bool) (s : List α) : ∃ m, trim sp s = .ok m ∧ trimCopy sp s = .ok m ∧ IsTrimmed sp s m := by
  cases hs : s with
  | nil => exact ⟨[], rfl, rfl, [], [], by simp⟩
  | cons x xs =>
    rw [← hs]
    have hne : s.isEmpty = false := by rw [hs]; rfl
    obtain ⟨b, e, h1, h2, h3, h4⟩ := positions_spec sp s
    refine ⟨(s.take e).drop b, ?_, ?_, h4⟩
    · rw [trim, hne]
      simp only [Bool.false_eq_true, if_false, h1, Res.ok_bind, moveIf]
      by_cases hb : b = 0
      · subst hb
        simp
      · rw [if_pos (by omega)]
        obtain ⟨r, g1, g2, g3⟩ := moveLoop_spec (e - b) s 0 b (by omega) (by omega)
        rw [g1, Res.ok_bind, Res.pure_eq, List.drop_take]
        simpa using g3
    · rw [trimCopy, hne]
      simp only [Bool.false_eq_true, if_false, h1, Res.ok_bind, Res.pure_eq]

/-- There is only one way to trim. -/
theorem trimmed_unique {sp : α → Bool} {s m m' : List α} (h : IsTrimmed sp s m) (h' : IsTrimmed sp s m') : m = m' := by
  have key : ∀ (a b c d : List α) (P : α → Bool), a ++ b = c ++ d → (∀ x ∈ a, P x = true) → (∀ x ∈ c, P x = true) →
      (∀ x ∈ b.head?, P x = false) → (∀ x ∈ d.head?, P x = false) → b = d := by
    intro a
    induction a with
    | nil =>
      intro b c d P h1 _ h3 h4 _
      cases c with
      | nil => simpa using h1
      | cons y c =>
        simp only [List.nil_append, List.cons_append] at h1
        subst h1
        have := h4 y (by simp)
        rw [h3 y (by simp)] at this; simp at this
    | cons x a ih =>
      intro b c d P h1 h2 h3 h4 h5
      cases c with
      | nil =>
        simp only [List.nil_append, List.cons_append] at h1
        subst h1
        have := h5 x (by simp)
        rw [h2 x (by simp)] at this; simp at this
      | cons y c =>
        simp only [List.cons_append, List.cons.injEq] at h1
        exact ih b c d P h1.2 (fun x hx => h2 x (by simp [hx])) (fun x hx => h3 x (by simp [hx])) h4 h5
  -- a list of blanks on the left of nothing
  have key2 : ∀ (a m c a' m' c' : List α), s = a ++ m ++ c → s = a' ++ m' ++ c' →
      (∀ x ∈ a, sp x = true) → (∀ x ∈ c, sp x = true) → (∀ x ∈ a', sp x = true) → (∀ x ∈ c', sp x = true) →
      (∀ x ∈ m.head?, sp x = false) → (∀ x ∈ m.getLast?, sp x = false) →
      (∀ x ∈ m'.head?, sp x = false) → (∀ x ∈ m'.getLast?, sp x = false) → m = m' := by
    intro a m c a' m' c' e e' ha hc ha' hc' h1 h2 h3 h4
    cases m with
    | nil =>
      cases m' with
      | nil => rfl
      | cons y ys =>
        have hy : y ∈ a ++ c := by
          have : y ∈ s := by rw [e']; simp
          rw [e] at this; simpa using this
        have hb : sp y = true := by
          rcases List.mem_append.mp hy with h | h
          · exact ha y h
          · exact hc y h
        have := h3 y (by simp)
        rw [hb] at this; simp at this
    | cons y ys =>
      cases m' with
      | nil =>
        have hy : y ∈ a' ++ c' := by
          have : y ∈ s := by rw [e]; simp
          rw [e'] at this; simpa using this
        have hb : sp y = true := by
          rcases List.mem_append.mp hy with h | h
          · exact ha' y h
          · exact hc' y h
        have := h1 y (by simp)
        rw [hb] at this; simp at this
      | cons z zs =>
        have e1 : (y :: ys) ++ c = (z :: zs) ++ c' := by
          apply key a _ a' _ sp ?_ ha ha' (by simpa using h1) (by simpa using h3)
          rw [← List.append_assoc, ← List.append_assoc, ← e, ← e']
        have e2 : (y :: ys).reverse = (z :: zs).reverse := by
          apply key c.reverse _ c'.reverse _ sp ?_ (fun x hx => hc x (by simpa using hx))
            (fun x hx => hc' x (by simpa using hx)) (by rw [List.head?_reverse]; exact h2) (by rw [List.head?_reverse]; exact h4)
          rw [← List.reverse_append, ← List.reverse_append, e1]
        exact List.reverse_inj.mp e2
  obtain ⟨a, c, e, ha, hc, h1, h2⟩ := h
  obtain ⟨a', c', e', ha', hc', h3, h4⟩ := h'
  exact key2 a m c a' m' c' e e' ha hc ha' hc' h1 h2 h3 h4

theorem trimmed_again {sp : α → Bool} {s m : List α} (h : IsTrimmed sp s m) : IsTrimmed sp m m := by
  obtain ⟨a, c, _, _, _, h1, h2⟩ := h
  exact ⟨[], [], by simp, by simp, by simp, h1, h2⟩

/-! ## Split -/

theorem findFrom_spec [DecidableEq α] (sep : α) (l : List α) : ∀ cur,
    (findFrom sep l cur = none ∧ sep ∉ l) ∨
    (∃ k, findFrom sep l cur = some (cur + k) ∧ k < l.length ∧ sep ∉ l.take k ∧ l.drop k = sep :: l.drop (k + 1)) := by
  induction l with
  | nil => intro cur; left; exact ⟨rfl, by simp⟩
  | cons c l ih =>
    intro cur
    rw [findFrom]
    by_cases hc : c = sep
    · right; subst hc
      exact ⟨0, by simp, by simp, by simp, by simp⟩
    · rcases ih (cur + 1) with ⟨h1, h2⟩ | ⟨k, h1, h2, h3, h4⟩
      · left
        refine ⟨by rw [if_neg hc]; exact h1, ?_⟩
        simp only [List.mem_cons, not_or]; exact ⟨fun h => hc h.symm, h2⟩
      · right
        refine ⟨k + 1, by rw [if_neg hc, h1]; congr 1; omega, by simpa using h2, ?_, by simpa using h4⟩
        simp only [List.take_succ_cons, List.mem_cons, not_or]; exact ⟨fun h => hc h.symm, h3⟩

theorem splitLoop_spec [DecidableEq α] (sep : α) (s : List α) (m1 : Nat) (fuel : Nat) : ∀ (cur num : Nat) (out : List (List α)),
    cur ≤ s.length → s.length - cur < fuel → num ≤ m1 →
    ∃ ps, splitLoop sep s m1 fuel cur num out = .ok (out ++ ps, num + ps.length) ∧
      join sep ps = s.drop cur ∧ ps ≠ [] ∧ ps.length = min (m1 - num) ((s.drop cur).count sep) + 1 ∧
      (∀ p ∈ ps.dropLast, sep ∉ p) := by
  induction fuel with
  | zero => intro cur num out _ h; omega
  | succ fuel ih =>
    intro cur num out hcur hf hnum
    rw [splitLoop]
    rcases findFrom_spec sep (s.drop cur) cur with ⟨h1, h2⟩ | ⟨k, h1, h2, h3, h4⟩
    · simp only [h1]
      refine ⟨[s.drop cur], rfl, rfl, by simp, ?_, by simp⟩
      rw [List.count_eq_zero.mpr h2]; simp
    · simp only [h1]
      by_cases hm : num = m1
      · rw [if_pos hm]
        refine ⟨[s.drop cur], rfl, rfl, by simp, by simp; omega, by simp⟩
      · rw [if_neg hm]
        rw [List.length_drop] at h2
        obtain ⟨ps, e1, e2, e3, e4, e5⟩ := ih (cur + k + 1) (num + 1) (out ++ [(s.take (cur + k)).drop cur]) (by omega)
          (by omega) (by omega)
        have hp : (s.take (cur + k)).drop cur = (s.drop cur).take k := by
          rw [List.drop_take]; congr 1; omega
        have hsplit : s.drop cur = (s.drop cur).take k ++ sep :: s.drop (cur + k + 1) := by
          conv => lhs; rw [← List.take_append_drop k (s.drop cur), h4]
          rw [List.drop_drop]; rfl
        refine ⟨(s.take (cur + k)).drop cur :: ps, ?_, ?_, by simp, ?_, ?_⟩
        · rw [e1]; simp; omega
        · cases ps with
          | nil => exact absurd rfl e3
          | cons q qs =>
            rw [join, e2, hp]
            · exact hsplit.symm
            · simp
        · have hc : (s.drop cur).count sep = (s.drop (cur + k + 1)).count sep + 1 := by
            conv => lhs; rw [hsplit]
            rw [List.count_append, List.count_cons_self, List.count_eq_zero.mpr h3]; omega
          rw [List.length_cons, e4, hc]; omega
        · intro p hpm
          cases ps with
          | nil => exact absurd rfl e3
          | cons q qs =>
            rw [List.dropLast_cons_cons, List.mem_cons] at hpm
            rcases hpm with rfl | hpm
            · rw [hp]; exact h3
            · exact e5 p hpm

end

/-! ## Strip -/

theorem stripLoop_spec (s : List Int) : ∀ n, n ≤ s.length → ∃ m, stripLoop s n = .ok m ∧ m ≤ n ∧
    (∀ i (h : i < s.length), m ≤ i → i < n → s[i] = 10 ∨ s[i] = 13) ∧
    (∀ h : m - 1 < s.length, 0 < m → ¬ (s[m - 1] = 10 ∨ s[m - 1] = 13)) := by
  intro n
  induction n with
  | zero => intro _; exact ⟨0, rfl, by omega, fun i h h1 h2 => by omega, fun h h1 => by omega⟩
  | succ n ih =>
    intro hn
    rw [stripLoop, at?_eq_ok (by omega), Res.ok_bind]
    by_cases hc : (s[n]'(by omega)) = 10 ∨ (s[n]'(by omega)) = 13
    · obtain ⟨m, h1, h2, h3, h4⟩ := ih (by omega)
      rw [if_pos hc]
      refine ⟨m, h1, by omega, fun i h g1 g2 => ?_, h4⟩
      by_cases hin : i = n
      · subst hin; exact hc
      · exact h3 i h g1 (by omega)
    · rw [if_neg hc]
      exact ⟨n + 1, rfl, by omega, fun i h g1 g2 => by omega, fun h _ => hc⟩

/-! ## Case -/

theorem tolower_eq (c : Int) : tolower c = lower c := by
  have h1 : ('A'.toNat : Int) = 65 := rfl
  have h2 : ('Z'.toNat : Int) = 90 := rfl
  rw [tolower, lower, h1, h2]
  split <;> omega

theorem caseCompare_cons (a b : Int) (as bs : List Int) : caseCompare (a :: as) (b :: bs) =
    if tolower a < tolower b then -1 else if tolower a > tolower b then 1 else caseCompare as bs := by
  rw [caseCompare, caseLoop]
  by_cases h1 : tolower a < tolower b
  · simp [h1]
  · by_cases h2 : tolower a > tolower b
    · rw [if_neg h1, if_pos h2, if_neg h1, if_pos h2]
    · rw [if_neg h1, if_neg h2, if_neg h1, if_neg h2, caseCompare]
      cases caseLoop as bs <;> simp

theorem caseCompare_nil (b : List Int) : caseCompare [] b = if b = [] then 0 else -1 := by
  cases b <;> simp [caseCompare, caseLoop]

theorem caseCompare_nil_right (a : List Int) : caseCompare a [] = if a = [] then 0 else 1 := by
  cases a <;> simp [caseCompare, caseLoop]

theorem caseCompare_neg : ∀ a b, caseCompare a b = - caseCompare b a
  | [], b => by rw [caseCompare_nil, caseCompare_nil_right]; split <;> rfl
  | a, [] => by rw [caseCompare_nil, caseCompare_nil_right]; split <;> rfl
  | a :: as, b :: bs => by
    rw [caseCompare_cons, caseCompare_cons, caseCompare_neg as bs]
    split <;> split <;> (try split) <;> omega

theorem caseCompare_zero : ∀ a b, caseCompare a b = 0 ↔ a.map lower = b.map lower
  | [], b => by rw [caseCompare_nil]; cases b <;> simp
  | a :: as, [] => by rw [caseCompare_nil_right]; simp
  | a :: as, b :: bs => by
    rw [caseCompare_cons, List.map_cons, List.map_cons, List.cons.injEq, ← caseCompare_zero as bs, ← tolower_eq,
      ← tolower_eq]
    split
    · constructor
      · intro h; omega
      · rintro ⟨h, _⟩; omega
    · split
      · constructor
        · intro h; omega
        · rintro ⟨h, _⟩; omega
      · constructor
        · intro h; exact ⟨by omega, h⟩
        · exact fun h => h.2

theorem caseCompare_lt : ∀ a b, caseCompare a b = -1 ↔ a.map lower < b.map lower
  | [], [] => by simp [caseCompare_nil]
  | [], b :: bs => by simp [caseCompare_nil]
  | a :: as, [] => by simp [caseCompare_nil_right]
  | a :: as, b :: bs => by
    rw [caseCompare_cons, List.map_cons, List.map_cons, List.cons_lt_cons_iff, ← caseCompare_lt as bs, ← tolower_eq,
      ← tolower_eq]
    split
    · simp; omega
    · split
      · simp; omega
      · constructor
        · intro h; right; exact ⟨by omega, h⟩
        · rintro (h | ⟨_, h⟩)
          · omega
          · exact h

theorem caseEqual_iff : ∀ a b, caseEqual a b = true ↔ a.map lower = b.map lower
  | [], [] => by simp [caseEqual, equalLoop]
  | [], b :: bs => by simp [caseEqual]
  | a :: as, [] => by simp [caseEqual]
  | a :: as, b :: bs => by
    have ih := caseEqual_iff as bs
    rw [List.map_cons, List.map_cons, List.cons.injEq, ← ih, ← tolower_eq, ← tolower_eq, caseEqual, caseEqual, equalLoop]
    by_cases hl : as.length = bs.length
    · simp [hl]
    · simp [hl]

/-! ## CaseFind -/

theorem matchLoop_spec (s t : List Int) (b k : Nat) : ∀ i, i + k = t.length → b + t.length ≤ s.length →
    matchLoop s t b k i = .ok (decide ((((s.drop b).map tolower).drop i).take k = t.drop i)) := by
  induction k with
  | zero =>
    intro i hi hb
    rw [matchLoop, List.drop_eq_nil_of_le (as := t) (by omega)]
    simp
  | succ k ih =>
    intro i hi hb
    have e1 : ((s.drop b).map tolower).drop i = tolower (s[b + i]'(by omega)) :: ((s.drop b).map tolower).drop (i + 1) := by
      rw [List.drop_eq_getElem_cons (by simp; omega)]
      simp
    have e2 : t.drop i = t[i]'(by omega) :: t.drop (i + 1) := List.drop_eq_getElem_cons (by omega)
    rw [matchLoop, at?_eq_ok (by omega), Res.ok_bind, charAt, if_pos (by omega), at?_eq_ok (by omega), Res.ok_bind,
      e1, e2, List.take_succ_cons]
    by_cases hc : tolower (s[b + i]'(by omega)) = t[i]'(by omega)
    · rw [if_neg (by simpa using hc), ih (i + 1) (by omega) hb]
      simp only [hc, List.cons.injEq, true_and]
    · rw [if_pos (by simpa using hc)]
      simp only [hc, List.cons.injEq, false_and, decide_false]; rfl

theorem map_tolower (l : List Int) : l.map tolower = l.map lower := List.map_congr_left fun c _ => tolower_eq c

theorem match_iff (s t : List Int) (b : Nat) (hb : b + t.length ≤ s.length) :
    ((s.drop b).map tolower).take t.length = t.map tolower ↔ MatchesAt s t b := by
  rw [MatchesAt, map_tolower, map_tolower, List.prefix_iff_eq_take, List.length_map]
  constructor
  · intro h; exact ⟨by omega, h.symm⟩
  · intro h; exact h.2.symm

theorem findLoop_spec (s t : List Int) (n : Nat) : ∀ b, s.length + 1 - b = n →
    (∃ p, findLoop s (t.map tolower) t.length b = .ok (some p) ∧ b ≤ p ∧ MatchesAt s t p ∧
      ∀ q, b ≤ q → q < p → ¬ MatchesAt s t q) ∨
    (findLoop s (t.map tolower) t.length b = .ok none ∧ ∀ q, b ≤ q → ¬ MatchesAt s t q) := by
  have hlen : ∀ q, MatchesAt s t q → q + t.length ≤ s.length := by
    rintro q ⟨h1, h2⟩
    have := h2.length_le
    simp at this; omega
  induction n with
  | zero =>
    intro b hb
    right
    rw [findLoop, dif_neg (by omega)]
    exact ⟨rfl, fun q hq hm => by have := hlen q hm; omega⟩
  | succ n ih =>
    intro b hb
    rw [findLoop]
    by_cases hlt : b + t.length ≤ s.length
    · rw [dif_pos hlt]
      have hm := matchLoop_spec s (t.map tolower) b t.length 0 (by simp) (by simpa using hlt)
      rw [hm, Res.ok_bind]
      simp only [List.drop_zero]
      by_cases hc : ((s.drop b).map tolower).take t.length = t.map tolower
      · left
        rw [if_pos (by simpa using hc)]
        exact ⟨b, rfl, Nat.le_refl _, (match_iff s t b hlt).mp hc, fun q h1 h2 => by omega⟩
      · rw [if_neg (by simpa using hc)]
        have hnb : ¬ MatchesAt s t b := fun h => hc ((match_iff s t b hlt).mpr h)
        rcases ih (b + 1) (by omega) with ⟨p, h1, h2, h3, h4⟩ | ⟨h1, h2⟩
        · left
          refine ⟨p, h1, by omega, h3, fun q g1 g2 => ?_⟩
          by_cases hqb : q = b
          · subst hqb; exact hnb
          · exact h4 q (by omega) g2
        · right
          refine ⟨h1, fun q g1 => ?_⟩
          by_cases hqb : q = b
          · subst hqb; exact hnb
          · exact h2 q (by omega)
    · right
      rw [dif_neg hlt]
      exact ⟨rfl, fun q hq hm => by have := hlen q hm; omega⟩

end Verif.StringOp
