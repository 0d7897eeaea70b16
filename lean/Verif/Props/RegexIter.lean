import Verif.Spec.RegexIter
set_option linter.unusedSimpArgs false

/-! # C138: iterating over the matches of a regular expression -/
namespace Verif.Props.RegexIter
open Verif Verif.RegexIter Verif.Spec.RegexIter
open Verif.RegexWrap (Heap)

variable {C R : Type}

/-- How much is left to do behind a match. -/
def mu (s : List C) (m : Found) : Nat := 2 * (s.length - m.b) + if m.a = m.b then 0 else 1

structure InR (s : List C) (m : Found) : Prop where
  h1 : m.pre ≤ m.a
  h2 : m.a ≤ m.b
  h3 : m.b ≤ s.length

theorem step_cases {F : Finder C R} (hF : Sound F) {e : R} {s : List C} {m : Found} (hm : InR s m) :
    (step F e s m = none ∧ Walk F e s m []) ∨
    (∃ x, step F e s m = some x ∧ x.pre = m.b ∧ InR s x ∧ mu s x < mu s m ∧ ∀ l, Walk F e s x l → Walk F e s m (x :: l)) := by
  have h2 := hm.h2
  have h3 := hm.h3
  unfold step
  by_cases hab : m.a = m.b
  · rw [if_pos hab]
    by_cases hl : m.b = s.length
    · rw [if_pos hl]; exact .inl ⟨rfl, .lastEnd hab hl⟩
    · rw [if_neg hl]
      cases ht : F.find e s m.b true with
      | some t =>
        obtain ⟨a, b, gs⟩ := t
        obtain ⟨q1, q2, q3, q4⟩ := hF _ _ _ _ _ _ _ ht
        obtain ⟨q5, q6⟩ := q4 rfl
        refine .inr ⟨_, rfl, rfl, ⟨q1, q2, q3⟩, ?_, fun l h => .nextHere hab (by omega) ht h⟩
        simp only [mu, if_pos hab]
        rw [if_neg (by omega)]; omega
      | none =>
        cases hf : F.find e s (m.b + 1) false with
        | none => exact .inl ⟨by simp [found, hf], .lastEmpty hab ht hf⟩
        | some t =>
          obtain ⟨a, b, gs⟩ := t
          obtain ⟨q1, q2, q3, _⟩ := hF _ _ _ _ _ _ _ hf
          refine .inr ⟨⟨m.b, a, b, gs⟩, by simp [found, hf], rfl, ⟨by show m.b ≤ a; omega, q2, q3⟩, ?_,
            fun l h => .nextBehind hab (by omega) ht hf h⟩
          simp only [mu, if_pos hab]
          split <;> omega
  · rw [if_neg hab]
    cases hf : F.find e s m.b false with
    | none => exact .inl ⟨by simp [found, hf], .last (by omega) hf⟩
    | some t =>
      obtain ⟨a, b, gs⟩ := t
      obtain ⟨q1, q2, q3, _⟩ := hF _ _ _ _ _ _ _ hf
      refine .inr ⟨⟨m.b, a, b, gs⟩, by simp [found, hf], rfl, ⟨q1, q2, q3⟩, ?_, fun l h => .next (by omega) hf h⟩
      simp only [mu, if_neg hab]
      split <;> omega

/-- In order, not overlapping, and not the same twice. -/
def Apart (x y : Found) : Prop := x.b ≤ y.a ∧ ¬ (x.a = y.a ∧ x.b = y.b)

theorem walk_all {F : Finder C R} (hF : Sound F) (e : R) (s : List C) : ∀ (k : Nat) (m : Found), InR s m → mu s m < k →
    ∃ l, Walk F e s m l ∧ Cover s m.b l ∧ l.length ≤ mu s m ∧ (∀ y ∈ l, m.b ≤ y.a ∧ mu s y < mu s m) ∧ (m :: l).Pairwise Apart := by
  intro k
  induction k with
  | zero => intro m _ h; omega
  | succ k ih =>
    intro m hm hk
    rcases step_cases (e := e) hF hm with ⟨_, hw⟩ | ⟨x, _, hp, hx, hmu, hw⟩
    · exact ⟨[], hw, .nil hm.h3, Nat.zero_le _, by simp, by simp⟩
    · obtain ⟨l, w, c, hl, ha, pw⟩ := ih x hx (by omega)
      have h1 := hx.h1
      have h2 := hx.h2
      have key : ∀ y ∈ x :: l, m.b ≤ y.a ∧ mu s y < mu s m := by
        intro y hy
        rcases List.mem_cons.mp hy with rfl | hy
        · exact ⟨by omega, hmu⟩
        · obtain ⟨u1, u2⟩ := ha y hy
          exact ⟨by omega, by omega⟩
      refine ⟨x :: l, hw l w, hp ▸ .cons h1 h2 c, by simp only [List.length_cons]; omega, key, List.pairwise_cons.mpr ⟨?_, pw⟩⟩
      intro y hy
      obtain ⟨u1, u2⟩ := key y hy
      refine ⟨u1, fun ⟨v1, v2⟩ => ?_⟩
      simp only [mu, v1, v2] at u2
      omega

theorem walk_step {F : Finder C R} (hF : Sound F) {e : R} {s : List C} {m : Found} {l : List Found} (h : Walk F e s m l) :
    (step F e s m).map (fun x => (x.a, x.b, x.groups)) = l.head?.map (fun x => (x.a, x.b, x.groups)) := by
  unfold step
  cases h with
  | last h1 h2 => simp [h2, found, show m.a ≠ m.b by omega]
  | lastEnd h1 h2 => simp [h1, h2]
  | lastEmpty h1 h2 h3 => simp [h1, h2, h3, found]
  | next h1 h2 h3 => simp [h2, found, show m.a ≠ m.b by omega]
  | nextHere h1 h0 h2 h3 => simp [h1, h2, show m.b ≠ s.length by omega]
  | nextBehind h1 h0 h4 h2 h3 => simp [h1, h2, h4, found, show m.b ≠ s.length by omega]

/-- What is reached from a match, with the parts before. -/
theorem steps {F : Finder C R} (hF : Sound F) {e : R} {s : List C} : ∀ {l : List Found} {m : Found}, Walk F e s m l → Cover s m.b l →
    step F e s m = l.head? := by
  intro l m h c
  have := walk_step hF h
  cases l with
  | nil => simpa using this
  | cons x l =>
    cases hs : step F e s m with
    | none => rw [hs] at this; cases this
    | some y =>
      rw [hs] at this
      have hy : y.pre = m.b := by
        unfold step at hs
        repeat' split at hs
        all_goals try (cases hs; done)
        all_goals first
          | (injection hs with hs; subst hs; rfl)
          | (simp only [found, Option.map_eq_some_iff] at hs; obtain ⟨_, _, rfl⟩ := hs; rfl)
      have hx : x.pre = m.b := by generalize m.b = p at c; cases c; rfl
      obtain ⟨p1, a1, b1, g1⟩ := x
      obtain ⟨p2, a2, b2, g2⟩ := y
      simp at this hx hy
      simp [this, hx, hy]

theorem walk_tail {F : Finder C R} {e : R} {s : List C} {m x : Found} {l : List Found} (h : Walk F e s m (x :: l)) : Walk F e s x l := by
  cases h <;> assumption

theorem cover_tail {s : List C} {p : Nat} {x : Found} {l : List Found} (h : Cover s p (x :: l)) : Cover s x.b l := by
  cases h; assumption

theorem it_loop {F : Finder C R} (hF : Sound F) {h : Heap C} {rh : Nat → Option R} {o r : Nat} {s : List C} {e : R} (hs : h o = some s)
    (he : rh r = some e) : ∀ (l : List Found) (m : Found), Walk F e s m l → Cover s m.b l → ∀ k, l.length < k →
    It.loop F h rh k ⟨o, r, some m⟩ = .ok (some (m :: l)) := by
  intro l
  induction l with
  | nil =>
    intro m w c k hk
    obtain ⟨k, rfl⟩ : ∃ j, k = j + 1 := ⟨k - 1, by omega⟩
    have hst := steps hF w c
    simp only [It.loop, It.next, hs, he, Res.ok_bind]
    rw [hst]
    cases k <;> simp [It.loop]
  | cons x l ih =>
    intro m w c k hk
    obtain ⟨k, rfl⟩ : ∃ j, k = j + 1 := ⟨k - 1, by omega⟩
    have hst := steps hF w c
    simp only [It.loop, It.next, hs, he, Res.ok_bind]
    rw [hst]
    simp only [List.head?_cons]
    rw [ih x (walk_tail w) (cover_tail c) k (by simp at hk; omega)]
    simp

/-- All matches of a text. -/
theorem all_matches {F : Finder C R} (hF : Sound F) (e : R) (s : List C) :
    ∃ l, Listed F e s l ∧ Cover s 0 l ∧ l.length ≤ 2 * s.length + 2 ∧ l.Pairwise Apart ∧ found 0 (F.find e s 0 false) = l.head? := by
  cases hf : F.find e s 0 false with
  | none => exact ⟨[], hf, .nil (Nat.zero_le _), by simp, by simp, by simp [found, hf]⟩
  | some t =>
    obtain ⟨a, b, gs⟩ := t
    obtain ⟨q1, q2, q3, _⟩ := hF _ _ _ _ _ _ _ hf
    obtain ⟨l, w, c, hl, ha, pw⟩ := walk_all hF e s (mu s ⟨0, a, b, gs⟩ + 1) ⟨0, a, b, gs⟩ ⟨q1, q2, q3⟩ (Nat.lt_succ_self _)
    refine ⟨⟨0, a, b, gs⟩ :: l, ⟨hf, w⟩, Cover.cons (m := ⟨0, a, b, gs⟩) q1 q2 c, ?_, pw, by simp [found, hf]⟩
    have : mu s ⟨0, a, b, gs⟩ ≤ 2 * s.length + 1 := by simp only [mu]; split <;> omega
    simp only [List.length_cons]; omega

/-- C138.  A loop over the matches of a living string with a living pattern ends after at most 2·n+2 rounds.  It sees the matches the standard
names, in the order of the text; they do not overlap and none comes twice. -/
theorem C138_matches {F : Finder C R} (hF : Sound F) (h : Heap C) (rh : Nat → Option R) (o r : Nat) (s : List C) (e : R) (hs : h o = some s)
    (he : rh r = some e) :
    ∃ l i, It.start F h rh o r = .ok i ∧ (∀ k, 2 * s.length + 2 < k → It.loop F h rh k i = .ok (some l)) ∧ Listed F e s l ∧ Cover s 0 l ∧
      l.Pairwise Apart := by
  obtain ⟨l, hl, hc, hn, hp, hf⟩ := all_matches hF e s
  refine ⟨l, ⟨o, r, l.head?⟩, by simp [It.start, hs, he, hf], fun k hk => ?_, hl, hc, hp⟩
  cases l with
  | nil =>
    obtain ⟨k, rfl⟩ : ∃ j, k = j + 1 := ⟨k - 1, by omega⟩
    simp [It.loop]
  | cons m l => exact it_loop hF hs he l m hl.2 (cover_tail hc) k (by simp at hn; omega)

/-! ## Tokens -/

theorem tok_inner {F : Finder C R} {h : Heap C} {rh : Nat → Option R} {o r : Nat} {s : List C} {e : R} (hs : h o = some s)
    (he : rh r = some e) (subs : List Int) (m : Found) (k : Nat) : ∀ (d n : Nat), n + d + 1 = subs.length →
    Tok.loop F h rh (d + 1 + k) ⟨⟨o, r, some m⟩, subs, n, none⟩ =
      (Tok.loop F h rh k ⟨⟨o, r, step F e s m⟩, subs, 0,
        if (step F e s m).isNone ∧ (-1) ∈ subs ∧ m.b ≠ s.length then some (m.b, s.length) else none⟩ >>= fun x =>
        .ok (x.map ((subs.drop n).map (pick m) ++ ·))) := by
  intro d
  induction d with
  | zero =>
    intro n hn
    rw [show 0 + 1 + k = k + 1 by omega, Tok.loop]
    have hd : subs.drop n = [subs[n]'(by omega)] := by
      rw [List.drop_eq_getElem_cons (by omega), List.drop_eq_nil_of_le (by omega)]
    simp only [Tok.atEnd, Tok.deref, Tok.next, at?_eq_ok (show n < subs.length by omega), Res.ok_bind, It.next, hs, he,
      if_neg (show ¬ n + 1 < subs.length by omega), hd, Option.isNone_some, Bool.false_and, Bool.false_eq_true, if_false, Res.pure_eq]
    rfl
  | succ d ih =>
    intro n hn
    rw [show d + 1 + 1 + k = (d + 1 + k) + 1 by omega, Tok.loop]
    have hd : subs.drop n = subs[n]'(by omega) :: subs.drop (n + 1) := List.drop_eq_getElem_cons (by omega)
    simp only [Tok.atEnd, Tok.deref, Tok.next, at?_eq_ok (show n < subs.length by omega), Res.ok_bind,
      if_pos (show n + 1 < subs.length by omega), hd, Option.isNone_some, Bool.false_and, Bool.false_eq_true, if_false, Res.pure_eq]
    rw [ih (n + 1) (by omega)]
    generalize Tok.loop F h rh k _ = q
    cases q <;> simp only [Res.ok_bind, Res.throw_bind, Res.ub_bind, Option.map_map, Function.comp_def, List.map_cons, List.cons_append]

/-- The rest of the text, if it is asked for. -/
def rest (s : List C) (subs : List Int) (l : List Found) : List (Option (Nat × Nat)) :=
  if (-1) ∈ subs ∧ (l = [] ∨ lastEnd l ≠ s.length) then [some (lastEnd l, s.length)] else []

theorem tok_end {F : Finder C R} {h : Heap C} {rh : Nat → Option R} (o r : Nat) (subs : List Int) (n : Nat) (k : Nat) :
    Tok.loop F h rh k ⟨⟨o, r, none⟩, subs, n, none⟩ = .ok (some []) := by
  cases k <;> simp [Tok.loop, Tok.atEnd]

theorem tok_suf {F : Finder C R} {h : Heap C} {rh : Nat → Option R} (o r : Nat) (subs : List Int) (n : Nat) (p : Nat × Nat) (k : Nat) :
    Tok.loop F h rh (k + 1) ⟨⟨o, r, none⟩, subs, n, some p⟩ = .ok (some [some p]) := by
  rw [Tok.loop]
  simp [Tok.atEnd, Tok.deref, Tok.next, tok_end]

theorem lastEnd_cons (m x : Found) (l : List Found) : lastEnd (m :: x :: l) = lastEnd (x :: l) := by
  simp [lastEnd, List.getLast?_cons_cons]

theorem tok_loop {F : Finder C R} (hF : Sound F) {h : Heap C} {rh : Nat → Option R} {o r : Nat} {s : List C} {e : R} (hs : h o = some s)
    (he : rh r = some e) (subs : List Int) (h0 : subs ≠ []) : ∀ (l : List Found) (m : Found), Walk F e s m l → Cover s m.b l → ∀ k,
    Tok.loop F h rh (subs.length * (l.length + 1) + (k + 1)) ⟨⟨o, r, some m⟩, subs, 0, none⟩ =
      .ok (some (((m :: l).flatMap fun x => subs.map (pick x)) ++ rest s subs (m :: l))) := by
  have hlen : 0 < subs.length := List.length_pos_iff.mpr h0
  intro l
  induction l with
  | nil =>
    intro m w c k
    have hst := steps hF w c
    have := tok_inner (F := F) hs he subs m (k + 1) (subs.length - 1) 0 (by omega)
    rw [show subs.length - 1 + 1 + (k + 1) = subs.length * (([] : List Found).length + 1) + (k + 1) by simp; omega] at this
    rw [this, hst]
    by_cases hc : (-1) ∈ subs ∧ m.b ≠ s.length
    · have hr : rest s subs [m] = [some (m.b, s.length)] := by simp [rest, lastEnd, hc]
      simp [hr, hc, tok_suf]
    · have hr : rest s subs [m] = [] := by simpa [rest, lastEnd] using hc
      simp only [hr, List.head?_nil, Option.isNone_none, true_and, if_neg hc, tok_end]
      simp
  | cons x l ih =>
    intro m w c k
    have hst := steps hF w c
    have := tok_inner (F := F) hs he subs m (subs.length * (l.length + 1) + (k + 1)) (subs.length - 1) 0 (by omega)
    rw [show subs.length - 1 + 1 + (subs.length * (l.length + 1) + (k + 1)) = subs.length * ((x :: l).length + 1) + (k + 1) by
      simp only [List.length_cons, Nat.mul_add]; omega] at this
    rw [this, hst]
    simp only [List.head?_cons, Option.isNone_some, Bool.false_eq_true, false_and, if_false]
    rw [ih x (walk_tail w) (cover_tail c) k]
    have hr : rest s subs (m :: x :: l) = rest s subs (x :: l) := by simp [rest, lastEnd_cons]
    simp [hr]

/-- C138.  The tokens are, for each match in turn, the parts asked for; at the end comes the rest of the text if the parts between the matches are
asked for and the rest is not empty or there was no match at all. -/
theorem C138_tokens {F : Finder C R} (hF : Sound F) (h : Heap C) (rh : Nat → Option R) (o r : Nat) (s : List C) (e : R) (hs : h o = some s)
    (he : rh r = some e) (subs : List Int) (h0 : subs ≠ []) :
    ∃ l t N, Tok.start F h rh o r subs = .ok t ∧ Listed F e s l ∧ Cover s 0 l ∧ l.Pairwise Apart ∧
      ∀ k, N ≤ k → Tok.loop F h rh k t = .ok (some ((l.flatMap fun x => subs.map (pick x)) ++ rest s subs l)) := by
  obtain ⟨l, hl, hc, hn, hp, hf⟩ := all_matches hF e s
  have hst : Tok.start F h rh o r subs = .ok ⟨⟨o, r, l.head?⟩, subs, 0, if l.head?.isNone ∧ (-1) ∈ subs then some (0, s.length) else none⟩ := by
    simp [Tok.start, It.start, hs, he, hf]
  refine ⟨l, _, subs.length * (l.length + 1) + 1, hst, hl, hc, hp, fun k hk => ?_⟩
  cases l with
  | nil =>
    obtain ⟨k, rfl⟩ : ∃ j, k = j + 1 := ⟨k - 1, by omega⟩
    by_cases hm : (-1) ∈ subs
    · simp [hm, tok_suf, rest, lastEnd]
    · simp [hm, tok_end, rest]
  | cons m l =>
    have := tok_loop (F := F) hF hs he subs h0 l m hl.2 (cover_tail hc) (k - (subs.length * (l.length + 1) + 1))
    have hk' : subs.length * (l.length + 1) + 1 ≤ k := by
      refine Nat.le_trans ?_ hk
      have : subs.length * (l.length + 1) ≤ subs.length * ((m :: l).length + 1) := Nat.mul_le_mul_left _ (by simp)
      omega
    rw [show subs.length * (l.length + 1) + (k - (subs.length * (l.length + 1) + 1) + 1) = k by omega] at this
    simpa using this

theorem text_append (s : List C) (a b c : Nat) (h1 : a ≤ b) (h2 : b ≤ c) : text s (a, b) ++ text s (b, c) = text s (a, c) := by
  simp only [text]
  rw [show c - a = (b - a) + (c - b) by omega, List.take_add, List.drop_drop, show a + (b - a) = b by omega]

theorem cover_text {s : List C} : ∀ {l : List Found} {p : Nat}, Cover s p l →
    (l.flatMap fun m => text s (m.pre, m.a) ++ text s (m.a, m.b)) ++ text s ((match l.getLast? with | some m => m.b | none => p), s.length) =
      text s (p, s.length) := by
  intro l
  induction l with
  | nil => intro p _; simp
  | cons m l ih =>
    intro p h
    cases h with
    | cons h1 h2 h3 =>
      have hb : m.b ≤ s.length := by
        clear ih h1 h2
        generalize m.b = q at h3
        induction h3 with
        | nil h => exact h
        | cons u1 u2 u3 v => omega
      have := ih h3
      rw [List.flatMap_cons, List.append_assoc]
      have hg : (match (m :: l).getLast? with | some m => m.b | none => m.pre) = (match l.getLast? with | some m => m.b | none => m.b) := by
        cases l with
        | nil => simp
        | cons x l => rw [List.getLast?_cons_cons]; cases hq : (x :: l).getLast? with
          | none => simp at hq
          | some y => rfl
      rw [hg, this, text_append _ _ _ _ h1 h2, text_append _ _ _ _ (by omega) hb]

/-- The characters a loop over tokens collects. -/
def joined (s : List C) (l : List (Option (Nat × Nat))) : List C := l.flatMap fun p => match p with | some p => text s p | none => []

/-- C138.  The parts between the matches and the matches, asked for in turn, make up the text. -/
theorem C138_split {F : Finder C R} (hF : Sound F) (h : Heap C) (rh : Nat → Option R) (o r : Nat) (s : List C) (e : R) (hs : h o = some s)
    (he : rh r = some e) :
    ∃ t N ts, Tok.start F h rh o r [-1, 0] = .ok t ∧ (∀ k, N ≤ k → Tok.loop F h rh k t = .ok (some ts)) ∧ joined s ts = s := by
  obtain ⟨l, t, N, h1, _, hc, _, h2⟩ := C138_tokens hF h rh o r s e hs he [-1, 0] (by simp)
  refine ⟨t, N, _, h1, h2, ?_⟩
  have key := cover_text hc
  have hall : text s (0, s.length) = s := by simp [text]
  rw [hall] at key
  have hj : joined s (l.flatMap fun x => [-1, 0].map (pick x)) = l.flatMap fun m => text s (m.pre, m.a) ++ text s (m.a, m.b) := by
    simp [joined, List.flatMap_assoc, pick]
  have hr : joined s (rest s [-1, 0] l) = text s (lastEnd l, s.length) := by
    by_cases hc : l = [] ∨ lastEnd l ≠ s.length
    · simp [rest, hc, joined]
    · have : lastEnd l = s.length := Classical.byContradiction fun q => hc (.inr q)
      simp only [rest, if_neg (show ¬ ((-1 : Int) ∈ [-1, 0] ∧ (l = [] ∨ lastEnd l ≠ s.length)) from fun q => hc q.2), this]
      simp [joined, text]
  have ha : ∀ x y : List (Option (Nat × Nat)), joined s (x ++ y) = joined s x ++ joined s y := by intro x y; simp [joined]
  rw [ha, hj, hr]
  exact key

/-- C138.  Part −1 of a match is the text since the one before, part 0 the match, part i+1 its group number i, and other parts are unset. -/
theorem C138_parts (m : Found) :
    pick m (-1) = some (m.pre, m.a) ∧ pick m 0 = some (m.a, m.b) ∧ (∀ (i : Nat) (h : i < m.groups.length), pick m (i + 1) = m.groups[i]) ∧
      ∀ k : Int, m.groups.length < k → pick m k = none := by
  refine ⟨rfl, rfl, fun i h => ?_, fun k h => ?_⟩
  · simp only [pick]
    rw [if_neg (by omega), if_neg (by omega), show ((i : Int) + 1).toNat - 1 = i by omega, List.getElem?_eq_getElem h]; rfl
  · simp only [pick]
    rw [if_neg (by omega), if_neg (by omega), List.getElem?_eq_none (by omega)]; rfl

/-- C138.  An iterator at the end must not be read or moved, and a match object is only there while its iterator lives. -/
theorem C138_at_end (F : Finder C R) (h : Heap C) (rh : Nat → Option R) :
    (∀ t : Tok, t.atEnd = true → t.deref = .ub ∧ t.next F h rh = .ub) ∧ (∀ i : It, i.cur = none → i.next F h rh = .ub) ∧
      (∀ (live : Held) (self tmp : Nat), live self = none ∨ live self = some none → deref live self tmp = .ub) := by
  refine ⟨fun t ht => ?_, fun i hi => by simp [It.next, hi], fun live self tmp hl => ?_⟩
  · obtain ⟨⟨o, r, c⟩, subs, n, suf⟩ := t
    cases c <;> cases suf <;> simp [Tok.atEnd] at ht
    exact ⟨rfl, rfl⟩
  · rcases hl with hl | hl <;> simp [deref, hl]

/-- C138.  `i++` gives the iterator as it was and moves on as `++i` does. -/
theorem C138_post (F : Finder C R) (h : Heap C) (rh : Nat → Option R) (t : Tok) :
    (∀ u, Tok.next F h rh t = .ok u → Tok.post F h rh t = .ok (t, u)) ∧ (∀ p u, Tok.post F h rh t = .ok (p, u) → p = t ∧ Tok.next F h rh t = .ok u) := by
  refine ⟨fun u e => by simp [Tok.post, e], fun p u e => ?_⟩
  rw [Tok.post] at e
  cases hn : Tok.next F h rh t with
  | ok v =>
    simp only [hn, Res.ok_bind, Res.pure_eq] at e
    injection e with e; injection e with e1 e2
    subst e1 e2; exact ⟨rfl, rfl⟩
  | throw => simp [hn] at e
  | ub => simp [hn] at e

/-- Finding for C138.  `*i` and `i->` of `sregex_iterator` give a reference into a copy that is gone when they return: any use of the match is
undefined, whatever the iterator points to. -/
theorem C138_finding_deref (live : Held) (self tmp : Nat) (m : Found) (h : live self = some (some m)) :
    ∃ k live', deref live self tmp = .ok (k, live') ∧ readRef live' k = .ub := by
  refine ⟨tmp, _, by simp only [deref, h, if_true]; rfl, by simp [readRef]⟩

/-- Finding for C138.  The iterators keep a pointer to the pattern, but take it as `const regex&`: with a temporary pattern, every `++` that looks
for the next match is undefined.  The same goes for a string that is gone. -/
theorem C138_finding_temporary_pattern (F : Finder C R) (h : Heap C) (rh : Nat → Option R) (o r : Nat) (s : List C) (e : R) (m : Found)
    (hs : h o = some s) (he : rh r = some e) (hm : F.find e s 0 false = some (m.a, m.b, m.groups)) :
    ∃ i, It.start F h rh o r = .ok i ∧ i.cur.isSome ∧ It.next F h (fun k => if k = r then none else rh k) i = .ub ∧
      It.next F (fun k => if k = o then none else h k) rh i = .ub := by
  refine ⟨⟨o, r, some ⟨0, m.a, m.b, m.groups⟩⟩, by simp [It.start, hs, he, hm, found], rfl, ?_, ?_⟩ <;> simp [It.next]

/-! ## Cases -/

example : pick ⟨0, 1, 4, [some (1, 2), none, some (3, 4)]⟩ 3 = some (3, 4) := rfl
example : (⟨⟨0, 0, none⟩, [-1, 0], 0, none⟩ : Tok).atEnd = true := rfl


/-- An engine for `x*`-like patterns: the longest run of one number, possibly empty. -/
def runs : Finder Nat Nat where
  find e s st strict :=
    if s.length < st then none else
    let n := ((s.drop st).takeWhile (· = e)).length
    if strict ∧ n = 0 then none else some (st, st + n, [])

theorem runs_sound : Sound runs := by
  intro e s st strict a b gs h
  simp only [runs] at h
  split at h
  · cases h
  · split at h
    · cases h
    · rename_i h1 h2
      injection h with h
      injection h with h3 h4
      injection h4 with h4 h5
      have := List.takeWhile_prefix (p := fun x => decide (x = e)) (l := s.drop st)
      have := this.length_le
      simp at this
      refine ⟨by omega, by omega, by omega, fun hst => ⟨h3.symm, ?_⟩⟩
      have : ¬ ((s.drop st).takeWhile (· = e)).length = 0 := fun q => h2 ⟨hst, q⟩
      omega

example : ∃ i, It.start runs (fun _ => some [7, 7, 1, 7]) (fun _ => some 7) 0 0 = .ok i ∧
    (It.loop runs (fun _ => some [7, 7, 1, 7]) (fun _ => some 7) 11 i) =
      .ok (some [⟨0, 0, 2, []⟩, ⟨2, 2, 2, []⟩, ⟨2, 3, 4, []⟩, ⟨4, 4, 4, []⟩]) := ⟨_, rfl, rfl⟩
example : ∃ t ts, Tok.start runs (fun _ => some [7, 7, 1, 7]) (fun _ => some 7) 0 0 [-1, 0] = .ok t ∧
    Tok.loop runs (fun _ => some [7, 7, 1, 7]) (fun _ => some 7) 30 t = .ok (some ts) ∧ joined [7, 7, 1, 7] ts = [7, 7, 1, 7] := ⟨_, _, rfl, rfl, rfl⟩
example : ∃ k live', deref (fun i => if i = 3 then some (some ⟨0, 0, 2, []⟩) else none) 3 9 = .ok (k, live') ∧ readRef live' k = .ub :=
  C138_finding_deref _ 3 9 ⟨0, 0, 2, []⟩ rfl

#print axioms C138_matches
#print axioms C138_tokens
#print axioms C138_split
#print axioms C138_parts
#print axioms C138_at_end
#print axioms C138_post
#print axioms C138_finding_deref
#print axioms C138_finding_temporary_pattern

end Verif.Props.RegexIter
