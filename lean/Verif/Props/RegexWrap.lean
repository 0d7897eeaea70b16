import Verif.Model.RegexWrap
set_option linter.unusedSimpArgs false

/-! # C137: regular expressions on `cybozu::String` -/
namespace Verif.Props.RegexWrap
open Verif Verif.RegexWrap

variable {C R : Type} [DecidableEq C]

/-- What is asked of the engine: spans lie inside the text, a full match is the whole text. -/
structure Sound (E : Engine C R) : Prop where
  search : ∀ r t a b gs, E.search r t = some (a, b, gs) → a ≤ b ∧ b ≤ t.length ∧ ∀ x y, some (x, y) ∈ gs → x ≤ y ∧ y ≤ t.length
  full : ∀ r t a b gs, E.full r t = some (a, b, gs) → a = 0 ∧ b = t.length ∧ ∀ x y, some (x, y) ∈ gs → x ≤ y ∧ y ≤ t.length

theorem rangeOf_ok {h : Heap C} {o : Nat} {s : List C} (hs : h o = some s) : rangeOf h o = .ok (⟨o, 0⟩, ⟨o, s.length⟩) := by
  simp [rangeOf, hs]

theorem readRange_ok {h : Heap C} {o : Nat} {s : List C} (hs : h o = some s) (a b : Nat) (h1 : a ≤ b) (h2 : b ≤ s.length) :
    readRange h ⟨o, a⟩ ⟨o, b⟩ = .ok ((s.drop a).take (b - a)) := by
  simp [readRange, hs, h1, h2]

theorem readRange_all {h : Heap C} {o : Nat} {s : List C} (hs : h o = some s) : readRange h ⟨o, 0⟩ ⟨o, s.length⟩ = .ok s := by
  rw [readRange_ok hs 0 _ (Nat.zero_le _) (Nat.le_refl _)]; simp

theorem searchStr_eq (E : Engine C R) {h : Heap C} {o : Nat} {s : List C} (hs : h o = some s) (e : R) :
    searchStr E h o e = .ok ((E.search e s).map (mkMatch ⟨o, 0⟩ ⟨o, s.length⟩)) := by
  simp [searchStr, rangeOf_ok hs, search, readRange_all hs]

theorem matchStr_eq (E : Engine C R) {h : Heap C} {o : Nat} {s : List C} (hs : h o = some s) (e : R) :
    matchStr E h o e = .ok ((E.full e s).map (mkMatch ⟨o, 0⟩ ⟨o, s.length⟩)) := by
  simp [matchStr, rangeOf_ok hs, fullMatch, readRange_all hs]

theorem three (s : List C) (a b : Nat) (h1 : a ≤ b) :
    (s.drop 0).take a ++ (s.drop a).take (b - a) ++ (s.drop b).take (s.length - b) = s := by
  have h3 : (s.drop b).take (s.length - b) = s.drop b := List.take_of_length_le (by simp)
  have h4 : (s.drop a).take (b - a) ++ s.drop b = s.drop a := by
    have := List.take_append_drop (b - a) (s.drop a)
    rwa [List.drop_drop, show a + (b - a) = b by omega] at this
  rw [List.drop_zero, h3, List.append_assoc, h4, List.take_append_drop]

/-- C137.  After a search in a living string, the parts before the match, the match and the part behind it can be read and make up the text; every
group can be read and is a part of the text. -/
theorem C137_parts {E : Engine C R} (hE : Sound E) (h : Heap C) (o : Nat) (s : List C) (hs : h o = some s) (e : R) (m : SMatch)
    (hm : searchStr E h o e = .ok (some m)) :
    (∃ p w q, m.pre.str h = .ok p ∧ m.whole.str h = .ok w ∧ m.suf.str h = .ok q ∧ p ++ w ++ q = s) ∧
    (∀ g ∈ m.groups, ∃ t, g.str h = .ok t ∧ t <:+: s) := by
  rw [searchStr_eq E hs] at hm
  cases hr : E.search e s with
  | none => rw [hr] at hm; cases hm
  | some r =>
    obtain ⟨a, b, gs⟩ := r
    rw [hr] at hm
    injection hm with hm
    injection hm with hm
    subst hm
    obtain ⟨h1, h2, h3⟩ := hE.search e s a b gs hr
    refine ⟨⟨_, _, _, ?_, ?_, ?_, three s a b h1⟩, fun g hg => ?_⟩
    · show Sub.str h ⟨⟨o, 0⟩, ⟨o, 0 + a⟩, true⟩ = _
      rw [Sub.str, if_pos rfl, Nat.zero_add, readRange_ok hs 0 a (Nat.zero_le _) (by omega), Nat.sub_zero]
    · show Sub.str h ⟨⟨o, 0 + a⟩, ⟨o, 0 + b⟩, true⟩ = _
      rw [Sub.str, if_pos rfl, Nat.zero_add, Nat.zero_add, readRange_ok hs a b h1 h2]
    · show Sub.str h ⟨⟨o, 0 + b⟩, ⟨o, s.length⟩, true⟩ = _
      rw [Sub.str, if_pos rfl, Nat.zero_add, readRange_ok hs b _ h2 (Nat.le_refl _)]
    · obtain ⟨g', hg', rfl⟩ := List.mem_map.mp hg
      cases g' with
      | none => exact ⟨[], rfl, List.nil_infix⟩
      | some xy =>
        obtain ⟨x, y⟩ := xy
        obtain ⟨h4, h5⟩ := h3 x y hg'
        refine ⟨(s.drop x).take (y - x), ?_, ?_⟩
        · show Sub.str h ⟨⟨o, 0 + x⟩, ⟨o, 0 + y⟩, true⟩ = _
          rw [Sub.str, if_pos rfl, Nat.zero_add, Nat.zero_add, readRange_ok hs x y h4 h5]
        · exact (List.take_prefix _ _).isInfix.trans (List.drop_suffix _ _).isInfix

/-- C137.  A search between two iterators looks at the text between them only: prefix, match and suffix make up that text, and they stand in
the string where they were found. -/
theorem C137_range {E : Engine C R} (hE : Sound E) (h : Heap C) (o : Nat) (s : List C) (hs : h o = some s) (x y : Nat) (h1 : x ≤ y)
    (h2 : y ≤ s.length) (e : R) (m : SMatch) (hm : search E h ⟨o, x⟩ ⟨o, y⟩ e = .ok (some m)) :
    (∃ p w q, m.pre.str h = .ok p ∧ m.whole.str h = .ok w ∧ m.suf.str h = .ok q ∧ p ++ w ++ q = (s.drop x).take (y - x) ∧
      m.whole.first.pos = x + p.length ∧ m.whole.second.pos = x + p.length + w.length ∧ m.suf.second.pos = y) := by
  rw [search, readRange_ok hs x y h1 h2, Res.ok_bind] at hm
  cases hr : E.search e ((s.drop x).take (y - x)) with
  | none => rw [hr] at hm; cases hm
  | some r =>
    obtain ⟨a, b, gs⟩ := r
    rw [hr] at hm
    injection hm with hm
    injection hm with hm
    subst hm
    obtain ⟨q1, q2, _⟩ := hE.search _ _ _ _ _ hr
    simp only [List.length_take, List.length_drop] at q2
    have hb : b ≤ y - x := by omega
    refine ⟨(s.drop x).take a, (s.drop (x + a)).take (b - a), (s.drop (x + b)).take (y - (x + b)), ?_, ?_, ?_, ?_, ?_, ?_, rfl⟩
    · show Sub.str h ⟨⟨o, x⟩, ⟨o, x + a⟩, true⟩ = _
      rw [Sub.str, if_pos rfl, readRange_ok hs x (x + a) (by omega) (by omega), Nat.add_sub_cancel_left]
    · show Sub.str h ⟨⟨o, x + a⟩, ⟨o, x + b⟩, true⟩ = _
      rw [Sub.str, if_pos rfl, readRange_ok hs (x + a) (x + b) (by omega) (by omega), show x + b - (x + a) = b - a by omega]
    · show Sub.str h ⟨⟨o, x + b⟩, ⟨o, y⟩, true⟩ = _
      rw [Sub.str, if_pos rfl, readRange_ok hs (x + b) y (by omega) h2]
    · have t1 : (s.drop x).take a ++ (s.drop (x + a)).take (b - a) = (s.drop x).take b := by
        rw [show (s.drop x).take b = (s.drop x).take (a + (b - a)) by congr 1; omega, List.take_add, List.drop_drop]
      rw [t1, show (s.drop x).take (y - x) = (s.drop x).take (b + (y - (x + b))) by congr 1; omega, List.take_add, List.drop_drop]
    · show x + a = x + ((s.drop x).take a).length
      simp only [List.length_take, List.length_drop]; omega
    · show x + b = x + ((s.drop x).take a).length + ((s.drop (x + a)).take (b - a)).length
      simp only [List.length_take, List.length_drop]; omega

/-- C137.  Iterators of two strings, or of a string that is gone, make no range: every use of them is undefined. -/
theorem C137_no_range (E : Engine C R) (h : Heap C) (a b : Iter) (e : R) (hab : a.obj ≠ b.obj ∨ h a.obj = none) :
    search E h a b e = .ub ∧ fullMatch E h a b e = .ub ∧ Sub.str h ⟨a, b, true⟩ = .ub ∧
      (h a.obj = none → ∀ fmt, searchStr E h a.obj e = .ub ∧ matchStr E h a.obj e = .ub ∧ replaceStr E h a.obj e fmt = .ub) := by
  have hr : readRange h a b = .ub := by
    rw [readRange]
    rcases hab with q | q
    · rw [if_pos q]
    · split
      · rfl
      · rw [q]
  refine ⟨by rw [search, hr]; rfl, by rw [fullMatch, hr]; rfl, by rw [Sub.str, if_pos rfl, hr], fun q fmt => ?_⟩
  have hg : rangeOf h a.obj = .ub := by rw [rangeOf, q]
  exact ⟨by rw [searchStr, hg]; rfl, by rw [matchStr, hg]; rfl, by rw [replaceStr, hg]; rfl⟩

/-- C137.  A full match is the whole string, with nothing before and behind. -/
theorem C137_full {E : Engine C R} (hE : Sound E) (h : Heap C) (o : Nat) (s : List C) (hs : h o = some s) (e : R) (m : SMatch)
    (hm : matchStr E h o e = .ok (some m)) : m.pre.str h = .ok [] ∧ m.whole.str h = .ok s ∧ m.suf.str h = .ok [] := by
  rw [matchStr_eq E hs] at hm
  cases hr : E.full e s with
  | none => rw [hr] at hm; cases hm
  | some r =>
    obtain ⟨a, b, gs⟩ := r
    rw [hr] at hm
    injection hm with hm
    injection hm with hm
    subst hm
    obtain ⟨rfl, rfl, _⟩ := hE.full e s a b gs hr
    refine ⟨?_, ?_, ?_⟩
    · show Sub.str h ⟨⟨o, 0⟩, ⟨o, 0 + 0⟩, true⟩ = _
      rw [Sub.str, if_pos rfl, readRange_ok hs 0 0 (by omega) (by omega)]; simp
    · show Sub.str h ⟨⟨o, 0 + 0⟩, ⟨o, 0 + s.length⟩, true⟩ = _
      rw [Sub.str, if_pos rfl, Nat.zero_add, Nat.zero_add, readRange_all hs]
    · show Sub.str h ⟨⟨o, 0 + s.length⟩, ⟨o, s.length⟩, true⟩ = _
      rw [Sub.str, if_pos rfl, Nat.zero_add, readRange_ok hs _ _ (by omega) (by omega)]; simp

/-- C137.  The versions without a result answer as those with one, whether or not the string lives on, and replacing gives what the engine gives for
the whole text. -/
theorem C137_bool (E : Engine C R) (h : Heap C) (o : Nat) (s fmt : List C) (e : R) :
    withTemp h o s (fun h => searchBool E h o e) = .ok ((E.search e s).isSome, fun i => if i = o then none else h i) ∧
    withTemp h o s (fun h => matchBool E h o e) = .ok ((E.full e s).isSome, fun i => if i = o then none else h i) ∧
    withTemp h o s (fun h => replaceStr E h o e fmt) = .ok (E.replace e s fmt, fun i => if i = o then none else h i) := by
  have hs : (fun i => if i = o then some s else h i) o = some s := by simp
  refine ⟨?_, ?_, ?_⟩
  · simp only [withTemp, searchBool, searchStr_eq E (h := fun i => if i = o then some s else h i) hs]
    cases E.search e s <;> rfl
  · simp only [withTemp, matchBool, matchStr_eq E (h := fun i => if i = o then some s else h i) hs]
    cases E.full e s <;> rfl
  · simp [withTemp, replaceStr, rangeOf_ok (h := fun i => if i = o then some s else h i) hs, readRange_all (h := fun i => if i = o then some s else h i) hs]

/-- Finding for C137.  The versions with a result take a `const String&`; with an argument that is converted, the string is gone after the call and
no part of the result can be read. -/
theorem C137_finding_temporary (E : Engine C R) (h : Heap C) (o : Nat) (s : List C) (e : R) (m : SMatch) (h' : Heap C)
    (hm : withTemp h o s (fun h => searchStr E h o e) = .ok (some m, h')) : m.whole.str h' = .ub ∧ m.pre.str h' = .ub ∧ m.suf.str h' = .ub := by
  have hs : (fun i => if i = o then some s else h i) o = some s := by simp
  simp only [withTemp, searchStr_eq E (h := fun i => if i = o then some s else h i) hs, Res.ok_bind, Res.pure_eq] at hm
  injection hm with hm
  injection hm with h1 h2
  subst h2
  cases hr : E.search e s with
  | none => rw [hr] at h1; cases h1
  | some r =>
    rw [hr] at h1
    injection h1 with h1
    subst h1
    refine ⟨?_, ?_, ?_⟩ <;> simp [mkMatch, mkSub, Sub.str, readRange]

theorem takeWhile_all {p : List C} {f : C → Bool} (h : ∀ x ∈ p, f x = true) : p.takeWhile f = p := by
  induction p with
  | nil => rfl
  | cons x p ih => rw [List.takeWhile_cons, if_pos (h x (by simp)), ih fun y hy => h y (by simp [hy])]

/-- C137.  All ways to give a pattern agree if it has no NUL. -/
theorem C137_pattern (E : Engine C R) (z : C) (p : List C) (h : z ∉ p) : ofString E z p = ofRange E p := by
  rw [ofString, ofRange, cstr, takeWhile_all]
  intro x hx
  simp only [ne_eq, decide_eq_true_eq]
  exact fun e => h (e ▸ hx)

/-- Finding for C137.  A pattern given as a `String` ends at its first NUL: what is behind it is ignored without an error. -/
theorem C137_finding_pattern_nul (E : Engine C R) (z : C) (p q : List C) (h : z ∉ p) : ofString E z (p ++ z :: q) = ofString E z p := by
  have hp : ∀ x ∈ p, decide (x ≠ z) = true := by
    intro x hx
    simp only [ne_eq, decide_eq_true_eq]
    exact fun e => h (e ▸ hx)
  rw [ofString, ofString, cstr, cstr, List.takeWhile_append_of_pos hp, takeWhile_all hp]
  simp

/-! ## Cases -/

/-- An engine for literal texts: the first place where the pattern stands. -/
def literal : Engine Nat (List Nat) where
  compile p := p
  search p t := ((List.range (t.length + 1)).find? fun i => p.isPrefixOf (t.drop i)).map fun i => (i, i + p.length, [])
  full p t := if p = t then some (0, t.length, []) else none
  replace _ t _ := t

theorem literal_sound : Sound literal := by
  refine ⟨fun r t a b gs h => ?_, fun r t a b gs h => ?_⟩
  · simp only [literal, Option.map_eq_some_iff] at h
    obtain ⟨i, hi, e⟩ := h
    injection e with e1 e2
    injection e2 with e2 e3
    subst e1 e2 e3
    have h1 := List.mem_of_find?_eq_some hi
    have h2 := List.find?_some hi
    have h3 := (List.isPrefixOf_iff_prefix.mp h2).length_le
    simp at h1 h3
    exact ⟨by omega, by omega, by simp⟩
  · simp only [literal] at h
    split at h
    · injection h with h
      injection h with h1 h2
      injection h2 with h2 h3
      subst h1 h2 h3
      simp
    · cases h

def oneString : Heap Nat := fun i => if i = 7 then some [5, 1, 2, 6] else none

example : ∃ m, searchStr literal oneString 7 (ofString literal 0 [1, 2]) = .ok (some m) ∧ m.pre.str oneString = .ok [5] ∧
    m.whole.str oneString = .ok [1, 2] ∧ m.suf.str oneString = .ok [6] := ⟨_, rfl, rfl, rfl, rfl⟩
example : ofString literal 0 [1, 0, 2] = ofString literal 0 [1] := C137_finding_pattern_nul literal 0 [1] [2] (by decide)
example : ∃ m h', withTemp (fun _ => none) 7 [5, 1, 2, 6] (fun h => searchStr literal h 7 [1, 2]) = .ok (some m, h') ∧ m.whole.str h' = .ub :=
  ⟨_, _, rfl, rfl⟩

#print axioms C137_parts
#print axioms C137_full
#print axioms C137_bool
#print axioms C137_finding_temporary
#print axioms C137_pattern
#print axioms C137_finding_pattern_nul
#print axioms C137_range
#print axioms C137_no_range

end Verif.Props.RegexWrap
