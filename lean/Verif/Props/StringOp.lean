import Verif.Proof.StringOp
set_option linter.unusedSimpArgs false

/-! C29 (Split), C30 (Trim, TrimCopy, Strip) and C31 (CaseCompare, CaseEqual, CaseFind). -/
namespace Verif.Props.StringOp
open Verif.StringOp Verif.Spec.StringOp

section
variable {α : Type} [DecidableEq α]

/-- C29.  `Split` with `doClear`: joining the pieces gives back the input, there are
`min(maxNum, separators + 1)` of them, that is the returned number, and only the last may contain a separator. -/
theorem C29_split (out : List (List α)) (s : List α) (sep : α) (maxNum : Nat) (h1 : 1 ≤ maxNum) (h2 : maxNum < 2 ^ 64) :
    ∃ ps, split out s sep maxNum true = .ok (ps, ps.length) ∧ join sep ps = s ∧
      ps.length = min maxNum (s.count sep + 1) ∧ ∀ p ∈ ps.dropLast, sep ∉ p := by
  obtain ⟨ps, e1, e2, e3, e4, e5⟩ := splitLoop_spec sep s (maxNum - 1) (s.length + 1) 0 0 [] (by omega) (by omega) (by omega)
  refine ⟨ps, ?_, by simpa using e2, by rw [e4]; simp; omega, e5⟩
  rw [split, show (maxNum + 2 ^ 64 - 1) % 2 ^ 64 = maxNum - 1 by omega, if_pos rfl, e1]
  simp

omit [DecidableEq α] in
theorem sum_zero (l : List Nat) (h : l.sum = 0) : ∀ x ∈ l, x = 0 := by
  induction l with
  | nil => simp
  | cons a l ih =>
    rw [List.sum_cons] at h
    intro x hx
    rcases List.mem_cons.mp hx with rfl | hx
    · omega
    · exact ih (by omega) x hx

/-- C29.  When the limit does not bite no piece contains a separator: together with `C29_split` this
determines the pieces. -/
theorem C29_split_all (out : List (List α)) (s : List α) (sep : α) (maxNum : Nat) (h : s.count sep < maxNum)
    (h2 : maxNum < 2 ^ 64) :
    ∃ ps, split out s sep maxNum true = .ok (ps, ps.length) ∧ join sep ps = s ∧ ps.length = s.count sep + 1 ∧
      ∀ p ∈ ps, sep ∉ p := by
  obtain ⟨ps, e1, e2, e3, e4⟩ := C29_split out s sep maxNum (by omega) h2
  refine ⟨ps, e1, e2, by omega, ?_⟩
  have hc : ∀ qs : List (List α), qs ≠ [] → (join sep qs).count sep + 1 = qs.length + (qs.map (List.count sep)).sum := by
    intro qs
    induction qs with
    | nil => intro h; exact absurd rfl h
    | cons q qs ih =>
      intro _
      cases qs with
      | nil => simp [join]; omega
      | cons r rs =>
        have := ih (by simp)
        rw [join, List.count_append, List.count_cons_self, List.length_cons, List.map_cons, List.sum_cons] <;> simp_all <;> omega
  have hne : ps ≠ [] := by intro h; subst h; simp at e3; omega
  have := hc ps hne
  rw [e2] at this
  have hz : (ps.map (List.count sep)).sum = 0 := by omega
  intro p hp
  rw [← List.count_eq_zero]
  exact sum_zero _ hz _ (List.mem_map_of_mem (f := List.count sep) hp)

/-- C29.  Without `doClear` the pieces are appended and the returned number counts the new ones only. -/
theorem C29_split_appends (out : List (List α)) (s : List α) (sep : α) (maxNum : Nat) (h1 : 1 ≤ maxNum)
    (h2 : maxNum < 2 ^ 64) :
    ∃ ps, split out s sep maxNum false = .ok (out ++ ps, ps.length) ∧ split [] s sep maxNum true = .ok (ps, ps.length) := by
  obtain ⟨ps, e1, e2, e3, e4, e5⟩ := splitLoop_spec sep s (maxNum - 1) (s.length + 1) 0 0 out (by omega) (by omega) (by omega)
  obtain ⟨qs, f1, f2, f3, f4, f5⟩ := splitLoop_spec sep s (maxNum - 1) (s.length + 1) 0 0 [] (by omega) (by omega) (by omega)
  have hm : (maxNum + 2 ^ 64 - 1) % 2 ^ 64 = maxNum - 1 := by omega
  have hpq : ps = qs := by
    have key : ∀ (fuel cur num : Nat) (o o' : List (List α)) (r : List (List α)) (n : Nat),
        splitLoop sep s (maxNum - 1) fuel cur num o = .ok (o ++ r, n) →
        splitLoop sep s (maxNum - 1) fuel cur num o' = .ok (o' ++ r, n) := by
      intro fuel
      induction fuel with
      | zero => intro cur num o o' r n h; simp [splitLoop] at h
      | succ fuel ih =>
        intro cur num o o' r n h
        rw [splitLoop] at h ⊢
        split at h
        · simp at h; simp [h]
        · rename_i pos hp
          split at h
          · rename_i hn; simp at h; rw [if_pos hn, h.1, h.2]
          · rename_i hn
            rw [if_neg hn]
            -- the result starts with the piece just found
            have hpre : ∀ (fuel cur num : Nat) (o x : List (List α)) (n : Nat),
                splitLoop sep s (maxNum - 1) fuel cur num o = .ok (x, n) → o <+: x := by
              intro fuel
              induction fuel with
              | zero => intro cur num o x n h; simp [splitLoop] at h
              | succ fuel ih =>
                intro cur num o x n h
                rw [splitLoop] at h
                split at h
                · simp at h; exact ⟨_, h.1⟩
                · split at h
                  · simp at h; exact ⟨_, h.1⟩
                  · exact (List.prefix_append _ _).trans (ih _ _ _ _ _ h)
            obtain ⟨w, hw⟩ := hpre _ _ _ _ _ _ h
            have hr : r = (s.take pos).drop cur :: w := by
              rw [List.append_assoc] at hw
              exact (List.append_cancel_left hw).symm
            subst hr
            rw [show o ++ (s.take pos).drop cur :: w = o ++ [(s.take pos).drop cur] ++ w by simp] at h
            rw [ih _ _ _ (o' ++ [(s.take pos).drop cur]) _ _ h]
            simp
    have := key _ _ _ _ [] _ _ e1
    rw [f1] at this
    simp at this
    exact this.1.symm
  subst hpq
  exact ⟨ps, by rw [split, hm]; simpa using e1, by rw [split, hm]; simpa using f1⟩

/-- C29 (finding).  A limit of 0 pieces is no limit: `maxNum - 1` wraps around. -/
theorem C29_zero_is_unlimited (s : List α) (sep : α) (h : s.length < 2 ^ 64 - 1) :
    split [] s sep 0 true = split [] s sep (2 ^ 64) true ∧
    ∃ ps, split [] s sep 0 true = .ok (ps, ps.length) ∧ ps.length = s.count sep + 1 := by
  refine ⟨rfl, ?_⟩
  obtain ⟨ps, e1, e2, e3, e4, e5⟩ := splitLoop_spec sep s (2 ^ 64 - 1) (s.length + 1) 0 0 [] (by omega) (by omega) (by omega)
  have hc := List.count_le_length (a := sep) (l := s)
  refine ⟨ps, ?_, by rw [e4]; simp; omega⟩
  rw [split, show (0 + 2 ^ 64 - 1) % 2 ^ 64 = 2 ^ 64 - 1 by omega, if_pos rfl, e1]
  simp

end

section
variable {α : Type}

/-- C30.  `Trim` in place and `TrimCopy` give the same string, which is the input without its blank ends. -/
theorem C30_trim (blank : α → Bool) (s : List α) :
    ∃ m, trim blank s = .ok m ∧ trimCopy blank s = .ok m ∧ IsTrimmed blank s m := trim_eq blank s

/-- C30.  `IsTrimmed` determines the result. -/
theorem C30_trim_unique (blank : α → Bool) (s m : List α) (h : IsTrimmed blank s m) :
    trim blank s = .ok m ∧ trimCopy blank s = .ok m := by
  obtain ⟨m', h1, h2, h3⟩ := trim_eq blank s
  rw [trimmed_unique h h3]; exact ⟨h1, h2⟩

/-- C30.  Trimming twice is trimming once. -/
theorem C30_trim_idempotent (blank : α → Bool) (s m : List α) (h : trim blank s = .ok m) :
    trim blank m = .ok m ∧ trimCopy blank m = .ok m := by
  obtain ⟨m', h1, h2, h3⟩ := trim_eq blank s
  rw [h1] at h
  cases h
  exact C30_trim_unique blank _ _ (trimmed_again h3)

end

/-- C30.  `Strip` removes exactly the CR and LF at the end. -/
theorem C30_strip (s : List Int) :
    ∃ m, strip s = .ok m ∧ IsStripped (fun c : Int => decide (c = ('\n'.toNat : Nat) ∨ c = ('\r'.toNat : Nat))) s m := by
  obtain ⟨n, h1, h2, h3, h4⟩ := stripLoop_spec s s.length (Nat.le_refl _)
  have e1 : (('\n'.toNat : Nat) : Int) = 10 := rfl
  have e2 : (('\r'.toNat : Nat) : Int) = 13 := rfl
  refine ⟨s.take n, by rw [strip, h1]; rfl, s.drop n, by simp, ?_, ?_⟩
  · intro x hx
    obtain ⟨i, hi, rfl⟩ := List.mem_iff_getElem.mp hx
    rw [List.length_drop] at hi
    rw [List.getElem_drop, e1, e2]
    simpa using h3 (n + i) (by omega) (by omega) (by omega)
  · intro x hx
    rw [List.getLast?_eq_getElem?, Option.mem_def, List.getElem?_eq_some_iff] at hx
    obtain ⟨h, rfl⟩ := hx
    rw [List.length_take] at h
    have := h4 (by omega) (by omega)
    rw [List.getElem_take, e1, e2]
    have hl : (s.take n).length - 1 = n - 1 := by rw [List.length_take]; omega
    simpa only [hl, decide_eq_false_iff_not] using this

/-- C30.  The blanks of `Char` strings are the Unicode white space characters, for every 32-bit value. -/
theorem C30_wide_blank (c : Int) (h1 : -2 ^ 31 ≤ c) (h2 : c < 2 ^ 31) :
    isSpaceWide c = true ↔ ∃ w ∈ whiteSpace, c = w := by
  have hl : (∃ w ∈ whiteSpace, c = (w : Int)) ↔
      (9 ≤ c ∧ c ≤ 13) ∨ c = 0x20 ∨ c = 0x85 ∨ c = 0xa0 ∨ c = 0x1680 ∨ c = 0x180e ∨ (0x2000 ≤ c ∧ c ≤ 0x200a) ∨
        (0x2028 ≤ c ∧ c ≤ 0x2029) ∨ c = 0x202f ∨ c = 0x205f ∨ c = 0x3000 ∨ c = 0xfeff := by
    simp only [whiteSpace, List.mem_cons, List.not_mem_nil, or_false, exists_eq_or_imp, exists_eq_left]
    omega
  rw [hl, isSpaceWide, toUnsigned, toUnsigned, toUnsigned]
  repeat' split
  all_goals simp only [true_iff, Bool.false_eq_true, false_iff]
  all_goals omega

/-- C30.  The blanks of `char` strings are space and tab. -/
theorem C30_char_blank (c : Int) : isSpaceChar c = true ↔ c = ' '.toNat ∨ c = '\t'.toNat := by
  have e1 : ((' '.toNat : Nat) : Int) = 32 := rfl
  have e2 : (('\t'.toNat : Nat) : Int) = 9 := rfl
  rw [isSpaceChar, e1, e2]; split <;> simp_all

/-- C31.  `CaseCompare` compares the lower-cased strings lexicographically. -/
theorem C31_compare (a b : List Int) :
    (caseCompare a b = 0 ↔ a.map lower = b.map lower) ∧ (caseCompare a b = -1 ↔ a.map lower < b.map lower) ∧
    (caseCompare a b = 1 ↔ b.map lower < a.map lower) ∧ (caseCompare a b = -1 ∨ caseCompare a b = 0 ∨ caseCompare a b = 1) := by
  have h1 : caseCompare a b = 1 ↔ b.map lower < a.map lower := by
    rw [← caseCompare_lt, caseCompare_neg b a]; omega
  refine ⟨caseCompare_zero a b, caseCompare_lt a b, h1, ?_⟩
  rw [caseCompare_zero, caseCompare_lt, h1]
  by_cases h : a.map lower = b.map lower
  · right; left; exact h
  · by_cases h2 : a.map lower < b.map lower
    · left; exact h2
    · right; right
      have h3 := List.not_lt.mp h2
      rcases List.le_iff_lt_or_eq.mp h3 with h4 | h4
      · exact h4
      · exact absurd h4.symm h

/-- C31.  Reflexive. -/
theorem C31_compare_refl (a : List Int) : caseCompare a a = 0 := (caseCompare_zero a a).mpr rfl

/-- C31.  Swapping the arguments changes the sign. -/
theorem C31_compare_swap (a b : List Int) : caseCompare a b = - caseCompare b a := caseCompare_neg a b

/-- C31.  Transitive. -/
theorem C31_compare_trans (a b c : List Int) (h1 : caseCompare a b ≤ 0) (h2 : caseCompare b c ≤ 0) :
    caseCompare a c ≤ 0 := by
  have key : ∀ x y, caseCompare x y ≤ 0 ↔ ¬ (y.map lower < x.map lower) := by
    intro x y
    obtain ⟨_, _, k3, k4⟩ := C31_compare x y
    rw [← k3]; omega
  rw [key] at *
  exact fun h => h1 (List.lt_of_le_of_lt (List.not_lt.mp h2) h)

/-- C31.  `CaseEqual` agrees with `CaseCompare` and with equality of the lower-cased strings. -/
theorem C31_equal (a b : List Int) :
    (caseEqual a b = true ↔ a.map lower = b.map lower) ∧ (caseEqual a b = true ↔ caseCompare a b = 0) :=
  ⟨caseEqual_iff a b, by rw [caseEqual_iff, caseCompare_zero]⟩

/-- C31.  `CaseEqualStartWith` tests for a prefix, case ignored. -/
theorem C31_start_with (a b : List Int) : caseEqualStartWith a b = true ↔ b.map lower <+: a.map lower := by
  rw [caseEqualStartWith]
  by_cases h : a.length < b.length
  · rw [if_pos h]
    constructor
    · intro h; simp at h
    · intro hp; have := hp.length_le; simp at this; omega
  · rw [if_neg h, caseEqual_iff, List.prefix_iff_eq_take, List.length_map, List.map_take]
    exact eq_comm

/-- C31.  On a non-empty string `CaseFind` returns the first position at which the target stands, case
ignored, and `npos` only if there is none.  The target has as many characters as it has `char`s.
Missing from the full claim: empty strings (`C31_find_empty_in_empty`) and targets with non-ASCII characters on `cybozu::String` (`C31_find_non_ascii_missed`). -/
theorem C31_find_partial (s t : List Int) (hs : s ≠ []) :
    (∃ p, caseFindStr s t t.length = .ok (some p) ∧ MatchesAt s t p ∧ ∀ q, q < p → ¬ MatchesAt s t q) ∨
    (caseFindStr s t t.length = .ok none ∧ ∀ q, ¬ MatchesAt s t q) := by
  have he : caseFindStr s t t.length = findLoop s (t.map tolower) t.length 0 := by
    cases s with
    | nil => exact absurd rfl hs
    | cons x xs => rfl
  rw [he]
  rcases findLoop_spec s t _ 0 rfl with ⟨p, h1, _, h2, h3⟩ | ⟨h1, h2⟩
  · left; exact ⟨p, h1, h2, fun q hq => h3 q (by omega) hq⟩
  · right; exact ⟨h1, fun q => h2 q (by omega)⟩

/-- C31 (finding).  An empty string does not contain the empty string, though every other string does. -/
theorem C31_find_empty_in_empty : caseFindStr [] [] 0 = .ok none ∧ MatchesAt [] [] 0 ∧
    ∀ s, s ≠ [] → caseFindStr s [] 0 = .ok (some 0) := by
  refine ⟨rfl, ⟨by decide, by simp⟩, ?_⟩
  intro s hs
  rcases C31_find_partial s [] hs with ⟨p, h1, _, h2⟩ | ⟨_, h2⟩
  · have : p = 0 := by
      rcases Nat.eq_zero_or_pos p with h | h
      · exact h
      · exact absurd ⟨by omega, by simp⟩ (h2 0 h)
    rw [this] at h1; exact h1
  · exact absurd ⟨by omega, by simp⟩ (h2 0)

/-- C31 (finding).  On a `cybozu::String` the length of the target is taken in bytes: the one-character
string U+3042 is not found in itself (its UTF-8 form has three bytes) … -/
theorem C31_find_non_ascii_missed : caseFindStr [0x3042] [0x3042] 3 = .ok none ∧ MatchesAt [0x3042] [0x3042] 0 := by
  refine ⟨by decide +kernel, by decide, by simp⟩

/-- … and in a string with NULs after it the comparison reads past the end of the target. -/
theorem C31_find_non_ascii_overread : caseFindStr [0x3042, 0, 0] [0x3042] 3 = .ub := by decide +kernel

theorem toupper_eq (c : Int) : toupper c = upper c := by
  have h1 : (('a'.toNat : Nat) : Int) = 97 := rfl
  have h2 : (('z'.toNat : Nat) : Int) = 122 := rfl
  rw [toupper, upper, h1, h2]
  split <;> omega

theorem transform_eq (f : Int → Int) (inp a b : List Int) (h : b.length = inp.length) :
    transform f inp (a ++ b) a.length = .ok (a ++ inp.map f) := by
  induction inp generalizing a b with
  | nil => rw [List.length_eq_zero_iff.1 h]; rfl
  | cons c cs ih =>
    obtain ⟨x, b, rfl⟩ : ∃ x t, b = x :: t := by
      cases b with
      | nil => simp at h
      | cons x t => exact ⟨x, t, rfl⟩
    have e : BitVector.setAt? (a ++ x :: b) a.length (f c) = .ok ((a ++ [f c]) ++ b) := by
      simp [BitVector.setAt?]
    rw [transform, e, Res.ok_bind]
    have := ih (a ++ [f c]) b (by simpa using h)
    rw [List.length_append, List.length_singleton] at this
    rw [this]
    simp

theorem changeCase_eq (f : Int → Int) (out inp : List Int) (app : Bool) :
    changeCase f out inp app = .ok ((if app then out else []) ++ inp.map f) := by
  unfold changeCase
  cases app
  · simp only [Bool.false_eq_true, if_false, Nat.zero_add]
    exact transform_eq f inp [] _ (by simp [resize]; omega)
  · simp only [if_true]
    have e : resize out (out.length + inp.length) = out ++ List.replicate inp.length 0 := by
      rw [resize, List.take_of_length_le (by omega)]; simp
    rw [e]
    exact transform_eq f inp out _ (by simp)

theorem transformSelf_eq (f : Int → Int) (a b : List Int) : transformSelf f 0 b.length a.length (a ++ b) = .ok (a ++ b.map f) := by
  induction b generalizing a with
  | nil => rfl
  | cons c cs ih =>
    have e0 : at? (a ++ c :: cs) a.length = .ok c := by simp [at?]
    have e : BitVector.setAt? (a ++ c :: cs) (0 + a.length) (f c) = .ok ((a ++ [f c]) ++ cs) := by
      simp [BitVector.setAt?]
    rw [List.length_cons, transformSelf, e0, Res.ok_bind, e, Res.ok_bind]
    have := ih (a ++ [f c])
    rw [List.length_append, List.length_singleton] at this
    rw [this]
    simp

/-- C31.  `ToLower` and `ToUpper` replace the ASCII letters and nothing else; with `doAppend` the result comes behind what is there.
The forms with one argument do so in place. -/
theorem C31_change_case (out s : List Int) :
    toLowerStr out s false = .ok (s.map lower) ∧ toUpperStr out s false = .ok (s.map upper) ∧
      toLowerStr out s true = .ok (out ++ s.map lower) ∧ toUpperStr out s true = .ok (out ++ s.map upper) ∧
      toLowerSelf s = .ok (s.map lower) ∧ toUpperSelf s = .ok (s.map upper) := by
  have e1 : tolower = lower := funext tolower_eq
  have e2 : toupper = upper := funext toupper_eq
  have es : ∀ f, changeCaseSelf f s false = .ok (s.map f) := by
    intro f
    have := transformSelf_eq f [] s
    simpa [changeCaseSelf, resize] using this
  refine ⟨?_, ?_, ?_, ?_, ?_, ?_⟩
  · rw [toLowerStr, changeCase_eq, e1]; rfl
  · rw [toUpperStr, changeCase_eq, e2]; rfl
  · rw [toLowerStr, changeCase_eq, e1]; rfl
  · rw [toUpperStr, changeCase_eq, e2]; rfl
  · rw [toLowerSelf, es, e1]
  · rw [toUpperSelf, es, e2]

/-- C31.  A text and its two forms are equal for `CaseEqual`, and texts equal for it have the same forms. -/
theorem C31_change_case_equal (a b : List Int) :
    caseEqual (a.map lower) a = true ∧ caseEqual (a.map upper) a = true ∧ (caseEqual a b = true ↔ a.map upper = b.map upper) := by
  have hl : ∀ c, lower (lower c) = lower c := by intro c; unfold lower; repeat' split <;> simp_all <;> omega
  have hu : ∀ c, lower (upper c) = lower c := by intro c; unfold lower upper; repeat' split <;> simp_all <;> omega
  have hv : ∀ c, upper (lower c) = upper c := by intro c; unfold lower upper; repeat' split <;> simp_all <;> omega
  refine ⟨(caseEqual_iff _ _).2 ?_, (caseEqual_iff _ _).2 ?_, (caseEqual_iff _ _).trans ⟨fun h => ?_, fun h => ?_⟩⟩
  · simp [hl]
  · simp [hu]
  · have := congrArg (List.map upper) h
    simpa [Function.comp_def, hv] using this
  · have := congrArg (List.map lower) h
    simpa [Function.comp_def, hu] using this

/-- C31, finding: `ToLower(s, s, true)`, which should double the text, writes behind the end of the string. -/
theorem C31_finding_append_to_itself (s : List Int) (h : s ≠ []) :
    changeCaseSelf tolower s true = .ub ∧ changeCaseSelf toupper s true = .ub := by
  have hp : 0 < s.length := List.length_pos_iff.2 h
  have key : ∀ (f : Int → Int) (cnt i : Nat) (t : List Int), t.length = s.length + s.length → i + cnt = t.length → 0 < cnt →
      transformSelf f s.length cnt i t = .ub := by
    intro f cnt
    induction cnt with
    | zero => intro i t _ _ h; omega
    | succ cnt ih =>
      intro i t h1 h2 _
      rw [transformSelf, at?_eq_ok (show i < t.length by omega), Res.ok_bind]
      by_cases hi : s.length + i < t.length
      · have e : BitVector.setAt? t (s.length + i) (f t[i]) = .ok (t.set (s.length + i) (f t[i])) := by
          simp [BitVector.setAt?, hi]
        rw [e, Res.ok_bind]
        exact ih _ _ (by rw [List.length_set]; exact h1) (by rw [List.length_set]; omega) (by omega)
      · have e : BitVector.setAt? t (s.length + i) (f t[i]) = .ub := by
          simp [BitVector.setAt?, hi]
        rw [e]
        rfl
  have hr : (resize s (s.length + s.length)).length = s.length + s.length := by simp [resize]
  constructor <;>
  · unfold changeCaseSelf
    simp only [if_true]
    exact key _ _ 0 _ hr (by omega) (by omega)

/-! Non-trivial cases. -/

example : toUpperStr [33] [104, 233, 90] true = .ok [33, 72, 233, 90] ∧ toLowerSelf [72, 105] = .ok [104, 105] := by decide +kernel
example : changeCaseSelf tolower [65] true = .ub := by decide +kernel
example : split [] [97, 44, 98, 44, 44, 99] (44 : Int) 3 true = .ok ([[97], [98], [44, 99]], 3) := by decide +kernel
example : split [[1]] [97, 44, 98] (44 : Int) 9 false = .ok ([[1], [97], [98]], 2) := by decide +kernel
example : trim isSpaceChar [32, 97, 32, 98, 9, 32] = .ok [97, 32, 98] := by decide +kernel
example : strip [97, 10, 98, 13, 10] = .ok [97, 10, 98] := by decide +kernel
example : caseCompare [65, 98] [97, 67] = -1 := by decide +kernel
example : caseFindStr [120, 65, 66, 97, 98] [97, 98] 2 = .ok (some 1) := by decide +kernel

#print axioms C29_split
#print axioms C29_split_all
#print axioms C29_split_appends
#print axioms C29_zero_is_unlimited
#print axioms C30_trim
#print axioms C30_trim_unique
#print axioms C30_trim_idempotent
#print axioms C30_strip
#print axioms C30_wide_blank
#print axioms C31_compare
#print axioms C31_compare_trans
#print axioms C31_equal
#print axioms C31_start_with
#print axioms C31_find_partial

end Verif.Props.StringOp
