import Verif.Props.UString
import Verif.Props.Utf
import Verif.Model.UStream
import Verif.Spec.UStream
set_option linter.unusedSimpArgs false

/-! # C125: Unicode strings on standard streams -/
namespace Verif.Props.UStream
open Verif Verif.UStream Verif.UString Verif.Utf Verif.Spec.Utf Verif.Spec.UStream
open Verif.Props.UString (chars)

theorem span_at (p : Nat → Bool) (a t : List Nat) (c : Nat) (ha : ∀ x ∈ a, p x = true) (hc : p c = false) :
    (a ++ c :: t).takeWhile p = a ∧ (a ++ c :: t).dropWhile p = c :: t := by
  induction a with
  | nil => simp [hc]
  | cons x a ih =>
    have hx := ha x (by simp)
    obtain ⟨e1, e2⟩ := ih (fun y hy => ha y (by simp [hy]))
    simp [hx, e1, e2]

theorem span_all (p : Nat → Bool) (a : List Nat) (ha : ∀ x ∈ a, p x = true) : a.takeWhile p = a ∧ a.dropWhile p = [] := by
  induction a with
  | nil => simp
  | cons x a ih =>
    have hx := ha x (by simp)
    obtain ⟨e1, e2⟩ := ih (fun y hy => ha y (by simp [hy]))
    simp [hx, e1, e2]

theorem getline_ended (d : Nat) (l rest : List Nat) (hl : d ∉ l) :
    stdGetline d ⟨l ++ d :: rest, false, false⟩ = (l, ⟨rest, false, false⟩) := by
  have hp : ∀ x ∈ l, decide (x ≠ d) = true := by
    intro x hx
    have : x ≠ d := fun h => hl (h ▸ hx)
    simp [this]
  obtain ⟨e1, e2⟩ := span_at (fun x => decide (x ≠ d)) l rest d hp (by simp)
  simp only [stdGetline, Bool.or_self, Bool.false_eq_true, if_false]
  rw [if_pos (by simp), e1, e2]
  rfl

theorem getline_last (d : Nat) (l : List Nat) (hl : d ∉ l) :
    stdGetline d ⟨l, false, false⟩ = (l, ⟨[], true, l.isEmpty⟩) := by
  simp [stdGetline, hl]

theorem getline_eof (d : Nat) (l : List Nat) (f : Bool) : stdGetline d ⟨l, true, f⟩ = ([], ⟨l, true, true⟩) := by
  simp [stdGetline]

theorem assign8_nil (str : List Int) : assign8 1 str [] = .ok (false, []) := by simp [assign8, append8]

theorem assign8_good (str : List Int) (cs : List Nat) (hcs : ∀ c ∈ cs, Scalar c) :
    assign8 ((utf8s cs).length + 1) str (utf8s cs) = .ok (false, chars cs) :=
  Verif.Props.UString.C62_assign_text str cs hcs _ (by omega)

/-- Ill-formed text: the assignment throws. -/
theorem assign8_bad (str : List Int) (s : List Nat) (hb : ∀ b ∈ s, b < 256) (hs : ∀ cs, (∀ c ∈ cs, Scalar c) → s ≠ utf8s cs) :
    ∃ part, assign8 (s.length + 1) str s = .ok (true, part) := by
  obtain ⟨cs, t, h1, h2, _, h4⟩ := Verif.Props.UString.C62_append_text [] s hb (s.length + 1) (by omega)
  refine ⟨[] ++ chars cs, ?_⟩
  rw [assign8, h4]
  have : t ≠ [] := by
    rintro rfl
    exact hs cs h1 (by simpa using h2)
  simp [this]

/-- The lines a text begins with, each with its delimiter. -/
theorem lines_run (d : Nat) (css : List (List Nat)) (hcs : ∀ cs ∈ css, ∀ c ∈ cs, Scalar c) (hd : ∀ cs ∈ css, d ∉ utf8s cs) :
    ∀ (fuel : Nat) (rest : List Nat) (str : List Int), ∃ str', lineLoop d (css.length + fuel) ⟨css.flatMap (fun cs => utf8s cs ++ [d]) ++ rest, false, false⟩ str =
      (lineLoop d fuel ⟨rest, false, false⟩ str').bind fun q => .ok (css.map chars ++ q.1, q.2) := by
  induction css with
  | nil =>
    intro fuel rest str
    refine ⟨str, ?_⟩
    simp only [List.length_nil, Nat.zero_add, List.flatMap_nil, List.nil_append, List.map_nil]
    cases lineLoop d fuel ⟨rest, false, false⟩ str <;> rfl
  | cons cs css ih =>
    intro fuel rest str
    obtain ⟨str', e⟩ := ih (fun x hx => hcs x (by simp [hx])) (fun x hx => hd x (by simp [hx])) fuel rest (chars cs)
    refine ⟨str', ?_⟩
    rw [List.length_cons, show css.length + 1 + fuel = css.length + fuel + 1 by omega, lineLoop, getline]
    simp only [List.flatMap_cons, List.append_assoc, List.cons_append, List.nil_append]
    rw [getline_ended d _ _ (hd cs (by simp))]
    dsimp only
    rw [assign8_good str cs (hcs cs (by simp))]
    simp only [Res.ok_bind, Res.pure_eq, Bool.false_eq_true, if_false]
    rw [e]
    cases lineLoop d fuel ⟨rest, false, false⟩ str' <;> simp [Res.bind, Bind.bind]

/-- C125.  Reading a well-formed text line by line gives exactly its lines, and then the stream says so. -/
theorem C125_lines (d : Nat) (b : List Nat) (css : List (List Nat)) (hcs : ∀ cs ∈ css, ∀ c ∈ cs, Scalar c)
    (h : IsLines d b (css.map utf8s)) (str : List Int) :
    lineLoop d (css.length + 1) ⟨b, false, false⟩ str = .ok (css.map chars, .stream, ⟨[], true, true⟩) := by
  obtain ⟨h1, h2 | ⟨init, last, h2, h3, h4⟩⟩ := h
  · subst h2
    obtain ⟨str', e⟩ := lines_run d css hcs (fun cs hc => h1 _ (List.mem_map_of_mem hc)) 1 [] str
    rw [List.append_nil] at e
    rw [List.flatMap_map, e, lineLoop, getline, getline_last d [] (by simp)]
    simp [assign8_nil, Res.bind]
  · obtain ⟨ci, cl, rfl, rfl, e2⟩ := List.map_eq_append_iff.1 h2
    obtain ⟨x, rfl, rfl⟩ := List.map_eq_singleton_iff.1 e2
    subst h4
    have hx := hcs x (by simp)
    obtain ⟨str', e⟩ := lines_run d ci (fun x hx => hcs x (by simp [hx])) (fun cs hc => h1 _ (by simpa using .inl ⟨cs, hc, rfl⟩)) 2 (utf8s x) str
    have hd : d ∉ utf8s x := h1 _ (by simp)
    rw [List.flatMap_map, List.length_append, List.length_singleton, e, lineLoop, getline, getline_last d _ hd]
    dsimp only
    rw [assign8_good str' x hx]
    have hne : (utf8s x).isEmpty = false := by cases h : utf8s x <;> simp_all
    simp only [Res.ok_bind, Res.pure_eq, hne, Bool.false_eq_true, if_false]
    rw [lineLoop, getline, getline_eof]
    simp [assign8_nil, Res.bind]

/-- C125.  An ill-formed line is an exception: the lines before it have been read, the stream stands behind it. -/
theorem C125_bad_line (d : Nat) (css : List (List Nat)) (hcs : ∀ cs ∈ css, ∀ c ∈ cs, Scalar c) (hd : ∀ cs ∈ css, d ∉ utf8s cs)
    (bad rest : List Nat) (hb : ∀ x ∈ bad, x < 256) (hbad : ∀ cs, (∀ c ∈ cs, Scalar c) → bad ≠ utf8s cs) (hd' : d ∉ bad) (str : List Int)
    (fuel : Nat) :
    lineLoop d (css.length + (fuel + 1)) ⟨css.flatMap (fun cs => utf8s cs ++ [d]) ++ (bad ++ d :: rest), false, false⟩ str =
      .ok (css.map chars, .exception, ⟨rest, false, false⟩) := by
  obtain ⟨str', e⟩ := lines_run d css hcs hd (fuel + 1) (bad ++ d :: rest) str
  rw [e, lineLoop, getline, getline_ended d _ _ hd']
  dsimp only
  obtain ⟨part, e'⟩ := assign8_bad str' bad hb hbad
  rw [e']
  simp [Res.bind]

theorem stringToUtf8_good (cs : List Nat) (hcs : ∀ c ∈ cs, Scalar c) : stringToUtf8 [] (chars cs) = .ok (utf8s cs) :=
  (Verif.Props.Utf.C37_string_roundtrip cs hcs ((utf8s cs).length + 1) (by omega)).2

theorem writeLines_ok (d : Nat) (css : List (List Nat)) (hcs : ∀ cs ∈ css, ∀ c ∈ cs, Scalar c) :
    ∀ os, writeLines d os (css.map chars) = .ok (os ++ css.flatMap fun cs => utf8s cs ++ [d]) := by
  induction css with
  | nil => intro os; simp [writeLines]
  | cons cs css ih =>
    intro os
    rw [List.map_cons, writeLines, insertTo, stringToUtf8_good cs (hcs cs (by simp))]
    simp only [Res.ok_bind, Res.pure_eq]
    rw [ih (fun x hx => hcs x (by simp [hx]))]
    simp

theorem mem_utf8s_ascii {d : Nat} (hd : d < 0x80) (cs : List Nat) (h : d ∈ utf8s cs) : d ∈ cs := by
  simp only [utf8s, List.mem_flatten, List.mem_map] at h
  obtain ⟨l, ⟨c, hc, rfl⟩, h⟩ := h
  have : d = c := by
    rw [utf8] at h
    repeat' split at h
    all_goals simp at h; omega
  exact this ▸ hc

/-- C125.  Lines written with `<<` and an ASCII delimiter that is not in them are read back by `getline`. -/
theorem C125_roundtrip (d : Nat) (hd : d < 0x80) (css : List (List Nat)) (hcs : ∀ cs ∈ css, ∀ c ∈ cs, Scalar c)
    (hn : ∀ cs ∈ css, d ∉ cs) (str : List Int) :
    ∃ b, writeLines d [] (css.map chars) = .ok b ∧
      lineLoop d (css.length + 1) ⟨b, false, false⟩ str = .ok (css.map chars, .stream, ⟨[], true, true⟩) := by
  refine ⟨_, writeLines_ok d css hcs [], ?_⟩
  refine C125_lines d _ css hcs ⟨?_, .inl ?_⟩ str
  · intro l hl
    obtain ⟨cs, hc, rfl⟩ := List.mem_map.1 hl
    exact fun h => hn cs hc (mem_utf8s_ascii hd cs h)
  · simp [List.flatMap_map]

/-! ## Words -/

theorem isSpace_iff (b : Nat) : isSpace b = true ↔ Blank b := by
  simp [isSpace, Blank]; omega

theorem word_end (sp : List Nat) (h : ∀ b ∈ sp, Blank b) : stdWord ⟨sp, false, false⟩ = ([], ⟨[], true, true⟩) := by
  simp [stdWord, (span_all isSpace sp (fun b hb => (isSpace_iff b).2 (h b hb))).2]

theorem notSpace {w : List Nat} (h : ∀ b ∈ w, ¬ Blank b) : ∀ b ∈ w, (!isSpace b) = true := by
  intro b hb
  have := h b hb
  rw [← isSpace_iff] at this
  simpa using this

theorem drop_space (sp w t : List Nat) (hs : ∀ b ∈ sp, Blank b) (hw : w ≠ []) (h : ∀ b ∈ w, ¬ Blank b) :
    (sp ++ (w ++ t)).dropWhile isSpace = w ++ t := by
  cases w with
  | nil => exact absurd rfl hw
  | cons c w =>
    exact (span_at isSpace sp (w ++ t) c (fun b hb => (isSpace_iff b).2 (hs b hb)) (by simpa using notSpace h c (by simp))).2

theorem word_mid (sp w rest : List Nat) (c : Nat) (hs : ∀ b ∈ sp, Blank b) (hw : w ≠ []) (h : ∀ b ∈ w, ¬ Blank b) (hc : Blank c) :
    stdWord ⟨sp ++ w ++ c :: rest, false, false⟩ = (w, ⟨c :: rest, false, false⟩) := by
  obtain ⟨e1, e2⟩ := span_at (fun b => !isSpace b) w rest c (notSpace h) (by simpa using (isSpace_iff c).2 hc)
  have hne : (w ++ c :: rest).isEmpty = false := by cases w <;> simp
  simp only [stdWord, Bool.or_self, Bool.false_eq_true, if_false, List.append_assoc, drop_space sp w _ hs hw h, e1, e2, hne,
    List.isEmpty_cons]

theorem word_last (sp w : List Nat) (hs : ∀ b ∈ sp, Blank b) (hw : w ≠ []) (h : ∀ b ∈ w, ¬ Blank b) :
    stdWord ⟨sp ++ w, false, false⟩ = (w, ⟨[], true, false⟩) := by
  obtain ⟨e1, e2⟩ := span_all (fun b => !isSpace b) w (notSpace h)
  have hne : w.isEmpty = false := by cases w <;> simp_all
  have e := drop_space sp w [] hs hw h
  simp only [List.append_nil] at e
  simp [stdWord, e, e1, e2, hne]

theorem word_eof (l : List Nat) (f : Bool) : stdWord ⟨l, true, f⟩ = ([], ⟨l, true, true⟩) := by simp [stdWord]

/-- C125.  Reading a well-formed text with `>>` gives exactly its words; only ASCII white space separates them. -/
theorem C125_words (b : List Nat) (ws : List (List Nat)) (h : IsWords b ws) (css : List (List Nat)) (hw : ws = css.map utf8s)
    (hcs : ∀ cs ∈ css, ∀ c ∈ cs, Scalar c) (str : List Int) :
    wordLoop (css.length + 1) ⟨b, false, false⟩ str = .ok (css.map chars, .stream, ⟨[], true, true⟩) := by
  induction h generalizing css str with
  | nil sp hs =>
    obtain rfl : css = [] := by simpa using hw.symm
    rw [List.length_nil, wordLoop, extract, word_end sp hs]
    simp [assign8_nil]
  | last sp w hs hne hb =>
    obtain ⟨x, rfl, rfl⟩ := List.map_eq_singleton_iff.1 hw.symm
    rw [List.length_singleton, wordLoop, extract, word_last sp _ hs hne hb]
    dsimp only
    rw [assign8_good str x (hcs x (by simp))]
    simp only [Res.ok_bind, Res.pure_eq, Bool.false_eq_true, if_false]
    rw [wordLoop, extract, word_eof]
    simp [assign8_nil]
  | cons sp w c rest ws hs hne hb hc _ ih =>
    obtain ⟨x, css, rfl, rfl, e⟩ := List.map_eq_cons_iff.1 hw.symm
    rw [List.length_cons, wordLoop, extract, word_mid sp _ rest c hs hne hb hc]
    dsimp only
    rw [assign8_good str x (hcs x (by simp))]
    simp only [Res.ok_bind, Res.pure_eq, Bool.false_eq_true, if_false]
    rw [ih css e.symm (fun y hy => hcs y (by simp [hy]))]
    rfl

/-! ## Writing -/

theorem toUtf8_valid (c : Int) : isValidCode c = true ↔ toUtf8 c ≠ [] := by
  rw [isValidCode, decide_eq_true_eq, getCharSize, toUtf8]
  repeat' split
  all_goals first | omega | simp_all <;> omega

theorem stringToUtf8_append (str : List Int) : ∀ out, stringToUtf8 out str =
    (stringToUtf8 [] str).bind fun t => .ok (out ++ t) := by
  induction str with
  | nil => intro out; simp [stringToUtf8, Res.bind]
  | cons c cs ih =>
    intro out
    rw [stringToUtf8, stringToUtf8, appendUtf8, appendUtf8]
    by_cases h : (toUtf8 c).length > 0
    · simp only [h, if_true]
      rw [ih (out ++ toUtf8 c), ih ([] ++ toUtf8 c)]
      cases stringToUtf8 [] cs <;> simp [Res.bind]
    · simp [h, Res.bind]

/-- C125.  `isValid` tells exactly whether `<<` and `toUtf8` will throw; a string that is refused leaves nothing in the stream. -/
theorem C125_valid (os : List Nat) (str : List Int) :
    (isValid str = true → insertTo os str = .ok (os ++ str.flatMap toUtf8)) ∧ (isValid str = false → insertTo os str = .throw) := by
  have key : (isValid str = true → stringToUtf8 [] str = .ok (str.flatMap toUtf8)) ∧ (isValid str = false → stringToUtf8 [] str = .throw) := by
    induction str with
    | nil => simp [isValid, stringToUtf8]
    | cons c cs ih =>
      rw [isValid, stringToUtf8, appendUtf8]
      have hv := toUtf8_valid c
      by_cases h : isValidCode c = true
      · have hl : (toUtf8 c).length > 0 := List.length_pos_iff.mpr (hv.1 h)
        simp only [h, hl, Bool.not_true, Bool.false_eq_true, if_false, if_true, List.nil_append]
        rw [stringToUtf8_append]
        refine ⟨fun e => ?_, fun e => ?_⟩
        · rw [ih.1 e]; rfl
        · rw [ih.2 e]; rfl
      · have hl : ¬ (toUtf8 c).length > 0 := by
          intro hl
          exact h (hv.2 (List.length_pos_iff.mp hl))
        simp [h, hl]
  rw [insertTo]
  exact ⟨fun h => by rw [key.1 h]; rfl, fun h => by rw [key.2 h]; rfl⟩

/-- C125.  For characters that are not negative, `isValid` means: Unicode scalar values only. -/
theorem C125_valid_scalars (cs : List Nat) : isValid (chars cs) = true ↔ ∀ c ∈ cs, Scalar c := by
  induction cs with
  | nil => simp [chars, isValid]
  | cons c cs ih =>
    have hv := (Verif.Props.Utf.C37_char_size c).2.2
    simp only [chars, List.map_cons, isValid, List.forall_mem_cons] at ih ⊢
    by_cases h : isValidCode (c : Int) = true
    · simp only [h, Bool.not_true, Bool.false_eq_true, if_false]
      exact ih.trans ⟨fun x => ⟨hv.1 h, x⟩, fun x => x.2⟩
    · simp only [h, Bool.not_false, if_true, Bool.false_eq_true, false_iff]
      exact fun x => h (hv.2 x.1)

/-- Finding: a read at the end of the stream empties the string (`std::getline` leaves it as it is). -/
theorem C125_finding_cleared (d : Nat) (rest : List Nat) (str : List Int) :
    getline d ⟨rest, true, false⟩ str = .ok (false, [], ⟨rest, true, true⟩) ∧
    extract ⟨rest, true, false⟩ str = .ok (false, [], ⟨rest, true, true⟩) := by
  simp [getline, extract, getline_eof, word_eof, assign8_nil]

/-- Finding: a delimiter outside ASCII cuts characters: U+00E9 with the delimiter A9 is an exception. -/
theorem C125_finding_delimiter : lineLoop 0xa9 9 ⟨utf8s [0xe9], false, false⟩ [] = .ok ([], .exception, ⟨[], false, false⟩) := by
  decide +kernel

/-- The hypotheses hold: two lines, the second without delimiter; words around white space; an ill-formed line. -/
example : IsLines 10 [0x61, 10, 0xc3, 0xa9] ([[0x61], [0xe9]].map utf8s) :=
  ⟨by decide, .inr ⟨[[0x61]], [0xc3, 0xa9], rfl, by decide, rfl⟩⟩
example : lineLoop 10 3 ⟨[0x61, 10, 0xc3, 0xa9], false, false⟩ [] = .ok ([[0x61], [0xe9]], .stream, ⟨[], true, true⟩) := by decide +kernel
example : IsWords [32, 0x61, 9, 10, 0x62] [[0x61], [0x62]] :=
  .cons [32] [0x61] 9 [10, 0x62] [[0x62]] (by simp [Blank]) (by simp) (by simp [Blank]) (by simp [Blank])
    (.last [9, 10] [0x62] (by simp [Blank]) (by simp) (by simp [Blank]))
example : wordLoop 3 ⟨[32, 0x61, 9, 10, 0x62], false, false⟩ [] = .ok ([[0x61], [0x62]], .stream, ⟨[], true, true⟩) := by decide +kernel
example : lineLoop 10 3 ⟨[0xff, 10, 0x62], false, false⟩ [] = .ok ([], .exception, ⟨[0x62], false, false⟩) := by decide +kernel
example : isValid [0x41, 0xd800] = false ∧ isValid [0x41, 0x10ffff] = true := by decide

end Verif.Props.UStream

#print axioms Verif.Props.UStream.C125_lines
#print axioms Verif.Props.UStream.C125_bad_line
#print axioms Verif.Props.UStream.C125_roundtrip
#print axioms Verif.Props.UStream.C125_words
#print axioms Verif.Props.UStream.C125_valid
#print axioms Verif.Props.UStream.C125_valid_scalars
#print axioms Verif.Props.UStream.C125_finding_cleared
#print axioms Verif.Props.UStream.C125_finding_delimiter
