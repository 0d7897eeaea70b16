import Verif.Proof.Utf

/-! C37 (UTF-8) and C38 (UTF-16). -/
namespace Verif.Props.Utf
open Verif.Utf Verif.Spec.Utf

/-- C37.  The encoder writes the UTF-8 form of every scalar value, and refuses every other non-negative value. -/
theorem C37_encode (n : Nat) : (Scalar n → toUtf8 n = utf8 n) ∧ (¬ Scalar n → toUtf8 n = []) :=
  ⟨toUtf8_scalar n, fun h => (toUtf8_eq_nil n (by omega)).mpr (by simpa using h)⟩

/-- C37.  Decoding what was encoded gives the character back and consumes exactly the encoded bytes. -/
theorem C37_roundtrip (n : Nat) (h : Scalar n) (rest : List Nat) :
    getCharFromUtf8 (toUtf8 n ++ rest) = .ok (some ((n : Int), rest)) := by
  rw [toUtf8_scalar n h]; exact decode_utf8 n h rest

/-- C37.  The decoder accepts exactly the well-formed sequences of table 3-7 of the standard, decodes them
right, consumes exactly them, and answers `false` on everything else. -/
theorem C37_decoder_exact (s : List Nat) (hs : s ≠ []) (hb : ∀ b ∈ s, b < 256) :
    (∀ c r, getCharFromUtf8 s = .ok (some (c, r)) ↔ ∃ n : Nat, c = n ∧ Scalar n ∧ s = utf8 n ++ r) ∧
    ((∃ p r, s = p ++ r ∧ Table37 p) ∨ getCharFromUtf8 s = .ok none) ∧
    (∀ p r, s = p ++ r → Table37 p → ∃ n : Nat, utf8 n = p ∧ getCharFromUtf8 s = .ok (some ((n : Int), r))) := by
  refine ⟨fun c r => ⟨fun h => ?_, ?_⟩, ?_, ?_⟩
  · obtain ⟨n, h1, h2, h3, _⟩ := decode_accepts s r c hb h
    exact ⟨n, h1, h2, h3⟩
  · rintro ⟨n, rfl, h2, rfl⟩
    exact decode_utf8 n h2 r
  · rcases getCharFromUtf8_shape s hs with h | ⟨c, r, h⟩
    · exact .inr h
    · obtain ⟨n, _, _, _, p, h4, h5⟩ := decode_accepts s r c hb h
      exact .inl ⟨p, r, h5, h4⟩
  · rintro p r rfl hp
    obtain ⟨n, h1, rfl⟩ := (table_iff p).mp hp
    exact ⟨n, rfl, decode_utf8 n h1 r⟩

/-- C37.  Table 3-7 and the bit distribution of table 3-6 over the scalar values describe the same sequences
(so overlong forms, surrogates and values above 10FFFF are all excluded). -/
theorem C37_tables_agree (p : List Nat) : Table37 p ↔ ∃ n, Scalar n ∧ p = utf8 n := table_iff p

/-- C37.  A whole UTF-8 string converts to its code points and back unchanged. -/
theorem C37_string_roundtrip (cs : List Nat) (hcs : ∀ c ∈ cs, Scalar c) (fuel : Nat) (hf : (utf8s cs).length < fuel) :
    appendFromUtf8 fuel [] (utf8s cs) = .ok (cs.map fun n : Nat => (n : Int)) ∧
    stringToUtf8 [] (cs.map fun n : Nat => (n : Int)) = .ok (utf8s cs) := by
  have hl := length_utf8s cs
  exact ⟨by rw [appendFromUtf8_ok cs fuel [] (by omega) hcs]; rfl, stringToUtf8_ok cs [] hcs⟩

/-- C37.  `String::append` accepts exactly the well-formed byte strings and throws on all others. -/
theorem C37_string_exact (s : List Nat) (hb : ∀ b ∈ s, b < 256) (fuel : Nat) (hf : s.length < fuel) :
    (∃ cs, (∀ c ∈ cs, Scalar c) ∧ s = utf8s cs ∧ appendFromUtf8 fuel [] s = .ok (cs.map fun n : Nat => (n : Int)) ∧
      stringToUtf8 [] (cs.map fun n : Nat => (n : Int)) = .ok s) ∨
    (appendFromUtf8 fuel [] s = .throw ∧ ∀ cs, (∀ c ∈ cs, Scalar c) → s ≠ utf8s cs) := by
  rcases appendFromUtf8_total fuel [] s hf hb with ⟨cs, h1, rfl⟩ | h
  · left
    have := C37_string_roundtrip cs h1 fuel hf
    exact ⟨cs, h1, rfl, this.1, this.2⟩
  · exact .inr h

/-- C37.  `GetCharSize` is the length of the UTF-8 form, 0 for non-characters; `IsValidChar` means scalar value. -/
theorem C37_char_size (n : Nat) : (Scalar n → getCharSize n = (utf8 n).length) ∧ (¬ Scalar n → getCharSize n = 0) ∧
    (isValidCode n = true ↔ Scalar n) := by
  have h1 : Scalar n → getCharSize n = (utf8 n).length := by
    rintro ⟨h1, h2⟩
    rw [getCharSize, utf8]
    by_cases c1 : n ≤ 0x7f
    · rw [if_pos (by omega), if_pos c1]; rfl
    rw [if_neg (by omega), if_neg c1]
    by_cases c2 : n ≤ 0x7ff
    · rw [if_pos (by omega), if_pos c2]; rfl
    rw [if_neg (by omega), if_neg c2]
    by_cases c3 : n ≤ 0xffff
    · rw [if_pos c3]
      by_cases c4 : n ≤ 0xd7ff
      · rw [if_pos (by omega)]; rfl
      · rw [if_neg (by omega), if_neg (by omega), if_pos (by omega)]; rfl
    · rw [if_neg c3, if_neg (by omega), if_neg (by omega), if_neg (by omega)]; rfl
  have h2 : ¬ Scalar n → getCharSize n = 0 := by
    intro h
    simp only [Scalar] at h
    rw [getCharSize, if_neg (by omega), if_neg (by omega), if_neg (by omega), if_pos (by omega)]
  refine ⟨h1, h2, ?_⟩
  rw [isValidCode, decide_eq_true_eq]
  constructor
  · intro h; by_cases hs : Scalar n
    · exact hs
    · exact absurd (h2 hs) h
  · intro h
    rw [h1 h]
    have := List.length_pos_iff.mpr (utf8_ne_nil n)
    omega

/-- C37 (finding).  A negative `Char` counts as valid and is written as one arbitrary byte: the text U+0041
and the negative value -191 have the same "UTF-8" form, and -1 is written as the ill-formed byte FF. -/
theorem C37_negative_char_accepted : isValidCode (-1) = true ∧ toUtf8 (-1) = [0xff] ∧ toUtf8 (-191) = toUtf8 0x41 ∧
    getCharFromUtf8 (toUtf8 (-1)) = .ok none := by decide +kernel

/-- C38.  The encoder writes the UTF-16 form of every scalar value. -/
theorem C38_encode (n : Nat) (h : Scalar n) : toUtf16 n = utf16 n := toUtf16_scalar n h.1

/-- C38.  Decoding what was encoded gives the character back and consumes exactly the encoded units. -/
theorem C38_roundtrip (n : Nat) (h : Scalar n) (rest : List Nat) :
    getCharFromUtf16 (toUtf16 n ++ rest) = .ok (some ((n : Int), rest)) := by
  rw [toUtf16_scalar n h.1]; exact decode_utf16 n h rest

/-- C38.  UTF-8 to UTF-16: succeeds exactly on well-formed input, and gives the UTF-16 form of the same text. -/
theorem C38_to_utf16 (s : List Nat) (hb : ∀ b ∈ s, b < 256) (fuel : Nat) (hf : s.length < fuel) :
    (∃ cs, (∀ c ∈ cs, Scalar c) ∧ s = utf8s cs ∧ convertUtf8ToUtf16 fuel s = .ok (true, utf16s cs)) ∨
    ((∃ o, convertUtf8ToUtf16 fuel s = .ok (false, o)) ∧ ∀ cs, (∀ c ∈ cs, Scalar c) → s ≠ utf8s cs) := by
  have key : ∀ cs, (∀ c ∈ cs, Scalar c) → s = utf8s cs → convertUtf8ToUtf16 fuel s = .ok (true, utf16s cs) := by
    rintro cs h rfl
    have := length_utf8s cs
    rw [convertUtf8ToUtf16, convert8to16_ok cs fuel [] (by omega) h]; rfl
  rcases convert8to16_total fuel [] s hf hb with ⟨cs, h1, h2⟩ | ⟨o, h⟩
  · exact .inl ⟨cs, h1, h2, key cs h1 h2⟩
  · refine .inr ⟨⟨o, h⟩, fun cs h1 h2 => ?_⟩
    have := key cs h1 h2
    rw [convertUtf8ToUtf16, h] at this
    simp at this

/-- C38.  UTF-16 to UTF-8: succeeds exactly on well-formed input (lone surrogates of both kinds are
rejected), and gives the UTF-8 form of the same text. -/
theorem C38_to_utf8 (s : List Nat) (hb : ∀ b ∈ s, b < 2 ^ 16) (fuel : Nat) (hf : s.length < fuel) :
    (∃ cs, (∀ c ∈ cs, Scalar c) ∧ s = utf16s cs ∧ convertUtf16ToUtf8 fuel s = .ok (true, utf8s cs)) ∨
    ((∃ o, convertUtf16ToUtf8 fuel s = .ok (false, o)) ∧ ∀ cs, (∀ c ∈ cs, Scalar c) → s ≠ utf16s cs) := by
  have key : ∀ cs, (∀ c ∈ cs, Scalar c) → s = utf16s cs → convertUtf16ToUtf8 fuel s = .ok (true, utf8s cs) := by
    rintro cs h rfl
    have := length_utf16s cs
    rw [convertUtf16ToUtf8, convert16to8_ok cs fuel [] (by omega) h]; rfl
  rcases convert16to8_total fuel [] s hf hb with ⟨cs, h1, h2⟩ | ⟨o, h⟩
  · exact .inl ⟨cs, h1, h2, key cs h1 h2⟩
  · refine .inr ⟨⟨o, h⟩, fun cs h1 h2 => ?_⟩
    have := key cs h1 h2
    rw [convertUtf16ToUtf8, h] at this
    simp at this

/-- C38.  A well-formed UTF-8 string converted to UTF-16 and back is the same string, and vice versa. -/
theorem C38_there_and_back (cs : List Nat) (hcs : ∀ c ∈ cs, Scalar c) (fuel : Nat)
    (hf : (utf8s cs).length < fuel) (hf2 : (utf16s cs).length < fuel) :
    (do let w ← toUtf16Str fuel (utf8s cs); toUtf8Str fuel w) = .ok (utf8s cs) ∧
    (do let w ← toUtf8Str fuel (utf16s cs); toUtf16Str fuel w) = .ok (utf16s cs) := by
  have h1 := length_utf8s cs
  have h2 := length_utf16s cs
  have e1 := convert8to16_ok cs fuel [] (by omega) hcs
  have e2 := convert16to8_ok cs fuel [] (by omega) hcs
  constructor <;> simp [toUtf16Str, toUtf8Str, convertUtf8ToUtf16, convertUtf16ToUtf8, e1, e2]

/-- C38.  The forms that return the text throw exactly on ill-formed input. -/
theorem C38_returning_forms (s : List Nat) (fuel : Nat) (hf : s.length < fuel) :
    ((∀ b ∈ s, b < 256) →
      (∃ cs, (∀ c ∈ cs, Scalar c) ∧ s = utf8s cs ∧ toUtf16Str fuel s = .ok (utf16s cs)) ∨
      (toUtf16Str fuel s = .throw ∧ ∀ cs, (∀ c ∈ cs, Scalar c) → s ≠ utf8s cs)) ∧
    ((∀ b ∈ s, b < 2 ^ 16) →
      (∃ cs, (∀ c ∈ cs, Scalar c) ∧ s = utf16s cs ∧ toUtf8Str fuel s = .ok (utf8s cs)) ∨
      (toUtf8Str fuel s = .throw ∧ ∀ cs, (∀ c ∈ cs, Scalar c) → s ≠ utf16s cs)) := by
  refine ⟨fun hb => ?_, fun hb => ?_⟩
  · rcases C38_to_utf16 s hb fuel hf with ⟨cs, h1, h2, h3⟩ | ⟨⟨o, h1⟩, h2⟩
    · exact .inl ⟨cs, h1, h2, by simp [toUtf16Str, h3]⟩
    · exact .inr ⟨by simp [toUtf16Str, h1], h2⟩
  · rcases C38_to_utf8 s hb fuel hf with ⟨cs, h1, h2, h3⟩ | ⟨⟨o, h1⟩, h2⟩
    · exact .inl ⟨cs, h1, h2, by simp [toUtf8Str, h3]⟩
    · exact .inr ⟨by simp [toUtf8Str, h1], h2⟩

/-- C38.  A string of characters converts to UTF-16 and back unchanged. -/
theorem C38_string_roundtrip (cs : List Nat) (hcs : ∀ c ∈ cs, Scalar c) (fuel : Nat) (hf : (utf16s cs).length < fuel) :
    stringToUtf16 [] (cs.map fun n : Nat => (n : Int)) = .ok (utf16s cs) ∧
    appendFromUtf16 fuel [] (utf16s cs) = .ok (cs.map fun n : Nat => (n : Int)) := by
  have hl := length_utf16s cs
  exact ⟨stringToUtf16_ok cs [] hcs, by rw [appendFromUtf16_ok cs fuel [] (by omega) hcs]; rfl⟩

/-- C37.  Writing any string of characters as UTF-8 throws exactly if one of them is a surrogate or beyond U+10FFFF. -/
theorem C37_string_throws (cs : List Int) :
    (stringToUtf8 [] cs = .throw ∧ ∃ c ∈ cs, (0xd800 ≤ c ∧ c ≤ 0xdfff) ∨ 0x10ffff < c) ∨
    ((∃ o, stringToUtf8 [] cs = .ok o) ∧ ∀ c ∈ cs, ¬ ((0xd800 ≤ c ∧ c ≤ 0xdfff) ∨ 0x10ffff < c)) := by
  have step : ∀ (out : List Nat) (c : Int), (appendUtf8 out c = none ∧ ((0xd800 ≤ c ∧ c ≤ 0xdfff) ∨ 0x10ffff < c)) ∨
      ((∃ o, appendUtf8 out c = some o) ∧ ¬ ((0xd800 ≤ c ∧ c ≤ 0xdfff) ∨ 0x10ffff < c)) := by
    intro out c
    unfold appendUtf8 toUtf8
    dsimp only
    by_cases h1 : c ≤ 0x7f
    · exact .inr ⟨⟨_, by rw [if_pos h1, if_pos (by simp)]⟩, by omega⟩
    · rw [if_neg h1]
      by_cases h2 : c ≤ 0x7ff
      · exact .inr ⟨⟨_, by rw [if_pos h2, if_pos (by simp)]⟩, by omega⟩
      · rw [if_neg h2]
        by_cases h3 : c ≤ 0xffff
        · rw [if_pos h3]
          by_cases h4 : 0xd7ff < c ∧ c ≤ 0xdfff
          · exact .inl ⟨by rw [if_pos h4]; rfl, by omega⟩
          · exact .inr ⟨⟨_, by rw [if_neg h4, if_pos (by simp)]⟩, by omega⟩
        · rw [if_neg h3]
          by_cases h5 : c ≤ 0x10ffff
          · exact .inr ⟨⟨_, by rw [if_pos h5, if_pos (by simp)]⟩, by omega⟩
          · exact .inl ⟨by rw [if_neg h5]; rfl, by omega⟩
  suffices h : ∀ out, (stringToUtf8 out cs = .throw ∧ ∃ c ∈ cs, (0xd800 ≤ c ∧ c ≤ 0xdfff) ∨ 0x10ffff < c) ∨
      ((∃ o, stringToUtf8 out cs = .ok o) ∧ ∀ c ∈ cs, ¬ ((0xd800 ≤ c ∧ c ≤ 0xdfff) ∨ 0x10ffff < c)) from h []
  induction cs with
  | nil => intro out; exact .inr ⟨⟨_, rfl⟩, by simp⟩
  | cons c cs ih =>
    intro out
    rw [stringToUtf8]
    rcases step out c with ⟨h1, h2⟩ | ⟨⟨o, h1⟩, h2⟩
    · rw [h1]
      exact .inl ⟨rfl, c, by simp, h2⟩
    · rw [h1]
      rcases ih o with ⟨h3, d, h4, h5⟩ | ⟨h3, h4⟩
      · exact .inl ⟨h3, d, by simp [h4], h5⟩
      · refine .inr ⟨h3, fun d hd => ?_⟩
        rcases List.mem_cons.1 hd with rfl | hd
        · exact h2
        · exact h4 d hd

/-- C38.  Writing any string of characters as UTF-16 throws exactly if one of them is beyond U+10FFFF. -/
theorem C38_string_throws (cs : List Int) :
    (stringToUtf16 [] cs = .throw ∧ ∃ c ∈ cs, 0x10ffff < c) ∨ ((∃ o, stringToUtf16 [] cs = .ok o) ∧ ∀ c ∈ cs, c ≤ 0x10ffff) := by
  have step : ∀ (out : List Nat) (c : Int), (appendUtf16 out c = none ∧ 0x10ffff < c) ∨ ((∃ o, appendUtf16 out c = some o) ∧ c ≤ 0x10ffff) := by
    intro out c
    unfold appendUtf16 toUtf16
    dsimp only
    by_cases h1 : c ≤ 0xffff
    · exact .inr ⟨⟨_, by rw [if_pos h1, if_pos (by simp)]⟩, by omega⟩
    · rw [if_neg h1]
      by_cases h5 : c ≤ 0x10ffff
      · exact .inr ⟨⟨_, by rw [if_pos h5, if_pos (by simp)]⟩, by omega⟩
      · exact .inl ⟨by rw [if_neg h5]; rfl, by omega⟩
  suffices h : ∀ out, (stringToUtf16 out cs = .throw ∧ ∃ c ∈ cs, 0x10ffff < c) ∨ ((∃ o, stringToUtf16 out cs = .ok o) ∧ ∀ c ∈ cs, c ≤ 0x10ffff) from h []
  induction cs with
  | nil => intro out; exact .inr ⟨⟨_, rfl⟩, by simp⟩
  | cons c cs ih =>
    intro out
    rw [stringToUtf16]
    rcases step out c with ⟨h1, h2⟩ | ⟨⟨o, h1⟩, h2⟩
    · rw [h1]
      exact .inl ⟨rfl, c, by simp, h2⟩
    · rw [h1]
      rcases ih o with ⟨h3, d, h4, h5⟩ | ⟨h3, h4⟩
      · exact .inl ⟨h3, d, by simp [h4], h5⟩
      · refine .inr ⟨h3, fun d hd => ?_⟩
        rcases List.mem_cons.1 hd with rfl | hd
        · exact h2
        · exact h4 d hd

example : stringToUtf16 [] [0x41, 0x110000] = .throw ∧ stringToUtf8 [] [0x41, 0xd800] = .throw := by decide +kernel

/-- C38.  What `String::append(Char16)` accepts one character at a time: scalar values and, beyond the
property, lone trailing surrogates; a leading surrogate without its partner is always rejected. -/
theorem C38_decoder_accepts_partial (s : List Nat) (hs : s ≠ []) (hb : ∀ b ∈ s, b < 2 ^ 16) :
    (∀ c r, getCharFromUtf16 s = .ok (some (c, r)) →
      ∃ n : Nat, c = n ∧ s = utf16 n ++ r ∧ (Scalar n ∨ (0xdc00 ≤ n ∧ n ≤ 0xdfff))) ∧
    (getCharFromUtf16 s = .ok none ∨ ∃ c r, getCharFromUtf16 s = .ok (some (c, r))) :=
  ⟨fun c r h => decode16_accepts s r c hb h, getCharFromUtf16_shape s hs⟩

/-- C38 (finding).  `GetCharFromUtf16`, and so `String::append(const Char16*)`, accepts a lone trailing surrogate;
`toUtf16` writes lone surrogates of both kinds; only the conversion to UTF-8 rejects them. -/
theorem C38_lone_trail_accepted :
    appendFromUtf16 9 [] [0x41, 0xdc00, 0x42] = .ok [0x41, 0xdc00, 0x42] ∧
    stringToUtf16 [] [0xd800] = .ok [0xd800] ∧ stringToUtf16 [] [-1] = .ok [0xffff] ∧
    (∀ cs, (∀ c ∈ cs, Scalar c) → ([0x41, 0xdc00, 0x42] : List Nat) ≠ utf16s cs) ∧
    convertUtf16ToUtf8 9 [0x41, 0xdc00, 0x42] = .ok (false, [0x41]) := by
  refine ⟨by decide +kernel, by decide +kernel, by decide +kernel, ?_, by decide +kernel⟩
  rcases C38_to_utf8 [0x41, 0xdc00, 0x42] (by decide) 9 (by decide) with ⟨cs, h1, h2, h3⟩ | ⟨_, h⟩
  · rw [show convertUtf16ToUtf8 9 [0x41, 0xdc00, 0x42] = .ok (false, [0x41]) by decide +kernel] at h3
    simp at h3
  · exact h

/-! Non-trivial cases. -/

instance (n : Nat) : Decidable (Scalar n) := by rw [Scalar]; infer_instance

example : Scalar 0x3042 ∧ utf8 0x3042 = [0xe3, 0x81, 0x82] ∧ utf16 0x3042 = [0x3042] := by decide
example : Scalar 0x1f600 ∧ utf8 0x1f600 = [0xf0, 0x9f, 0x98, 0x80] ∧ utf16 0x1f600 = [0xd83d, 0xde00] := by decide
example : (∀ c ∈ [0x41, 0xe9, 0x3042, 0x1f600], Scalar c) ∧ (utf8s [0x41, 0xe9, 0x3042, 0x1f600]).length < 11 := by decide
-- overlong, surrogate and too large
example : getCharFromUtf8 [0xc0, 0x80] = .ok none ∧ getCharFromUtf8 [0xed, 0xa0, 0x80] = .ok none ∧
    getCharFromUtf8 [0xf4, 0x90, 0x80, 0x80] = .ok none := by decide +kernel

#print axioms C37_encode
#print axioms C37_roundtrip
#print axioms C37_decoder_exact
#print axioms C37_tables_agree
#print axioms C37_string_roundtrip
#print axioms C37_string_exact
#print axioms C37_char_size
#print axioms C38_roundtrip
#print axioms C38_to_utf16
#print axioms C38_to_utf8
#print axioms C38_there_and_back
#print axioms C38_string_roundtrip
#print axioms C37_string_throws
#print axioms C38_string_throws
#print axioms C38_decoder_accepts_partial

end Verif.Props.Utf
