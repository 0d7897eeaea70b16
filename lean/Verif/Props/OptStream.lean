import Verif.Proof.OptStream
set_option linter.unusedSimpArgs false

/-!
# C152: options of type `double`, `char` and `bool`
-/
namespace Verif.Props.OptStream
open Verif.OptStream
open Verif.Spec.OptStream (Space Digit Sign Numeral Expo fracText value)

/-- The number a numeral stands for. -/
def exactOf (n : Numeral) : Dec := ⟨n.exact.1, n.exact.2.1, n.exact.2.2⟩

/-- A numeral and something that does not continue it. -/
theorem number (n : Numeral) (t : List UInt8) (hn : n.Ok) (ht : n.Ends t) : strtod (extractFloat (n.text ++ t)) = some (exactOf n, []) := by
  obtain ⟨h1, h2, h3, h4, h5⟩ := hn
  have hD : ∀ {l : List UInt8}, (∀ c ∈ l, Digit c) → AllD l := fun h c hc => (isDigit_iff c).2 (h c hc)
  have hi : AllD n.int := hD h2
  have hf : ∀ x ∈ n.frac, AllD x := fun x hx => hD (h3 x hx)
  have hne : ¬ (n.int = [] ∧ n.frac.getD [] = []) := by
    rintro ⟨a, b⟩
    rcases h4 with h | ⟨f, h, h'⟩
    · exact h a
    · rw [h] at b; exact h' b
  have hfound : (!n.int.isEmpty || !(n.frac.getD []).isEmpty) = true := by
    rw [Bool.or_eq_true]
    simp only [Bool.not_eq_true', List.isEmpty_eq_false_iff]
    exact Classical.byContradiction fun h => hne (by
      constructor <;> (apply Classical.byContradiction; intro g; exact h (by first | exact .inl g | exact .inr g)))
  have hsg : ∀ (i r : List UInt8), AllD i → (i = [] ↔ n.int = []) → sign (n.sign ++ i ++ fracText n.frac ++ r) = (n.sign, i ++ fracText n.frac ++ r) := by
    intro i r hi he
    rw [List.append_assoc, List.append_assoc]
    rw [sign_of h1]
    · simp
    intro _
    cases i with
    | cons d i =>
      have := no_sign (i := d :: i) (r := []) hi (by simp)
      simpa using this
    | nil =>
      rcases h4 with h | ⟨f, h, h'⟩
      · exact absurd (he.1 rfl) h
      · intro c hc
        rw [h] at hc
        simp [fracText] at hc
        subst hc
        decide
  have htD : NoD t := fun c hc => by
    have := (ht c hc).1
    rw [← isDigit_iff] at this
    simpa using this
  cases hx : n.expo with
  | none =>
    have hst : Stop n.frac t := ⟨htD, fun hf c hc => ((ht c hc).2 hx).2.2 hf⟩
    have htx : n.text ++ t = n.sign ++ n.int ++ fracText n.frac ++ t := by rw [Numeral.text, hx]; simp
    obtain ⟨i', g1, g2, g3, g4⟩ := extract_spec n.sign n.int t n.frac (hsg _ _ hi Iff.rfl) hi hf hst
    rw [htx, g4, hfound, loop_stop hst _ (fun _ c hc => ⟨((ht c hc).2 hx).1, ((ht c hc).2 hx).2.1⟩)]
    rw [strtod_spec _ _ _ _ (hsg _ _ g1 g2) g1 hf ⟨by simp [NoD], by simp⟩]
    rw [if_neg (by rw [g2]; exact hne)]
    simp only [exactOf, Numeral.exact, hx, Option.elim, g3, natOf_eq]
    congr 2
    congr 1
    omega
  | some e =>
    obtain ⟨e1, e2, e3, e4⟩ := h5 e hx
    have hed : AllD e.digits := hD e4
    have hst : Stop n.frac (e.text ++ t) := by
      constructor
      · intro c hc
        simp [Expo.text] at hc
        rw [← hc]
        rcases e1 with h | h <;> rw [h] <;> decide
      · intro _ c hc
        simp [Expo.text] at hc
        rw [← hc]
        rcases e1 with h | h <;> rw [h] <;> decide
    have htx : n.text ++ t = n.sign ++ n.int ++ fracText n.frac ++ (e.text ++ t) := by rw [Numeral.text, hx]; simp
    have hes : sign (e.sign ++ e.digits ++ t) = (e.sign, e.digits ++ t) := by
      rw [List.append_assoc, sign_of e2]
      intro _
      obtain ⟨d, ds, hd⟩ := List.exists_cons_of_ne_nil e3
      have := no_sign (i := e.digits) (r := []) hed (by simp)
      rw [hd] at this ⊢
      simpa using this
    have hes' : sign (e.sign ++ e.digits) = (e.sign, e.digits) := by
      rw [sign_of e2]
      intro _
      simpa using no_sign (i := e.digits) (r := []) hed (by simp)
    obtain ⟨i', g1, g2, g3, g4⟩ := extract_spec n.sign n.int _ n.frac (hsg _ _ hi Iff.rfl) hi hf hst
    have hl := loop_expo e.letter e1 (e.sign ++ e.digits ++ t) e.sign e.digits t rfl hes hed htD n.frac.isSome
    rw [htx, g4, hfound]
    have ht' : e.text ++ t = e.letter :: (e.sign ++ e.digits ++ t) := by simp [Expo.text]
    rw [ht', hl]
    have hst' : Stop n.frac (101 :: e.sign ++ e.digits) := by
      constructor
      · intro c hc
        simp at hc
        rw [← hc]; decide
      · intro _ c hc
        simp at hc
        rw [← hc]; decide
    rw [strtod_spec _ _ _ _ (hsg _ _ g1 g2) g1 hf hst', if_neg (by rw [g2]; exact hne)]
    have hw := takeWhile_app (a := e.digits) (r := []) hed (by simp [NoD])
    rw [List.append_nil] at hw
    simp only [List.cons_append, if_true, hes', hw.1, hw.2, if_neg e3]
    simp only [exactOf, Numeral.exact, hx, Option.elim, g3, natOf_eq, Expo.value]
    congr 2
    congr 1
    split <;> omega

/-- Every text either begins with a numeral that ends where it must, or `strtod` refuses what has been taken of it. -/
theorem cases_of (s : List UInt8) :
    (∃ n t, s = Numeral.text n ++ t ∧ n.Ok ∧ n.Ends t) ∨
    (∀ d rest, strtod (extractFloat s) = some (d, rest) → rest ≠ []) := by
  obtain ⟨sg, a, rfl, k1, k2, k3⟩ := sign_split s
  have hd : ∀ {l : List UInt8}, AllD l → ∀ c ∈ l, Digit c := fun h c hc => (isDigit_iff c).1 (h c hc)
  have hnd : ∀ {l : List UInt8}, NoD l → ∀ c ∈ l.head?, ¬ Digit c := fun h c hc => by
    rw [← isDigit_iff, h c hc]; simp
  -- the parts
  have parts : ∃ i f r, a = i ++ fracText f ++ r ∧ AllD i ∧ (∀ x ∈ f, AllD x) ∧ Stop f r := by
    have e : a = a.takeWhile isDigit ++ a.dropWhile isDigit := (List.takeWhile_append_dropWhile).symm
    have h := drop_digits a
    cases hb : a.dropWhile isDigit with
    | nil => exact ⟨a.takeWhile isDigit, none, [], by rw [hb] at e; simpa [fracText] using e, take_digits a, by simp, by simp [Stop, NoD]⟩
    | cons c b =>
      rw [hb] at e h
      by_cases hc : c = 46
      · refine ⟨a.takeWhile isDigit, some (b.takeWhile isDigit), b.dropWhile isDigit, ?_, take_digits a, ?_, drop_digits b, by simp⟩
        · simp only [fracText, Option.elim, List.append_assoc, List.cons_append, List.takeWhile_append_dropWhile]
          rw [← hc]
          exact e
        · intro x hx; simp at hx; subst hx; exact take_digits b
      · exact ⟨a.takeWhile isDigit, none, c :: b, by simpa [fracText] using e, take_digits a, by simp, h, by simpa using hc⟩
  obtain ⟨i, f, r, rfl, hi, hf, hst⟩ := parts
  have hs : sign (sg ++ i ++ fracText f ++ r) = (sg, i ++ fracText f ++ r) := by simpa using k2
  obtain ⟨i', g1, g2, g3, g4⟩ := extract_spec sg i r f hs hi hf hst
  -- nothing but signs and points
  by_cases hne : i = [] ∧ f.getD [] = []
  · right
    intro d rest h
    have hfound : (!i.isEmpty || !(f.getD []).isEmpty) = false := by simp [hne.1, hne.2]
    have e : sg ++ (i ++ fracText f ++ r) = sg ++ i ++ fracText f ++ r := by simp
    rw [e, g4, hfound, loop_stop hst _ (by simp)] at h
    have hi' := g2.2 hne.1
    rw [strtod_spec _ _ _ _ ?_ g1 hf ⟨by simp [NoD], by simp⟩, if_pos ⟨hi', hne.2⟩] at h
    · simp at h
    · rw [hi']
      simp only [List.append_nil, List.nil_append]
      rw [sign_of k1]
      intro _ c hc
      cases f with
      | none => simp [fracText] at hc
      | some x => simp [fracText] at hc; subst hc; decide
  have hfound : (!i.isEmpty || !(f.getD []).isEmpty) = true := by
    cases hq : (!i.isEmpty || !(f.getD []).isEmpty) with
    | true => rfl
    | false =>
      simp only [Bool.or_eq_false_iff, Bool.not_eq_false', List.isEmpty_iff] at hq
      exact absurd hq hne
  have hfr : ∀ x ∈ f, ∀ c ∈ x, Digit c := fun x hx => hd (hf x hx)
  have hmant : i ≠ [] ∨ ∃ x, f = some x ∧ x ≠ [] := by
    cases i with
    | cons c i => exact .inl (by simp)
    | nil =>
      cases f with
      | none => exact absurd ⟨rfl, rfl⟩ hne
      | some x => exact .inr ⟨x, rfl, fun h => hne ⟨rfl, h⟩⟩
  by_cases hr : ∃ c q, r = c :: q ∧ (c = 101 ∨ c = 69)
  · obtain ⟨c, q, rfl, hc⟩ := hr
    obtain ⟨es, b, e1, e2, e3, e4⟩ := sign_split q
    by_cases hds : b.takeWhile isDigit = []
    · right
      intro d rest h
      have hb : NoD b := by
        have := drop_digits b
        have e : b = b.takeWhile isDigit ++ b.dropWhile isDigit := (List.takeWhile_append_dropWhile).symm
        rw [hds, List.nil_append] at e
        rw [e]; exact this
      have e : sg ++ (i ++ fracText f ++ c :: q) = sg ++ i ++ fracText f ++ c :: q := by simp
      rw [e, g4, hfound, loop_expo c hc q es [] b (by simpa using e1) (by simpa using e3) (by simp [AllD]) hb] at h
      have hst' : Stop f (101 :: es ++ []) := by
        constructor
        · intro c hc
          simp at hc
          rw [← hc]; decide
        · intro _ c hc
          simp at hc
          rw [← hc]; decide
      have hs' : sign (sg ++ i' ++ fracText f ++ (101 :: es ++ [])) = (sg, i' ++ fracText f ++ (101 :: es ++ [])) := by
        rw [List.append_assoc, List.append_assoc, sign_of k1]
        · simp
        intro _
        apply no_sign g1
        intro c hc
        cases f with
        | none => simp [fracText] at hc; subst hc; decide
        | some x => simp [fracText] at hc; subst hc; decide
      rw [strtod_spec _ _ _ _ hs' g1 hf hst', if_neg (by rw [g2]; exact hne)] at h
      have hes : sign es = (es, []) := by
        have := sign_of (r := []) e2 (by simp)
        simpa using this
      simp only [List.cons_append, List.append_nil, if_true, hes, List.takeWhile_nil] at h
      rw [← (Prod.mk.inj (Option.some.inj h)).2]
      simp
    · left
      refine ⟨⟨sg, i, f, some ⟨c, es, b.takeWhile isDigit⟩⟩, b.dropWhile isDigit, ?_, ?_, ?_⟩
      · simp only [Numeral.text, Option.elim, Expo.text, e1, List.append_assoc, List.cons_append, List.takeWhile_append_dropWhile]
      · refine ⟨k1, hd hi, hfr, hmant, ?_⟩
        intro e he
        simp at he
        subst he
        exact ⟨hc, e2, hds, hd (take_digits b)⟩
      · intro c hc
        exact ⟨hnd (drop_digits b) c hc, by simp⟩
  · left
    refine ⟨⟨sg, i, f, none⟩, r, by simp [Numeral.text], ⟨k1, hd hi, hfr, hmant, by simp⟩, ?_⟩
    intro c hc
    refine ⟨hnd hst.1 c hc, fun _ => ?_⟩
    cases r with
    | nil => simp at hc
    | cons b r =>
      simp at hc
      subst hc
      exact ⟨fun h => hr ⟨b, r, rfl, .inl h⟩, fun h => hr ⟨b, r, rfl, .inr h⟩, fun h => hst.2 h b (by simp)⟩

theorem dropSpaces {ws s : List UInt8} (hw : ∀ c ∈ ws, Space c) (hs : ∀ c ∈ s.head?, ¬ Space c) : (ws ++ s).dropWhile isSpace = s := by
  induction ws with
  | nil =>
    cases s with
    | nil => rfl
    | cons c s =>
      have := hs c (by simp)
      rw [← isSpace_iff] at this
      rw [List.nil_append, List.dropWhile_cons, if_neg this]
  | cons w ws ih =>
    rw [List.cons_append, List.dropWhile_cons, if_pos ((isSpace_iff w).2 (hw w (by simp))), ih (fun c hc => hw c (by simp [hc]))]

theorem spaces_split (s : List UInt8) : ∃ ws, s = ws ++ s.dropWhile isSpace ∧ (∀ c ∈ ws, Space c) ∧ ∀ c ∈ (s.dropWhile isSpace).head?, ¬ Space c := by
  induction s with
  | nil => exact ⟨[], rfl, by simp, by simp⟩
  | cons c s ih =>
    rw [List.dropWhile_cons]
    by_cases h : isSpace c = true
    · rw [if_pos h]
      obtain ⟨ws, e, h1, h2⟩ := ih
      refine ⟨c :: ws, by rw [List.cons_append, ← e], ?_, h2⟩
      intro d hd
      rcases List.mem_cons.mp hd with hd | hd
      · rw [hd]; exact (isSpace_iff c).1 h
      · exact h1 d hd
    · rw [if_neg h]
      refine ⟨[], rfl, by simp, ?_⟩
      intro d hd
      simp at hd
      subst hd
      rw [← isSpace_iff]; exact h

/-- A numeral does not begin with a space. -/
theorem text_head (n : Numeral) (t : List UInt8) (hn : n.Ok) : n.text ++ t ≠ [] ∧ ∀ c ∈ (n.text ++ t).head?, ¬ Space c := by
  obtain ⟨h1, h2, h3, h4, _⟩ := hn
  rw [Numeral.text]
  rcases h1 with h | h | h
  · rw [h]
    rcases h4 with g | ⟨f, g, g'⟩
    · obtain ⟨d, ds, e⟩ := List.exists_cons_of_ne_nil g
      have hd := h2 d (by rw [e]; simp)
      rw [e]
      refine ⟨by simp, ?_⟩
      intro c hc
      simp at hc
      subst hc
      rintro (e | e | e | e | e | e) <;> (rw [e] at hd; revert hd; simp [Digit])
    · cases hi : n.int with
      | nil =>
        rw [g]
        refine ⟨by simp [fracText], ?_⟩
        intro c hc
        simp [fracText] at hc
        subst hc
        simp [Space]
      | cons d ds =>
        have hd := h2 d (by rw [hi]; simp)
        refine ⟨by simp, ?_⟩
        intro c hc
        simp at hc
        subst hc
        rintro (e | e | e | e | e | e) <;> (rw [e] at hd; revert hd; simp [Digit])
  all_goals
    rw [h]
    refine ⟨by simp, ?_⟩
    intro c hc
    simp at hc
    subst hc
    simp [Space]

/-- C152.  An option of a floating point type given a numeral, after white space and followed by anything that does not continue the
numeral, is set to that number correctly rounded; it is accepted unless the number is too large. -/
theorem C152_number (fl : Fl) (x : fl.T) (ws : List UInt8) (n : Numeral) (t : List UInt8) (hw : ∀ c ∈ ws, Space c) (hn : n.Ok) (ht : n.Ends t) :
    convertFloat fl x (ws ++ (n.text ++ t)) = (!(fl.round (exactOf n)).2, (fl.round (exactOf n)).1) := by
  obtain ⟨h1, h2⟩ := text_head n t hn
  rw [convertFloat, dropSpaces hw h2]
  simp only [if_neg h1, number n t hn ht]
  simp

/-- C152, the converse: a text that is accepted begins, after white space, with such a numeral. -/
theorem C152_accepted (fl : Fl) (x : fl.T) (s : List UInt8) (h : (convertFloat fl x s).1 = true) :
    ∃ ws n t, s = ws ++ (Numeral.text n ++ t) ∧ (∀ c ∈ ws, Space c) ∧ n.Ok ∧ n.Ends t ∧ convertFloat fl x s = (true, (fl.round (exactOf n)).1) := by
  obtain ⟨ws, e, hw, hs⟩ := spaces_split s
  rcases cases_of (s.dropWhile isSpace) with ⟨n, t, g1, g2, g3⟩ | g
  · have e' : s = ws ++ (n.text ++ t) := by rw [← g1]; exact e
    refine ⟨ws, n, t, e', hw, g2, g3, ?_⟩
    have := C152_number fl x ws n t hw g2 g3
    rw [← e'] at this
    rw [this] at h ⊢
    rw [show (!(fl.round (exactOf n)).2) = true from h]
  · rw [convertFloat] at h
    split at h
    · simp at h
    split at h
    · simp at h
    next d rest hq =>
      rw [if_pos (g d rest hq)] at h
      simp at h

/-- C152.  A text that does not begin with a numeral is refused.  The variable keeps its value (the default given to `appendOpt`) only if
the text is blank; otherwise it is zero afterwards. -/
theorem C152_refused (fl : Fl) (x : fl.T) (s : List UInt8)
    (h : ¬ ∃ ws n t, s = ws ++ (Numeral.text n ++ t) ∧ (∀ c ∈ ws, Space c) ∧ n.Ok ∧ n.Ends t) :
    ((∀ c ∈ s, Space c) ∧ convertFloat fl x s = (false, x)) ∨ ((∃ c ∈ s, ¬ Space c) ∧ convertFloat fl x s = (false, fl.zero)) := by
  obtain ⟨ws, e, hw, hs⟩ := spaces_split s
  by_cases hb : s.dropWhile isSpace = []
  · left
    refine ⟨by rw [hb, List.append_nil] at e; rw [e]; exact hw, ?_⟩
    rw [convertFloat]
    simp [hb]
  · right
    constructor
    · obtain ⟨c, q, hc⟩ := List.exists_cons_of_ne_nil hb
      exact ⟨c, by rw [e, hc]; simp, hs c (by rw [hc]; simp)⟩
    rcases cases_of (s.dropWhile isSpace) with ⟨n, t, g1, g2, g3⟩ | g
    · exact absurd ⟨ws, n, t, by rw [← g1]; exact e, hw, g2, g3⟩ h
    · rw [convertFloat]
      simp only [if_neg hb]
      split
      · rfl
      next d rest hq => rw [if_pos (g d rest hq)]

/-- C152.  An option of type `char` takes the first character that is not white space; only a blank text is refused, and then the variable
is kept. -/
theorem C152_char (x c : UInt8) (ws t : List UInt8) (hw : ∀ d ∈ ws, Space d) (hc : ¬ Space c) :
    convertChar x (ws ++ c :: t) = (true, c) ∧ convertChar x ws = (false, x) := by
  constructor
  · rw [convertChar, dropSpaces hw (by simpa using hc)]
  · have := dropSpaces (s := []) hw (by simp)
    rw [List.append_nil] at this
    rw [convertChar, this]

/-- C152.  An option of type `bool`: the number at the beginning of the text must be 0 or 1 (or -0); with another number it is refused and
`true`, without a number it is refused and `false`; a blank text leaves
the variable alone. -/
theorem C152_bool (x : Bool) (ws sg ds t : List UInt8) (hw : ∀ d ∈ ws, Space d) (hg : Sign sg) (hd : ∀ c ∈ ds, Digit c)
    (ht : ∀ c ∈ t.head?, ¬ Digit c ∧ (ds = [] → ¬ Space c ∧ c ≠ 43 ∧ c ≠ 45)) (hne : sg ++ ds ++ t ≠ []) :
    convertBool x (ws ++ (sg ++ ds ++ t)) =
      (if ds = [] then (false, false)
      else if value ds = 0 then (true, false)
      else if value ds = 1 ∧ sg ≠ [45] then (true, true)
      else (false, true)) ∧ convertBool x ws = (false, x) := by
  have hD : AllD ds := fun c hc => (isDigit_iff c).2 (hd c hc)
  have hN : NoD t := fun c hc => by
    have := (ht c hc).1
    rw [← isDigit_iff] at this
    simpa using this
  have hs : ∀ c ∈ (sg ++ ds ++ t).head?, ¬ Space c := by
    rcases hg with h | h | h
    · subst h
      cases ds with
      | nil => intro c hc; exact ((ht c (by simpa using hc)).2 rfl).1
      | cons d ds =>
        intro c hc
        simp at hc
        subst hc
        have hd := hd d (by simp)
        rintro (e | e | e | e | e | e) <;> (rw [e] at hd; revert hd; simp [Digit])
    all_goals
      subst h
      intro c hc
      simp at hc
      subst hc
      simp [Space]
  have hsg : sign (sg ++ ds ++ t) = (sg, ds ++ t) := by
    rw [List.append_assoc, sign_of hg]
    intro _
    cases ds with
    | nil => intro c hc; exact ((ht c (by simpa using hc)).2 rfl).2
    | cons d ds => simpa using no_sign (i := d :: ds) (r := []) hD (by simp)
  constructor
  · rw [convertBool, dropSpaces hw hs]
    simp only [if_neg hne, hsg, (takeWhile_app hD hN).1, natOf_eq]
  · have := dropSpaces (s := []) hw (by simp)
    rw [List.append_nil] at this
    rw [convertBool, this]
    simp

/-- Finding for C152.  What follows the numeral is not looked at: `1,5` is 1, `1.5abc` is 1.5, and `0x10` is 0. -/
theorem C152_finding_rest_ignored (fl : Fl) (x : fl.T) :
    convertFloat fl x [49, 44, 53] = (!(fl.round ⟨false, 1, 0⟩).2, (fl.round ⟨false, 1, 0⟩).1) ∧
    convertFloat fl x [49, 46, 53, 97, 98, 99] = (!(fl.round ⟨false, 15, -1⟩).2, (fl.round ⟨false, 15, -1⟩).1) ∧
    convertFloat fl x [48, 120, 49, 48] = (!(fl.round ⟨false, 0, 0⟩).2, (fl.round ⟨false, 0, 0⟩).1) ∧
    convertChar 7 [97, 98] = (true, 97) := by
  refine ⟨?_, ?_, ?_, by decide⟩
  · have := C152_number fl x [] ⟨[], [49], none, none⟩ [44, 53] (by simp) ⟨.inl rfl, by simp [Digit], by simp, by simp, by simp⟩
      (by intro c hc; simp at hc; subst hc; simp [Digit])
    exact this
  · have := C152_number fl x [] ⟨[], [49], some [53], none⟩ [97, 98, 99] (by simp) ⟨.inl rfl, by simp [Digit], by simp [Digit], by simp, by simp⟩
      (by intro c hc; simp at hc; subst hc; simp [Digit])
    exact this
  · have := C152_number fl x [] ⟨[], [48], none, none⟩ [120, 49, 48] (by simp) ⟨.inl rfl, by simp [Digit], by simp, by simp, by simp⟩
      (by intro c hc; simp at hc; subst hc; simp [Digit])
    exact this

/-- Finding for C152.  A numeral without an exponent followed by the letter `e` but no digits is refused, as in `3em`, though `3m` is 3. -/
theorem C152_finding_letter_e (fl : Fl) (x : fl.T) : convertFloat fl x [51, 101, 109] = (false, fl.zero) ∧
    convertFloat fl x [51, 109] = (!(fl.round ⟨false, 3, 0⟩).2, (fl.round ⟨false, 3, 0⟩).1) := by
  constructor
  · rfl
  · have := C152_number fl x [] ⟨[], [51], none, none⟩ [109] (by simp) ⟨.inl rfl, by simp [Digit], by simp, by simp, by simp⟩
      (by intro c hc; simp at hc; subst hc; simp [Digit])
    exact this

/-! Concrete cases: exact numbers, too large from 10^400 on. -/

/-- Numbers kept exactly. -/
def exactFl : Fl := ⟨Dec, ⟨false, 0, 0⟩, fun d => (d, decide (400 ≤ d.exp))⟩

/-- ` -02.50e3 ` is -250 * 10 ^ 1. -/
example : convertFloat exactFl ⟨false, 7, 0⟩ [32, 45, 48, 50, 46, 53, 48, 101, 51, 32] = (true, ⟨true, 250, 1⟩) := rfl
example : (⟨[45], [48, 50], some [53, 48], some ⟨101, [], [51]⟩⟩ : Numeral).Ok ∧ (⟨[45], [48, 50], some [53, 48], some ⟨101, [], [51]⟩⟩ : Numeral).Ends [32] :=
  ⟨⟨by simp [Sign], by simp [Digit], by simp [Digit], by simp, by simp [Expo.Ok, Sign, Digit]⟩, by simp [Numeral.Ends, Digit]⟩
example : convertFloat exactFl ⟨false, 7, 0⟩ [46] = (false, ⟨false, 0, 0⟩) := rfl
example : convertFloat exactFl ⟨false, 7, 0⟩ [32] = (false, ⟨false, 7, 0⟩) := rfl
example : convertFloat exactFl ⟨false, 7, 0⟩ [49, 69, 52, 48, 48] = (false, ⟨false, 1, 400⟩) := rfl
example : (convertFloat exactFl ⟨false, 7, 0⟩ [48, 48, 55]).1 = true := by decide +kernel
/-- `none` is no numeral. -/
example : ¬ ∃ ws n t, [110, 111] = ws ++ (Numeral.text n ++ t) ∧ (∀ c ∈ ws, Space c) ∧ n.Ok ∧ n.Ends t := by
  rintro ⟨ws, n, t, e, h1, h2, h3⟩
  have := C152_number ⟨Unit, (), fun _ => ((), false)⟩ () ws n t h1 h2 h3
  rw [← e] at this
  have h : false = true := congrArg Prod.fst this
  simp at h
example : convertBool false [32, 49, 120] = (true, true) :=
  (C152_bool false [32] [] [49] [120] (by simp [Space]) (.inl rfl) (by simp [Digit]) (by simp [Digit]) (by simp)).1
example : convertChar 7 [32, 97, 98] = (true, 97) := (C152_char 7 97 [32] [98] (by simp [Space]) (by simp [Space])).1
example : convertBool true [116, 114, 117, 101] = (false, false) ∧ convertBool false [49, 120] = (true, true) ∧ convertBool false [50] = (false, true) := by decide

end Verif.Props.OptStream

#print axioms Verif.Props.OptStream.C152_number
#print axioms Verif.Props.OptStream.C152_accepted
#print axioms Verif.Props.OptStream.C152_refused
#print axioms Verif.Props.OptStream.C152_char
#print axioms Verif.Props.OptStream.C152_bool
#print axioms Verif.Props.OptStream.C152_finding_rest_ignored
#print axioms Verif.Props.OptStream.C152_finding_letter_e
