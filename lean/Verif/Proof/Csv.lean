import Verif.Model.Csv
import Verif.Spec.Csv
import Verif.Proof.Stream
set_option linter.unusedSimpArgs false

/-! Lemmas for C24. -/
namespace Verif.Csv
open Verif.Stream hiding read
open Verif.Spec.Stream Verif.Spec.Csv

theorem sext_range (b : UInt8) : -128 ≤ sext b ∧ sext b < 128 := by
  have := b.toNat_lt
  rw [sext]; split <;> omega

theorem sext_inj (a b : UInt8) : sext a = sext b ↔ a = b := by
  constructor
  · intro h
    have h1 := a.toNat_lt
    have h2 := b.toNat_lt
    apply UInt8.toNat_inj.mp
    rw [sext, sext] at h
    split at h <;> split at h <;> omega
  · rintro rfl; rfl

theorem sext_lit (b : UInt8) : (sext b = -1 ↔ b = 255) ∧ (sext b = 13 ↔ b = 13) ∧ (sext b = 10 ↔ b = 10) ∧ (sext b = 34 ↔ b = 34) :=
  ⟨sext_inj b 255, sext_inj b 13, sext_inj b 10, sext_inj b 34⟩

theorem toChar_sext (b : UInt8) : toChar (sext b) = b := by
  have := b.toNat_lt
  rw [toChar]
  have : (sext b % 256).toNat = b.toNat := by rw [sext]; split <;> omega
  rw [this]; simp

/-- The bytes not consumed yet. -/
def pending (r : Reader) : List UInt8 := (r.buf.take r.bufSize).drop r.pos ++ r.src.rest

/-- What holds between calls. -/
structure Inv (r : Reader) : Prop where
  pos : r.pos ≤ r.bufSize
  size : r.bufSize ≤ r.buf.length
  buf : 0 < r.buf.length

theorem getchar_cons (r : Reader) (h : Inv r) (b : UInt8) (bs : List UInt8) (hp : pending r = b :: bs) :
    ∃ r', getchar r = .ok (sext b, r') ∧ Inv r' ∧ pending r' = bs ∧ r'.lineSize = r.lineSize ∧ r'.eof = r.eof := by
  have h1 := h.pos
  have h2 := h.size
  have h3 := h.buf
  rw [getchar]
  by_cases hc : r.pos < r.bufSize
  · have hd : (r.buf.take r.bufSize).drop r.pos = (r.buf[r.pos]'(by omega)) :: (r.buf.take r.bufSize).drop (r.pos + 1) := by
      rw [List.drop_eq_getElem_cons (by rw [List.length_take]; omega)]
      simp
    rw [pending, hd, List.cons_append] at hp
    injection hp with hp1 hp2
    rw [if_pos hc, at?_eq_ok (by omega)]
    simp only [Res.ok_bind, Res.pure_eq]
    rw [hp1]; exact ⟨_, rfl, ⟨by simp only; omega, h2, h3⟩, hp2, rfl, rfl⟩
  · have hn : (r.buf.take r.bufSize).drop r.pos = [] := List.drop_eq_nil_of_le (by rw [List.length_take]; omega)
    rw [pending, hn, List.nil_append] at hp
    obtain ⟨a1, a2⟩ := amount_le r.src r.buf.length
    have ha : 0 < r.src.amount r.buf.length := by
      rcases Nat.eq_zero_or_pos (r.src.amount r.buf.length) with h0 | h0
      · rcases (amount_zero _ _).mp h0 with h0 | h0
        · omega
        · rw [h0] at hp; cases hp
      · exact h0
    have ht : (r.src.rest.take (r.src.amount r.buf.length)).length = r.src.amount r.buf.length := by rw [List.length_take]; omega
    rw [if_neg hc, readSome, store_ok _ _ _ (by omega)]
    simp only [Res.ok_bind, Res.pure_eq]
    rw [if_pos ha]
    have hs : splice r.buf 0 (r.src.rest.take (r.src.amount r.buf.length)) =
        r.src.rest.take (r.src.amount r.buf.length) ++ r.buf.drop (r.src.amount r.buf.length) := by
      rw [splice, ht]; simp
    have h0 : at? (splice r.buf 0 (r.src.rest.take (r.src.amount r.buf.length))) 0 = .ok b := by
      rw [hs, hp]
      obtain ⟨k, hk⟩ : ∃ k, r.src.amount r.buf.length = k + 1 := ⟨r.src.amount r.buf.length - 1, by omega⟩
      rw [hk]
      rfl
    rw [h0]
    simp only [Res.ok_bind]
    refine ⟨_, rfl, ⟨by simp only; omega, by simp only; rw [splice_length _ _ _ (by omega)]; omega,
      by simp only; rw [splice_length _ _ _ (by omega)]; omega⟩, ?_, rfl, rfl⟩
    rw [pending]
    simp only [hs, Src.next]
    rw [List.take_left' ht]
    have : r.src.rest.take (r.src.amount r.buf.length) ++ r.src.rest.drop (r.src.amount r.buf.length) = b :: bs := by
      rw [List.take_append_drop, hp]
    obtain ⟨k, hk⟩ : ∃ k, r.src.amount r.buf.length = k + 1 := ⟨r.src.amount r.buf.length - 1, by omega⟩
    rw [hk, hp]
    simp

theorem getchar_nil (r : Reader) (h : Inv r) (hp : pending r = []) :
    ∃ r', getchar r = .ok (-1, r') ∧ Inv r' ∧ pending r' = [] ∧ r'.lineSize = r.lineSize ∧ r'.eof = true := by
  have h1 := h.pos
  have h2 := h.size
  rw [pending, List.append_eq_nil_iff] at hp
  obtain ⟨p1, p2⟩ := hp
  have hc : ¬ r.pos < r.bufSize := by
    have : ((r.buf.take r.bufSize).drop r.pos).length = 0 := by rw [p1]; rfl
    rw [List.length_drop, List.length_take] at this
    omega
  have ha : r.src.amount r.buf.length = 0 := (amount_zero _ _).mpr (.inr p2)
  rw [getchar, if_neg hc, readSome, ha, List.take_zero, store_ok _ _ _ (by simp), splice_nil]
  simp only [Res.ok_bind, Res.pure_eq]
  rw [if_neg (by omega)]
  exact ⟨_, rfl, ⟨by simp, by simp, h.buf⟩, by simp [pending, Src.next, p2], rfl, rfl⟩

/-- The reader on a list of bytes: the answer, the row, the line size, what is left and whether the end was seen. -/
def pureRead (max : Nat) (sep : UInt8) : (bytes : List UInt8) → State → (str : List UInt8) → (out : List (List UInt8)) → (lineSize : Nat) →
    Res (Bool × List (List UInt8) × Nat × List UInt8 × Bool)
  | [], st, str, out, n => do
    let x ← body max sep st str out n (-1)
    match x with
    | .ret b out => return (b, out, n, [], true)
    | .go _ _ _ _ => .ub
  | b :: bs, st, str, out, n => do
    let x ← body max sep st str out n (sext b)
    match x with
    | .ret b out => return (b, out, n, bs, false)
    | .go st str out n => pureRead max sep bs st str out n

theorem body_eof (max : Nat) (sep : UInt8) (st : State) (str : List UInt8) (out : List (List UInt8)) (n : Nat) :
    body max sep st str out n (-1) = .throw ∨ ∃ b o, body max sep st str out n (-1) = .ok (.ret b o) := by
  rw [body.eq_def]
  split
  · exact .inr ⟨_, _, rfl⟩
  · rw [if_neg (by omega)]
    cases st <;> simp

/-- The reader does what `pureRead` does. -/
theorem readLoop_pure (max : Nat) (sep : UInt8) (fuel : Nat) : ∀ (r : Reader) (st : State) (str : List UInt8) (out : List (List UInt8)),
    Inv r → r.eof = false → (pending r).length + 1 ≤ fuel →
    (pureRead max sep (pending r) st str out r.lineSize = .throw ∧ readLoop max sep fuel st str out r = .throw) ∨
    ∃ b o n rest e r', pureRead max sep (pending r) st str out r.lineSize = .ok (b, o, n, rest, e) ∧
      readLoop max sep fuel st str out r = .ok (b, o, r') ∧ Inv r' ∧ pending r' = rest ∧ r'.lineSize = n ∧ r'.eof = e := by
  induction fuel with
  | zero => intro r st str out _ _ h; omega
  | succ fuel ih =>
    intro r st str out hi he hf
    cases hp : pending r with
    | nil =>
      obtain ⟨r', g1, g2, g3, g4, g5⟩ := getchar_nil r hi hp
      rw [readLoop, g1, pureRead]
      simp only [Res.ok_bind]
      rw [g4]
      rcases body_eof max sep st str out r.lineSize with hb | ⟨b, o, hb⟩
      · rw [hb]; exact .inl ⟨rfl, rfl⟩
      · rw [hb]
        exact .inr ⟨b, o, _, [], true, r', rfl, rfl, g2, g3, g4, g5⟩
    | cons c bs =>
      obtain ⟨r', g1, g2, g3, g4, g5⟩ := getchar_cons r hi c bs hp
      rw [readLoop, g1, pureRead]
      simp only [Res.ok_bind]
      rw [g4]
      cases hb : body max sep st str out r.lineSize (sext c) with
      | throw => exact .inl ⟨rfl, rfl⟩
      | ub =>
        exfalso
        rw [body.eq_def] at hb
        split at hb
        · cases hb
        · split at hb
          · cases hb
          · cases st <;> simp only [addChar] at hb <;> (repeat' split at hb) <;> cases hb
      | ok x =>
        cases x with
        | ret b o => exact .inr ⟨b, o, _, bs, false, r', rfl, rfl, g2, g3, g4, by rw [g5, he]⟩
        | go st' str' out' n' =>
          simp only [Res.ok_bind]
          rw [hp] at hf
          simp only [List.length_cons] at hf
          have := ih { r' with lineSize := n' } st' str' out' ⟨g2.pos, g2.size, g2.buf⟩ (by simp only; rw [g5, he])
            (by show (pending r').length + 1 ≤ fuel; rw [g3]; omega)
          have hpp : pending { r' with lineSize := n' } = bs := g3
          rw [hpp] at this
          exact this

/-! ## The reader on rendered rows -/

theorem pure_cr (max : Nat) (sep : UInt8) (bs : List UInt8) (st : State) (str : List UInt8) (out : List (List UInt8)) (n : Nat) :
    pureRead max sep (13 :: bs) st str out n = pureRead max sep bs st str out n := by
  rw [pureRead, body.eq_def, if_neg (by rintro ⟨h, _⟩; revert h; decide), if_pos (by decide)]
  rfl

/-- A character is added. -/
theorem addChar_ok (max : Nat) (st : State) (str : List UInt8) (out : List (List UInt8)) (n : Nat) (b : UInt8) (h : n + 1 < max) :
    addChar max st str out n (sext b) = .ok (.go st (str ++ [b]) out (n + 1)) := by
  rw [addChar]
  rw [if_neg (by omega), toChar_sext]

theorem pure_quoted (max : Nat) (sep : UInt8) (f rest : List UInt8) (h13 : 13 ∉ f) (h255 : 255 ∉ f) :
    ∀ (str : List UInt8) (out : List (List UInt8)) (n : Nat), n + f.length < max →
    pureRead max sep (doubled f ++ 34 :: rest) .inQuote str out n = pureRead max sep rest .needSepOrQuote (str ++ f) out (n + f.length) := by
  have quote : ∀ (bs : List UInt8) (str : List UInt8) (out : List (List UInt8)) (n : Nat),
      pureRead max sep (34 :: bs) .inQuote str out n = pureRead max sep bs .needSepOrQuote str out n := by
    intro bs str out n
    rw [pureRead, body.eq_def, if_neg (by rintro ⟨h, _⟩; revert h; decide), if_neg (by decide)]
    simp only [show sext 34 = 34 by decide]
    rfl
  induction f with
  | nil => intro str out n _; simp only [doubled, List.nil_append, List.append_nil, List.length_nil, Nat.add_zero]; exact quote _ _ _ _
  | cons c f ih =>
    intro str out n hn
    simp only [List.mem_cons, not_or] at h13 h255
    simp only [List.length_cons] at hn
    obtain ⟨l1, l2, l3, l4⟩ := sext_lit c
    rw [doubled]
    by_cases hc : c = 34
    · subst hc
      rw [if_pos rfl, List.cons_append, quote, List.cons_append, pureRead, body.eq_def, if_neg (by rintro ⟨h, _⟩; revert h; decide),
        if_neg (by decide)]
      simp only [show sext 34 = 34 by decide, show ¬ ((34 : Int) = -1 ∨ (34 : Int) = 10) by decide, if_false, if_true]
      have := addChar_ok max .inQuote str out n 34 (by omega)
      rw [show sext 34 = 34 by decide] at this
      rw [this]
      simp only [Res.ok_bind]
      rw [ih h13.2 h255.2 _ _ _ (by omega)]
      simp only [List.append_assoc, List.singleton_append, List.length_cons]
      rw [show n + 1 + f.length = n + (f.length + 1) by omega]
    · rw [if_neg hc, List.cons_append, pureRead, body.eq_def, if_neg (by rw [l1]; exact fun h => h255.1 h.1.symm),
        if_neg (by rw [l2]; exact fun h => h13.1 h.symm)]
      simp only
      rw [if_neg (by rw [l1]; exact fun h => h255.1 h.symm), if_neg (by rw [l4]; exact hc), addChar_ok _ _ _ _ _ _ (by omega)]
      simp only [Res.ok_bind]
      rw [ih h13.2 h255.2 _ _ _ (by omega)]
      simp only [List.append_assoc, List.singleton_append, List.length_cons]
      rw [show n + 1 + f.length = n + (f.length + 1) by omega]

theorem pure_plain (max : Nat) (sep : UInt8) (f rest : List UInt8) (h13 : 13 ∉ f) (h255 : 255 ∉ f) (hs : sep ∉ f) (h10 : 10 ∉ f) :
    ∀ (str : List UInt8) (out : List (List UInt8)) (n : Nat), n + f.length < max →
    pureRead max sep (f ++ rest) .searchSep str out n = pureRead max sep rest .searchSep (str ++ f) out (n + f.length) := by
  induction f with
  | nil => intro str out n _; simp
  | cons c f ih =>
    intro str out n hn
    simp only [List.mem_cons, not_or] at h13 h255 hs h10
    simp only [List.length_cons] at hn
    obtain ⟨l1, l2, l3, l4⟩ := sext_lit c
    rw [List.cons_append, pureRead, body.eq_def, if_neg (by rw [l1]; exact fun h => h255.1 h.1.symm),
      if_neg (by rw [l2]; exact fun h => h13.1 h.symm)]
    simp only
    rw [if_neg (by rw [l1, l3]; rintro (h | h); exact h255.1 h.symm; exact h10.1 h.symm),
      if_neg (by rw [sext_inj]; exact fun h => hs.1 h.symm), addChar_ok _ _ _ _ _ _ (by omega)]
    simp only [Res.ok_bind]
    rw [ih h13.2 h255.2 hs.2 h10.2 _ _ _ (by omega)]
    simp only [List.append_assoc, List.singleton_append, List.length_cons]
    rw [show n + 1 + f.length = n + (f.length + 1) by omega]

/-- Where the reader is after a field. -/
theorem pure_field (max : Nat) (sep : UInt8) (hsep : isValidSeparator sep = true) (f : Field) (rest : List UInt8) (hf : f.Legal sep)
    (out : List (List UInt8)) (n : Nat) (hn : n + f.text.length < max) :
    ∃ st, (st = .needSepOrQuote ∨ st = .searchSep ∨ (st = .top ∧ f.text = [] ∧ f.quoted = false)) ∧
      pureRead max sep (f.render ++ rest) .top [] out n = pureRead max sep rest st f.text out (n + f.text.length) := by
  obtain ⟨q, text⟩ := f
  obtain ⟨h13, h255, hpl⟩ := hf
  simp only at h13 h255 hpl hn ⊢
  cases q with
  | true =>
    refine ⟨.needSepOrQuote, .inl rfl, ?_⟩
    have := pure_quoted max sep text rest h13 h255 [] out n hn
    rw [List.nil_append] at this
    rw [← this, Field.render]
    simp only [if_true, List.append_assoc, List.cons_append, List.nil_append]
    rw [pureRead, body.eq_def, if_neg (by rintro ⟨h, _⟩; revert h; decide), if_neg (by decide)]
    simp only [show sext 34 = 34 by decide]
    rfl
  | false =>
    obtain ⟨hs, h10, hq⟩ := hpl rfl
    rw [Field.render]
    simp only [Bool.false_eq_true, if_false]
    cases text with
    | nil => exact ⟨.top, .inr (.inr ⟨rfl, rfl, trivial⟩), by simp⟩
    | cons c text =>
      refine ⟨.searchSep, .inr (.inl rfl), ?_⟩
      simp only [List.mem_cons, not_or] at h13 h255 hs h10
      simp only [List.length_cons] at hn
      have hc : c ≠ 34 := by simpa using hq
      obtain ⟨l1, l2, l3, l4⟩ := sext_lit c
      rw [List.cons_append, pureRead, body.eq_def, if_neg (by rw [l1]; exact fun h => h255.1 h.1.symm),
        if_neg (by rw [l2]; exact fun h => h13.1 h.symm)]
      simp only
      rw [if_neg (by rw [l1, l3]; rintro (h | h); exact h255.1 h.symm; exact h10.1 h.symm), if_neg (by rw [l4]; exact hc),
        if_neg (by rw [sext_inj]; exact fun h => hs.1 h.symm), addChar_ok _ _ _ _ _ _ (by omega)]
      simp only [Res.ok_bind]
      rw [pure_plain max sep text rest h13.2 h255.2 hs.2 h10.2 _ _ _ (by omega)]
      simp only [List.nil_append, List.singleton_append, List.length_cons]
      rw [show n + 1 + text.length = n + (text.length + 1) by omega]

theorem sep_lit (sep : UInt8) (h : isValidSeparator sep = true) : sep ≠ 255 ∧ sep ≠ 13 ∧ sep ≠ 10 ∧ sep ≠ 34 := by
  simp only [isValidSeparator, Bool.or_eq_true, decide_eq_true_eq] at h
  rcases h with ((h | h) | h) | h <;> subst h <;> decide

theorem pure_sep (max : Nat) (sep : UInt8) (hsep : isValidSeparator sep = true) (rest str : List UInt8) (st : State)
    (h : st ≠ .inQuote) (out : List (List UInt8)) (n : Nat) :
    pureRead max sep (sep :: rest) st str out n = pureRead max sep rest .top [] (out ++ [str]) n := by
  obtain ⟨l1, l2, l3, l4⟩ := sext_lit sep
  obtain ⟨s1, s2, s3, s4⟩ := sep_lit sep hsep
  rw [pureRead, body.eq_def, if_neg (by rw [l1]; exact fun h => s1 h.1), if_neg (by rw [l2]; exact s2)]
  cases st with
  | inQuote => exact absurd rfl h
  | top =>
    simp only
    rw [if_neg (by rw [l1, l3]; rintro (h | h); exact s1 h; exact s3 h), if_neg (by rw [l4]; exact s4), if_pos trivial]
    rfl
  | needSepOrQuote =>
    simp only
    rw [if_neg (by rw [l1, l3]; rintro (h | h); exact s1 h; exact s3 h), if_neg (by rw [l4]; exact s4), if_pos trivial]
    rfl
  | searchSep =>
    simp only
    rw [if_neg (by rw [l1, l3]; rintro (h | h); exact s1 h; exact s3 h), if_pos trivial]
    rfl

theorem pure_lf (max : Nat) (sep : UInt8) (rest str : List UInt8) (st : State)
    (h : st = .needSepOrQuote ∨ st = .searchSep) (out : List (List UInt8)) (n : Nat) :
    pureRead max sep (10 :: rest) st str out n = .ok (true, out ++ [str], n, rest, false) := by
  rw [pureRead, body.eq_def, if_neg (by rintro ⟨h, _⟩; revert h; decide), if_neg (by decide)]
  rcases h with rfl | rfl <;> (simp only [show sext 10 = 10 by decide]; rfl)

/-- A whole row, ended by LF or CR LF. -/
theorem pure_row (max : Nat) (sep : UInt8) (hsep : isValidSeparator sep = true) (eol : List UInt8) (heol : eol = [10] ∨ eol = [13, 10])
    (rest : List UInt8) (fs : List Field) : ∀ (out : List (List UInt8)) (n : Nat), RowLegal sep fs → n + size fs < max →
    pureRead max sep (renderRow sep fs ++ eol ++ rest) .top [] out n = .ok (true, out ++ fields fs, n + size fs, rest, false) := by
  have eolread : ∀ st (str : List UInt8) (out : List (List UInt8)) (n : Nat), (st = .needSepOrQuote ∨ st = .searchSep) →
      pureRead max sep (eol ++ rest) st str out n = .ok (true, out ++ [str], n, rest, false) := by
    intro st str out n h
    rcases heol with rfl | rfl
    · exact pure_lf max sep rest str st h out n
    · rw [List.cons_append, pure_cr]
      exact pure_lf max sep rest str st h out n
  induction fs with
  | nil =>
    intro out n _ _
    have : ∀ (out : List (List UInt8)) (n : Nat), pureRead max sep (10 :: rest) .top [] out n = .ok (true, out, n, rest, false) := by
      intro out n
      rw [pureRead, body.eq_def, if_neg (by rintro ⟨h, _⟩; revert h; decide), if_neg (by decide)]
      simp only [show sext 10 = 10 by decide]
      rfl
    simp only [renderRow, List.nil_append, fields, List.map_nil, List.append_nil, size, List.sum_nil, Nat.add_zero]
    rcases heol with rfl | rfl
    · exact this out n
    · rw [List.cons_append, pure_cr]; exact this out n
  | cons f fs ih =>
    intro out n hl hn
    have hsz : size (f :: fs) = f.text.length + size fs := by simp [size]
    have hlf : f.Legal sep := hl.1 f (by simp)
    cases fs with
    | nil =>
      have hs0 : size ([] : List Field) = 0 := rfl
      obtain ⟨st, h1, h2⟩ := pure_field max sep hsep f (eol ++ rest) hlf out n (by omega)
      rw [renderRow, List.append_assoc, h2, eolread]
      · simp [fields, hsz, hs0]
      · rcases h1 with h1 | h1 | ⟨_, h3, h4⟩
        · exact .inl h1
        · exact .inr h1
        · exfalso
          rcases hl.2 f (by simp) with h | h
          · rw [h] at h4; cases h4
          · exact h h3
    | cons g gs =>
      obtain ⟨st, h1, h2⟩ := pure_field max sep hsep f ([sep] ++ (renderRow sep (g :: gs) ++ eol ++ rest)) hlf out n (by omega)
      have hr : renderRow sep (f :: g :: gs) ++ eol ++ rest = f.render ++ ([sep] ++ (renderRow sep (g :: gs) ++ eol ++ rest)) := by
        rw [renderRow]
        · simp
        · simp
      rw [hr, h2, List.singleton_append, pure_sep max sep hsep _ _ st (by rcases h1 with h | h | h <;> simp [h]), ih]
      · rw [hsz, Nat.add_assoc]; simp [fields]
      · exact ⟨fun f' hf' => hl.1 f' (List.mem_cons_of_mem _ hf'), fun f' hf' => hl.2 f' (by simpa using hf')⟩
      · omega

/-! ## The writer -/

theorem appendLoop_eq (str : List UInt8) : ∀ out, appendLoop out str = out ++ doubled str := by
  induction str with
  | nil => intro out; simp [appendLoop, doubled]
  | cons c str ih =>
    intro out
    rw [appendLoop, ih, doubled]
    split <;> simp_all

theorem writeLoop_eq (sep : UInt8) (row : List (List UInt8)) :
    writeLoop sep true row = renderRow sep (row.map fun t => ⟨true, t⟩) ∧
    (row ≠ [] → writeLoop sep false row = [sep] ++ renderRow sep (row.map fun t => ⟨true, t⟩)) := by
  induction row with
  | nil => simp [writeLoop, renderRow]
  | cons f fs ih =>
    have hf : append f = Field.render ⟨true, f⟩ := by simp [append, Field.render, appendLoop_eq]
    cases fs with
    | nil => simp [writeLoop, renderRow, hf]
    | cons g gs =>
      have h2 := ih.2 (by simp)
      have hr : renderRow sep ((f :: g :: gs).map fun t => ⟨true, t⟩) =
          Field.render ⟨true, f⟩ ++ [sep] ++ renderRow sep ((g :: gs).map fun t => ⟨true, t⟩) := by
        simp [renderRow]
      constructor
      · rw [writeLoop, h2, hr, hf]; simp
      · intro _; rw [writeLoop, h2, hr, hf]; simp

theorem write_eq (sep : UInt8) (row : List (List UInt8)) :
    write sep row = renderRow sep (row.map fun t => ⟨true, t⟩) ++ [13, 10] := by
  rw [write, (writeLoop_eq sep row).1]

/-- One call of `read` on a row that is there. -/
theorem read_row (max : Nat) (sep : UInt8) (hsep : isValidSeparator sep = true) (eol : List UInt8) (heol : eol = [10] ∨ eol = [13, 10])
    (rest : List UInt8) (fs : List Field) (hl : RowLegal sep fs) (r : Reader) (hi : Inv r) (he : r.eof = false)
    (hp : pending r = renderRow sep fs ++ eol ++ rest) (hn : r.lineSize + size fs < max) (fuel : Nat) (hf : (pending r).length + 1 ≤ fuel)
    (old : List (List UInt8)) :
    ∃ r', read max sep fuel old r = .ok (true, fields fs, r') ∧ Inv r' ∧ r'.eof = false ∧ pending r' = rest ∧
      r'.lineSize = r.lineSize + size fs := by
  rw [read, if_neg (by simp [he])]
  have hg := pure_row max sep hsep eol heol rest fs [] r.lineSize hl hn
  have hpp : pending { r with line := r.line + 1 } = pending r := rfl
  rcases readLoop_pure max sep fuel { r with line := r.line + 1 } .top [] [] ⟨hi.pos, hi.size, hi.buf⟩ he (by rw [hpp]; exact hf) with
    ⟨h1, _⟩ | ⟨b, o, n, rest', e, r', h1, h2, h3, h4, h5, h6⟩
  · rw [hpp, hp] at h1
    simp only at h1
    rw [hg] at h1; cases h1
  · rw [hpp, hp] at h1
    simp only at h1
    rw [hg] at h1
    injection h1 with h1
    simp only [Prod.mk.injEq, List.nil_append] at h1
    obtain ⟨rfl, rfl, rfl, rfl, rfl⟩ := h1
    exact ⟨r', h2, h3, h6, h4, h5⟩

theorem read_end (max : Nat) (sep : UInt8) (r : Reader) (hi : Inv r) (he : r.eof = false) (hp : pending r = []) (fuel : Nat) (hf : 1 ≤ fuel)
    (old : List (List UInt8)) : ∃ o r', read max sep fuel old r = .ok (false, o, r') := by
  rw [read, if_neg (by simp [he])]
  have hpp : pending { r with line := r.line + 1 } = pending r := rfl
  rcases readLoop_pure max sep fuel { r with line := r.line + 1 } .top [] [] ⟨hi.pos, hi.size, hi.buf⟩ he (by rw [hpp, hp]; exact hf) with
    ⟨h1, _⟩ | ⟨b, o, n, rest', e, r', h1, h2, _⟩
  · rw [hpp, hp, pureRead, body.eq_def, if_pos ⟨rfl, rfl⟩] at h1; cases h1
  · rw [hpp, hp, pureRead, body.eq_def, if_pos ⟨rfl, rfl⟩] at h1
    simp only [Res.ok_bind, Res.pure_eq] at h1
    injection h1 with h1
    simp only [Prod.mk.injEq] at h1
    rw [← h1.1] at h2
    exact ⟨o, r', h2⟩

/-- A text: rows and their line ends. -/
def textOf (sep : UInt8) (rows : List (List Field × List UInt8)) : List UInt8 := (rows.map fun p => renderRow sep p.1 ++ p.2).flatten

theorem readAll_rows (max : Nat) (sep : UInt8) (hsep : isValidSeparator sep = true) (rows : List (List Field × List UInt8)) :
    (∀ p ∈ rows, RowLegal sep p.1 ∧ (p.2 = [10] ∨ p.2 = [13, 10])) → ∀ (r : Reader) (fuel n : Nat), Inv r → r.eof = false →
    pending r = textOf sep rows → r.lineSize + (rows.map fun p => size p.1).sum < max → (pending r).length + 1 ≤ fuel →
    rows.length + 1 ≤ n → readAll max sep fuel n r = .ok (rows.map fun p => fields p.1) := by
  induction rows with
  | nil =>
    intro _ r fuel n hi he hp _ hf hn
    obtain ⟨m, rfl⟩ : ∃ m, n = m + 1 := ⟨n - 1, by simp at hn; omega⟩
    obtain ⟨o, r', h⟩ := read_end max sep r hi he (by simpa [textOf] using hp) fuel (by omega) []
    rw [readAll, h]
    rfl
  | cons p rows ih =>
    intro hall r fuel n hi he hp hs hf hn
    obtain ⟨m, rfl⟩ : ∃ m, n = m + 1 := ⟨n - 1, by simp at hn; omega⟩
    obtain ⟨h1, h2⟩ := hall p (by simp)
    simp only [List.map_cons, List.sum_cons] at hs
    have hp' : pending r = renderRow sep p.1 ++ p.2 ++ textOf sep rows := by rw [hp]; simp [textOf]
    obtain ⟨r', g1, g2, g3, g4, g5⟩ := read_row max sep hsep p.2 h2 (textOf sep rows) p.1 h1 r hi he hp' (by omega) fuel hf []
    rw [readAll, g1]
    simp only [Res.ok_bind, if_true]
    rw [ih (fun q hq => hall q (by simp [hq])) r' fuel m g2 g3 g4 (by omega)
      (by rw [g4]; rw [hp'] at hf; simp only [List.length_append] at hf; omega) (by simpa using hn)]
    rfl

theorem shrinks (max : Nat) (sep : UInt8) (bytes : List UInt8) : ∀ (st : State) (str : List UInt8) (out : List (List UInt8)) (n : Nat)
    (b : Bool) (o : List (List UInt8)) (m : Nat) (rest : List UInt8) (e : Bool),
    pureRead max sep bytes st str out n = .ok (b, o, m, rest, e) → rest.length + 1 ≤ bytes.length ∨ e = true := by
  induction bytes with
  | nil =>
    intro st str out n b o m rest e h
    rw [pureRead] at h
    rcases body_eof max sep st str out n with hb | ⟨b', o', hb⟩
    · rw [hb] at h; cases h
    · rw [hb] at h
      simp only [Res.ok_bind, Res.pure_eq] at h
      injection h with h
      simp only [Prod.mk.injEq] at h
      exact .inr h.2.2.2.2.symm
  | cons c bytes ih =>
    intro st str out n b o m rest e h
    rw [pureRead] at h
    cases hb : body max sep st str out n (sext c) with
    | throw => rw [hb] at h; cases h
    | ub => rw [hb] at h; cases h
    | ok x =>
      rw [hb] at h
      simp only [Res.ok_bind] at h
      cases x with
      | ret b' o' =>
        simp only [Res.pure_eq] at h
        injection h with h
        simp only [Prod.mk.injEq] at h
        left; rw [← h.2.2.2.1]; simp
      | go st' str' out' n' =>
        rcases ih st' str' out' n' b o m rest e h with h | h
        · left; simp only [List.length_cons]; omega
        · exact .inr h

/-- Only the bytes left and the line size matter. -/
theorem readAll_same (max : Nat) (sep : UInt8) (n : Nat) : ∀ (r r' : Reader) (fuel fuel' : Nat), Inv r → Inv r' →
    pending r = pending r' → r.lineSize = r'.lineSize → r.eof = r'.eof → (pending r).length + 1 ≤ fuel → (pending r).length + 1 ≤ fuel' →
    (pending r).length + 1 ≤ n → readAll max sep fuel n r = readAll max sep fuel' n r' ∧ readAll max sep fuel n r ≠ .ub := by
  induction n with
  | zero => intro r r' fuel fuel' _ _ _ _ _ _ _ h; omega
  | succ n ih =>
    intro r r' fuel fuel' hi hi' hp hl he hf hf' hn
    rw [readAll, readAll]
    by_cases hee : r.eof = true
    · have hee' : r'.eof = true := by rw [← he]; exact hee
      rw [read, read, if_pos hee, if_pos hee']
      simp
    · have h0 : r.eof = false := by simpa using hee
      have h0' : r'.eof = false := by rw [← he]; exact h0
      rw [read, read, if_neg hee, if_neg (by rw [← he]; exact hee)]
      have a := readLoop_pure max sep fuel { r with line := r.line + 1 } .top [] [] ⟨hi.pos, hi.size, hi.buf⟩ h0 hf
      have b := readLoop_pure max sep fuel' { r' with line := r'.line + 1 } .top [] [] ⟨hi'.pos, hi'.size, hi'.buf⟩ h0'
        (by show (pending r').length + 1 ≤ fuel'; rw [← hp]; exact hf')
      have p1 : pending { r with line := r.line + 1 } = pending r := rfl
      have p2 : pending { r' with line := r'.line + 1 } = pending r' := rfl
      rw [p1] at a
      rw [p2, ← hp] at b
      simp only at a b
      rw [← hl] at b ⊢
      rcases a with ⟨a1, a2⟩ | ⟨x, o, m, rest, e, r1, a1, a2, a3, a4, a5, a6⟩
      · rcases b with ⟨b1, b2⟩ | ⟨x', o', m', rest', e', r1', b1, _⟩
        · rw [a2, b2]; simp
        · rw [a1] at b1; cases b1
      · rcases b with ⟨b1, b2⟩ | ⟨x', o', m', rest', e', r1', b1, b2, b3, b4, b5, b6⟩
        · rw [a1] at b1; cases b1
        · rw [a1] at b1
          injection b1 with b1
          simp only [Prod.mk.injEq] at b1
          obtain ⟨rfl, rfl, rfl, rfl, rfl⟩ := b1
          rw [a2, b2]
          simp only [Res.ok_bind]
          cases x with
          | false => simp
          | true =>
            simp only [if_true]
            have hle := shrinks max sep (pending r) .top [] [] r.lineSize
            rw [a1] at hle
            have hrest : rest.length + 1 ≤ (pending r).length ∨ e = true := hle _ _ _ _ _ rfl
            by_cases hee2 : e = true
            · -- the end was seen: the next call says false
              have hn0 : ∃ k, n = k + 1 ∨ n = 0 := ⟨n - 1, by omega⟩
              obtain ⟨k, hk | hk⟩ := hn0
              · subst hk
                rw [readAll, readAll, read, read, if_pos (by rw [a6]; exact hee2), if_pos (by rw [b6]; exact hee2)]
                simp
              · exfalso
                have hpn : pending r = [] := List.length_eq_zero_iff.mp (by omega)
                rw [hpn, pureRead, body.eq_def, if_pos ⟨rfl, rfl⟩] at a1
                simp at a1
            · have hrest : rest.length + 1 ≤ (pending r).length := by rcases hrest with h | h; exact h; exact absurd h hee2
              obtain ⟨g1, g2⟩ := ih r1 r1' fuel fuel' a3 b3 (by rw [a4, b4]) (by rw [a5, b5]) (by rw [a6, b6]) (by rw [a4]; omega)
                (by rw [a4]; omega) (by rw [a4]; omega)
              rw [← g1]
              refine ⟨rfl, ?_⟩
              cases hres : readAll max sep fuel n r1 with
              | ok v => simp
              | throw => simp
              | ub => exact absurd hres g2

end Verif.Csv
