import Verif.Spec.Desymbol
import Verif.Spec.Exception
import Verif.Proof.Atoi
set_option linter.unusedSimpArgs false

/-!
# C108: finding the place of an address and replacing the addresses of a log
-/
namespace Verif.Props.Desymbol
open Verif.Desymbol
open Verif.Spec.Desymbol
open Verif.Spec.Numeral
open Verif.Exception (cstr)

theorem mapOver_found (lib : Lib) (pc : Nat) (l : List Section) : ∀ (n : Nat) (d : Data), d.found = true → mapOver lib pc n l d = d := by
  induction l with
  | nil => intro n d _; rfl
  | cons s l ih => intro n d h; simp [mapOver, findAddress, h, ih]

theorem mapOver_spec (lib : Lib) (pc : Nat) (l : List Section) : ∀ (n : Nat) (d : Data), d.found = false →
    (∀ s ∈ l, s.vma + s.size < 2 ^ 64) →
    (∃ k s i, l[k]? = some s ∧ Section.covers s pc ∧ lib.nearest (n + k) (pc - s.vma) = some i ∧
      (∀ m < k, ∀ s j, l[m]? = some s → Section.covers s pc → lib.nearest (n + m) (pc - s.vma) ≠ some j) ∧
      mapOver lib pc n l d = ⟨i.file.getD d.file, i.func.getD d.func, i.line, true⟩) ∨
    ((∀ m s j, l[m]? = some s → Section.covers s pc → lib.nearest (n + m) (pc - s.vma) ≠ some j) ∧ mapOver lib pc n l d = d) := by
  induction l with
  | nil => intro n d _ _; right; simp [mapOver]
  | cons s l ih =>
    intro n d hd hl
    have hs := hl s (by simp)
    have hmod : (s.vma + s.size) % 2 ^ 64 = s.vma + s.size := Nat.mod_eq_of_lt hs
    by_cases hk : Section.covers s pc ∧ ∃ i, lib.nearest n (pc - s.vma) = some i
    · obtain ⟨hc, i, hi⟩ := hk
      left
      refine ⟨0, s, i, rfl, hc, hi, by omega, ?_⟩
      have h1 := hc.1
      have h2 := hc.2
      simp only [mapOver, findAddress, hd, Bool.false_eq_true, if_false, hmod]
      rw [if_neg (by omega), if_neg (by omega), hi]
      exact mapOver_found _ _ _ _ _ rfl
    · have hf : findAddress lib pc d n s = d := by
        unfold findAddress
        simp only [hd, Bool.false_eq_true, if_false, hmod]
        by_cases a : pc < s.vma
        · simp [a]
        · by_cases b : s.vma + s.size ≤ pc
          · simp [a, b]
          · simp only [a, b, if_false]
            cases hn : lib.nearest n (pc - s.vma) with
            | none => rfl
            | some i => exact absurd ⟨⟨by omega, by omega⟩, i, hn⟩ hk
      have h0 : ∀ j, Section.covers s pc → lib.nearest n (pc - s.vma) ≠ some j := fun j hc hj => hk ⟨hc, j, hj⟩
      simp only [mapOver, hf]
      rcases ih (n + 1) d hd (fun x hx => hl x (by simp [hx])) with ⟨k, s', i, a1, a2, a3, a4, a5⟩ | ⟨a1, a2⟩
      · left
        refine ⟨k + 1, s', i, by simpa using a1, a2, by rw [← a3]; congr 1; omega, ?_, a5⟩
        intro m hm s'' j b1 b2
        cases m with
        | zero => simp at b1; subst b1; exact h0 j b2
        | succ m =>
          have := a4 m (by omega) s'' j (by simpa using b1) b2
          rwa [show n + 1 + m = n + (m + 1) by omega] at this
      · right
        refine ⟨?_, a2⟩
        intro m s'' j b1 b2
        cases m with
        | zero => simp at b1; subst b1; exact h0 j b2
        | succ m =>
          have := a1 m s'' j (by simpa using b1) b2
          rwa [show n + 1 + m = n + (m + 1) by omega] at this

/-- `getInfo` answers with what the first section that covers the address and knows something near it says, and says no exactly if there
is no such section, as long as no section ends at the end of the memory. -/
theorem C108_get_info (lib : Lib) (low : ∀ s ∈ lib.sections, s.vma + s.size < 2 ^ 64) (pc : Nat) :
    (∃ i, Lookup lib pc i ∧ getInfo (some lib) pc = some (i.file.getD [], i.func.getD [], i.line)) ∨
    ((∀ i, ¬ Lookup lib pc i) ∧ getInfo (some lib) pc = none) := by
  unfold getInfo
  simp only
  rcases mapOver_spec lib pc lib.sections 0 ⟨[], [], 0, false⟩ rfl low with ⟨k, s, i, a1, a2, a3, a4, a5⟩ | ⟨a1, a2⟩
  · left
    refine ⟨i, ⟨k, ⟨s, a1, a2, by simpa using a3⟩, ?_⟩, by rw [a5]; rfl⟩
    rintro m hm j ⟨s', b1, b2, b3⟩
    exact a4 m hm s' j b1 b2 (by simpa using b3)
  · right
    refine ⟨?_, by rw [a2]; rfl⟩
    rintro i ⟨n, ⟨s, b1, b2, b3⟩, _⟩
    exact a1 n s i b1 b2 (by simpa using b3)

theorem lookup_unique (lib : Lib) (pc : Nat) (i j : Info) (h1 : Lookup lib pc i) (h2 : Lookup lib pc j) : i = j := by
  obtain ⟨n, a1, a2⟩ := h1
  obtain ⟨m, b1, b2⟩ := h2
  have : n = m := by
    rcases Nat.lt_trichotomy n m with h | h | h
    · exact absurd a1 (b2 n h i)
    · exact h
    · exact absurd b1 (a2 m h j)
  subst this
  obtain ⟨s, c1, _, c3⟩ := a1
  obtain ⟨s', d1, _, d3⟩ := b1
  rw [c1] at d1
  cases d1
  rw [c3] at d3
  cases d3
  rfl

/-- A section that ends at the end of the memory is never found. -/
theorem C108_finding_top_section (lib : Lib) (s : Section) (h : lib.sections = [s]) (hs : s.vma + s.size = 2 ^ 64) (pc : Nat) :
    getInfo (some lib) pc = none := by
  simp [getInfo, h, mapOver, findAddress, hs]

theorem findSub_spec (pat : Bytes) (s : Bytes) (hp : pat ≠ []) :
    (∃ p c, findSub pat s = some p ∧ p ≤ s.length ∧ s = s.take p ++ pat ++ c ∧ ∀ a' c', s = a' ++ pat ++ c' → p ≤ a'.length) ∨
    (findSub pat s = none ∧ ∀ a' c', s ≠ a' ++ pat ++ c') := by
  induction s with
  | nil =>
    right
    refine ⟨by simp [findSub, hp], ?_⟩
    intro a' c' h
    simp at h
    exact hp h.2.1
  | cons x s ih =>
    by_cases h : pat.isPrefixOf (x :: s) = true
    · left
      obtain ⟨c, hc⟩ := List.isPrefixOf_iff_prefix.1 h
      exact ⟨0, c, by simp [findSub, h], by simp, by simpa using hc.symm, by simp⟩
    · have hb : findSub pat (x :: s) = (findSub pat s).map (· + 1) := by
        show (if pat.isPrefixOf (x :: s) = true then _ else _) = _
        rw [if_neg h]
      have hno : ∀ a' c', x :: s = a' ++ pat ++ c' → ∃ a'', a' = x :: a'' ∧ s = a'' ++ pat ++ c' := by
        intro a' c' e
        cases a' with
        | nil => exact absurd (List.isPrefixOf_iff_prefix.2 ⟨c', by simpa using e.symm⟩) h
        | cons y a'' =>
          simp only [List.cons_append, List.cons.injEq] at e
          exact ⟨a'', by rw [e.1], e.2⟩
      rcases ih with ⟨p, c, a1, a0, a2, a3⟩ | ⟨a1, a2⟩
      · left
        refine ⟨p + 1, c, by rw [hb, a1]; rfl, by simpa using a0, ?_, ?_⟩
        · rw [List.take_succ_cons, List.cons_append, List.cons_append, ← a2]
        · intro a' c' e
          obtain ⟨a'', rfl, e2⟩ := hno a' c' e
          have := a3 a'' c' e2
          simpa using this
      · right
        refine ⟨by rw [hb, a1]; rfl, ?_⟩
        intro a' c' e
        obtain ⟨a'', rfl, e2⟩ := hno a' c' e
        exact a2 a'' c' e2

theorem find_spec (s : Bytes) (x : UInt8) (n : Nat) :
    (∃ b c, Verif.Exception.find s x n = some (n + b.length) ∧ s.drop n = b ++ [x] ++ c ∧ x ∉ b) ∨
    (Verif.Exception.find s x n = none ∧ x ∉ s.drop n) := by
  unfold Verif.Exception.find
  generalize s.drop n = l
  induction l with
  | nil => right; simp
  | cons y l ih =>
    by_cases h : y = x
    · left
      subst h
      exact ⟨[], l, by simp [List.findIdx?_cons], rfl, by simp⟩
    · rcases ih with ⟨b, c, a1, a2, a3⟩ | ⟨a1, a2⟩
      · left
        refine ⟨y :: b, c, ?_, by rw [a2]; rfl, by simp [a3, Ne.symm h]⟩
        rw [List.findIdx?_cons]
        cases e : List.findIdx? (fun z => z == x) l with
        | none => simp [e] at a1
        | some q =>
          rw [e] at a1
          simp at a1
          simp [h, e, a1]
      · right
        refine ⟨?_, by simp [a2, Ne.symm h]⟩
        rw [List.findIdx?_cons]
        cases e : List.findIdx? (fun z => z == x) l with
        | none => simp [h, e]
        | some q => simp [e] at a1

theorem hex_spec (mem : Bytes) (size : Nat) (h : size ≤ mem.length) :
    ∃ o, Atoi.convertHexToInt (2 ^ 64 - 1) true mem size = .ok o ∧ ∀ v, o = some v ↔ HexText (mem.take size) v := by
  rw [Verif.Atoi.convertHexToInt_spec _ (by decide) _ _ _ h]
  unfold HexText
  cases hp : parseNat 16 (2 ^ 64 - 1) (upToNul (mem.take size)) with
  | none => exact ⟨none, rfl, by simp⟩
  | some v => exact ⟨some v, rfl, by simp⟩

/-- `findAddr` finds the number in the first `[0x…]` of the text and is never undefined. -/
theorem C108_find_addr (s : Bytes) : ∃ o, findAddr s = .ok o ∧ ∀ v, o = some v ↔ FirstAddr s v := by
  unfold findAddr
  rcases findSub_spec open0x s (by decide) with ⟨p, c, a1, a0, a2, a3⟩ | ⟨a1, a2⟩
  · rw [a1]
    simp only
    have hd : s.drop (p + 3) = c := by
      conv => lhs; rw [a2]
      rw [List.append_assoc, List.drop_append]
      simp [open0x, a0]
    have first : ∀ a b c', s = a ++ [91, 48, 120] ++ b ++ [93] ++ c' →
        (∀ a' c', s = a' ++ [91, 48, 120] ++ c' → a.length ≤ a'.length) → c = b ++ [93] ++ c' := by
      intro a b c' e hm
      have h1 : p ≤ a.length := a3 a (b ++ [93] ++ c') (by simpa [open0x] using e)
      have h2 : a.length ≤ p := by
        have := hm (s.take p) c (by simpa [open0x] using a2)
        rwa [List.length_take, Nat.min_eq_left a0] at this
      have h3 : a.length = p := by omega
      rw [← hd, e, ← h3]
      simp [List.drop_append]
    rcases find_spec s 93 (p + 3) with ⟨b, c', b1, b2, b3⟩ | ⟨b1, b2⟩
    · rw [b1]
      simp only
      rw [hd] at b2
      have hmem : (s ++ [0]).drop (p + 3) = c ++ [0] := by
        have : p + 3 ≤ s.length := by
          have := congrArg List.length a2
          simp [open0x] at this
          omega
        rw [List.drop_append_of_le_length this, hd]
      rw [hmem, show p + 3 + b.length - p - 3 = b.length by omega]
      obtain ⟨o, h1, h2⟩ := hex_spec (c ++ [0]) b.length (by rw [b2]; simp)
      have ht : (c ++ [0]).take b.length = b := by rw [b2]; simp
      rw [ht] at h2
      refine ⟨o, h1, fun v => (h2 v).trans ?_⟩
      constructor
      · intro hv
        refine ⟨s.take p, b, c', ?_, ?_, b3, hv⟩
        · conv => lhs; rw [a2, b2]
          simp [open0x]
        · intro a' c'' e
          rw [List.length_take, Nat.min_eq_left a0]
          exact a3 a' c'' e
      · rintro ⟨a, b', c'', e1, e2, e3, e4⟩
        have := first a b' c'' e1 e2
        rw [b2] at this
        have hbb : b = b' := by
          have h1 := congrArg (List.takeWhile (· ≠ 93)) this
          have tw : ∀ (x y : Bytes), (93 : UInt8) ∉ x → List.takeWhile (fun z => decide (z ≠ 93)) (x ++ [93] ++ y) = x := by
            intro x y hx
            rw [List.append_assoc, List.takeWhile_append_of_pos]
            · simp
            · intro z hz
              simp only [ne_eq, decide_eq_true_eq]
              intro hz'
              subst hz'
              exact hx hz
          rw [tw b c' b3, tw b' c'' e3] at h1
          exact h1
        rw [hbb]
        exact e4
    · rw [b1]
      refine ⟨none, rfl, fun v => ⟨by simp, ?_⟩⟩
      rintro ⟨a, b, c', e1, e2, e3, e4⟩
      rw [hd, first a b c' e1 e2] at b2
      simp at b2
  · rw [a1]
    refine ⟨none, rfl, fun v => ⟨by simp, ?_⟩⟩
    rintro ⟨a, b, c', e1, _⟩
    exact absurd (by simpa [open0x] using e1) (a2 a (b ++ [93] ++ c'))

theorem firstAddr_unique (s : Bytes) (v w : Nat) (h1 : FirstAddr s v) (h2 : FirstAddr s w) : v = w := by
  obtain ⟨o, _, h⟩ := C108_find_addr s
  have a := (h v).2 h1
  have b := (h w).2 h2
  rw [a] at b
  exact Option.some.inj b

theorem note_spec (t : Tools) (ht : Proper t) (pc : Nat) :
    (∃ i, getInfo t.bfd pc = some i ∧ Note t pc (note t i) ∧ (0 : UInt8) ∉ note t i) ∨
    (getInfo t.bfd pc = none ∧ ∀ q, ¬ Note t pc q) := by
  cases hb : t.bfd with
  | none => right; refine ⟨rfl, ?_⟩; rintro q ⟨lib, i, h, _⟩; rw [hb] at h; cases h
  | some lib =>
    rcases C108_get_info lib (ht.low lib hb) pc with ⟨i, h1, h2⟩ | ⟨h1, h2⟩
    · left
      have e : Verif.Exception.demangle t.dem (i.func.getD []) = (t.dem (i.func.getD [])).getD (i.func.getD []) := by
        unfold Verif.Exception.demangle
        cases t.dem (i.func.getD []) <;> rfl
      refine ⟨_, h2, ⟨lib, i, hb, h1, by simp only [note, e]⟩, ?_⟩
      obtain ⟨n, ⟨s, _, _, hn⟩, _⟩ := h1
      have hc := ht.file lib hb _ _ _ hn
      simp only [note, e, List.mem_append, not_or]
      refine ⟨⟨⟨⟨⟨hc.1, by decide⟩, ht.dec _⟩, by decide⟩, ?_⟩, by decide⟩
      cases hd : t.dem (i.func.getD []) with
      | none => exact hc.2
      | some g => exact ht.dem _ _ hd
    · right
      refine ⟨h2, ?_⟩
      rintro q ⟨lib', i, a, b, _⟩
      rw [hb] at a
      cases a
      exact h1 i b

/-- `decode` puts a note before the line or leaves it alone. -/
theorem C108_decode (t : Tools) (ht : Proper t) (s : Bytes) :
    ∃ p, decode t s = .ok (p ++ s) ∧ LineNote t s p ∧ (0 : UInt8) ∉ p := by
  obtain ⟨o, h1, h2⟩ := C108_find_addr s
  unfold decode
  rw [h1]
  simp only [Res.ok_bind]
  cases o with
  | none =>
    refine ⟨[], rfl, .inr ⟨rfl, ?_⟩, by simp⟩
    intro v hv
    have := (h2 v).2 hv
    cases this
  | some v =>
    have hv := (h2 v).1 rfl
    simp only
    by_cases hz : v = 0
    · rw [if_pos hz]
      refine ⟨[], rfl, .inr ⟨rfl, ?_⟩, by simp⟩
      intro w hw
      rw [firstAddr_unique s w v hw hv, hz]
    · rw [if_neg hz]
      rcases note_spec t ht v with ⟨i, a1, a2, a3⟩ | ⟨a1, a2⟩
      · exact ⟨note t i, by rw [a1]; rfl, .inl ⟨v, hv, hz, .inl a2⟩, a3⟩
      · exact ⟨[], by rw [a1]; rfl, .inl ⟨v, hv, hz, .inr ⟨rfl, a2⟩⟩, by simp⟩

theorem space_blank (c : UInt8) : isSpace c = true ↔ Blank c := by
  unfold isSpace Blank
  simp only [decide_eq_true_eq, List.mem_cons, List.not_mem_nil, or_false]
  constructor
  · rintro (h | ⟨h1, h2⟩)
    · exact .inl h
    · have h1' : 9 ≤ c.toNat := h1
      have h2' : c.toNat ≤ 13 := h2
      have : c = UInt8.ofNat c.toNat := by simp
      generalize c.toNat = n at *
      subst this
      have : n = 9 ∨ n = 10 ∨ n = 11 ∨ n = 12 ∨ n = 13 := by omega
      rcases this with h | h | h | h | h <;> subst h <;> decide
  · rintro (h | h | h | h | h | h) <;> subst h <;> decide

theorem words_cur (s : Bytes) : ∀ cur : Bytes, cur ≠ [] → (∀ c ∈ cur, ¬ Blank c) →
    (∀ s', s'.length ≤ s.length → Words s' (words [] s')) → Words (cur.reverse ++ s) (words cur s) := by
  induction s with
  | nil =>
    intro cur h1 h2 _
    rw [words, if_neg h1]
    have := Words.some [] cur.reverse [] [] (by simp) (by simpa using h2) (by simpa using h1) (by simp) (.none [] (by simp))
    simpa using this
  | cons c s ih =>
    intro cur h1 h2 hs
    unfold words
    by_cases hc : isSpace c = true
    · rw [if_pos hc, if_neg h1]
      have hw := hs (c :: s) (by simp)
      have e : words [] (c :: s) = words [] s := by rw [words, if_pos hc, if_pos rfl]
      rw [e] at hw
      have := Words.some [] cur.reverse (c :: s) _ (by simp) (by simpa using h2) (by simpa using h1)
        (by intro x hx; simp at hx; subst hx; exact (space_blank _).1 hc) hw
      simpa using this
    · rw [if_neg hc]
      have := ih (c :: cur) (by simp) (by
        intro x hx
        simp only [List.mem_cons] at hx
        rcases hx with rfl | hx
        · exact fun hb => hc ((space_blank _).2 hb)
        · exact h2 x hx) (fun s' h => hs s' (by simp at h ⊢; omega))
      simpa using this

theorem words_nil (n : Nat) : ∀ s : Bytes, s.length ≤ n → Words s (words [] s) := by
  induction n with
  | zero =>
    intro s h
    have : s = [] := by simpa using h
    subst this
    exact .none [] (by simp)
  | succ n ih =>
    intro s h
    cases s with
    | nil => exact .none [] (by simp)
    | cons c s =>
      simp at h
      unfold words
      by_cases hc : isSpace c = true
      · rw [if_pos hc, if_pos rfl]
        have hb := (space_blank c).1 hc
        have hw := ih s h
        generalize words [] s = ws at hw
        cases hw with
        | none _ hh => exact .none _ (by simpa using ⟨hb, hh⟩)
        | some sp w r ws h1 h2 h3 h4 hh =>
          have := Words.some (c :: sp) w r ws (by simpa using ⟨hb, h1⟩) h2 h3 h4 hh
          simpa using this
      · rw [if_neg hc]
        have := words_cur s [c] (by simp) (by simpa using fun hb => hc ((space_blank _).2 hb))
          (fun s' h' => ih s' (by omega))
        simpa using this

theorem addrLoop_spec (t : Tools) (ht : Proper t) (ws : List Bytes) : ∃ out, addrLoop t ws = .ok out ∧ AddrLines t ws out := by
  induction ws with
  | nil => exact ⟨[], rfl, .nil⟩
  | cons w ws ih =>
    obtain ⟨rest, r1, r2⟩ := ih
    unfold addrLoop
    by_cases hp : [48, 120].isPrefixOf w = true
    · rw [if_pos hp]
      obtain ⟨b, hb⟩ := List.isPrefixOf_iff_prefix.1 hp
      subst hb
      have hm : (([48, 120] ++ b ++ [0] : Bytes)).drop 2 = b ++ [0] := rfl
      have hl : ([48, 120] ++ b : Bytes).length - 2 = b.length := by simp
      rw [hm, hl]
      obtain ⟨o, h1, h2⟩ := hex_spec (b ++ [0]) b.length (by simp)
      have htk : (b ++ [0]).take b.length = b := by simp
      rw [htk] at h2
      rw [h1, Res.ok_bind]
      cases o with
      | none =>
        refine ⟨[], rfl, .stop _ _ ?_⟩
        rintro v ⟨b', e, hv⟩
        have : b = b' := by simpa using e
        subst this
        have := (h2 v).2 hv
        cases this
      | some v =>
        have hv : IsAddr ([48, 120] ++ b) v := ⟨b, rfl, (h2 v).1 rfl⟩
        simp only
        rw [r1, Res.ok_bind]
        rcases note_spec t ht v with ⟨i, a1, a2, a3⟩ | ⟨a1, a2⟩
        · rw [a1]
          exact ⟨_, rfl, AddrLines.cons _ (note t i) rest ws v hv (.inl a2) r2⟩
        · rw [a1]
          exact ⟨_, rfl, AddrLines.cons _ [] rest ws v hv (.inr ⟨rfl, a2⟩) r2⟩
    · rw [if_neg hp]
      refine ⟨[], rfl, .stop _ _ ?_⟩
      rintro v ⟨b, e, _⟩
      exact hp (List.isPrefixOf_iff_prefix.2 ⟨b, e.symm⟩)

theorem begin_nl : beginTrace ++ [10] = "<<<STACKTRACE\n".toUTF8.toList := by decide +kernel
theorem end_nl : endTrace ++ [10] = ">>>STACKTRACE\n".toUTF8.toList := by decide +kernel

/-- A trace on one line becomes a block with one line for each address, up to the first word that is no address. -/
theorem C108_oneline (t : Tools) (ht : Proper t) (s : Bytes) :
    (isOneline s ∧ ∃ out, tryOneline t s = .ok (some out) ∧ OnelineOut t s out) ∨ (¬ isOneline s ∧ tryOneline t s = .ok none) := by
  unfold tryOneline
  by_cases h : oneline.isPrefixOf s = true
  · left
    obtain ⟨rest, hr⟩ := List.isPrefixOf_iff_prefix.1 h
    refine ⟨⟨rest, hr⟩, ?_⟩
    rw [if_pos h]
    have hd : s.drop oneline.length = rest := by rw [← hr]; simp
    rw [hd]
    obtain ⟨body, b1, b2⟩ := addrLoop_spec t ht (words [] rest)
    rw [b1, Res.ok_bind]
    refine ⟨_, rfl, rest, _, body, hr.symm, words_nil _ rest (Nat.le_refl _), b2, ?_⟩
    rw [← begin_nl, ← end_nl]
    simp
  · right
    rw [if_neg h]
    exact ⟨fun h' => h (List.isPrefixOf_iff_prefix.2 h'), rfl⟩

theorem strip_spec (s : Bytes) : Stripped s (strip s) := by
  unfold strip
  refine ⟨(s.reverse.takeWhile fun c => c = 10 ∨ c = 13).reverse, ?_, ?_, ?_⟩
  · rw [← List.reverse_append, List.takeWhile_append_dropWhile, List.reverse_reverse]
  · intro c hc
    rw [List.mem_reverse] at hc
    have := List.all_eq_true.1 (List.all_takeWhile (p := fun c : UInt8 => decide (c = 10 ∨ c = 13)) (l := s.reverse)) c hc
    simpa using this
  · intro c hc
    rw [List.getLast?_reverse] at hc
    have := List.head?_dropWhile_not (fun c : UInt8 => decide (c = 10 ∨ c = 13)) s.reverse
    rw [hc] at this
    simpa using this

/-- `inStackTrace` after a line that is no trace on one line, when not all is checked. -/
def next (b : Bool) (s : Bytes) : Bool := if oneline.isPrefixOf s then b else (trace false b s).2

/-- `inStackTrace` before line `i`. -/
def before (ss : List Bytes) (i : Nat) : Bool := (ss.take i).foldl next false

theorem closes_not_oneline (s : Bytes) (h : Closes s) : ¬ isOneline s := by
  rintro ⟨r, hr⟩
  obtain ⟨q, hq⟩ := h
  have e1 : "<<<STACKTRACE>>> ".toUTF8.toList = 60 :: ("<<<STACKTRACE>>> ".toUTF8.toList).tail := by decide +kernel
  have e2 : ">>>STACKTRACE".toUTF8.toList = 62 :: (">>>STACKTRACE".toUTF8.toList).tail := by decide +kernel
  rw [e1] at hr
  rw [e2] at hq
  rw [← hr] at hq
  simp at hq

theorem closes_not_opens (s : Bytes) (h : Closes s) : ¬ beginTrace <+: s := by
  rintro ⟨r, hr⟩
  obtain ⟨q, hq⟩ := h
  have e1 : beginTrace = 60 :: beginTrace.tail := by decide +kernel
  have e2 : ">>>STACKTRACE".toUTF8.toList = 62 :: (">>>STACKTRACE".toUTF8.toList).tail := by decide +kernel
  rw [e1] at hr
  rw [e2] at hq
  rw [← hr] at hq
  simp at hq

theorem next_iff (b : Bool) (s : Bytes) : next b s = true ↔ Opens s ∨ (b = true ∧ ¬ Closes s) := by
  unfold next
  by_cases h : oneline.isPrefixOf s = true
  · have ho : isOneline s := List.isPrefixOf_iff_prefix.1 h
    rw [if_pos h]
    constructor
    · intro hb; exact .inr ⟨hb, fun hc => closes_not_oneline s hc ho⟩
    · rintro (⟨_, hn⟩ | ⟨hb, _⟩)
      · exact absurd ho hn
      · exact hb
  · have ho : ¬ isOneline s := fun h' => h (List.isPrefixOf_iff_prefix.2 h')
    rw [if_neg h]
    unfold trace
    simp only [Bool.false_eq_true, if_false]
    by_cases he : endTrace.isPrefixOf s = true
    · have hc : Closes s := List.isPrefixOf_iff_prefix.1 he
      have hb := closes_not_opens s hc
      have hb' : ¬ beginTrace.isPrefixOf s = true := fun h' => hb (List.isPrefixOf_iff_prefix.1 h')
      have : ¬ Opens s := fun h' => hb h'.1
      cases b <;> simp [he, hb', this, hc]
    · have hc : ¬ Closes s := fun h' => he (List.isPrefixOf_iff_prefix.2 h')
      by_cases hb : beginTrace.isPrefixOf s = true
      · have : Opens s := ⟨List.isPrefixOf_iff_prefix.1 hb, ho⟩
        cases b <;> simp [he, hb, this, hc]
      · have : ¬ Opens s := fun h' => hb (List.isPrefixOf_iff_prefix.2 h'.1)
        cases b <;> simp [he, hb, this, hc]

theorem before_iff (ss : List Bytes) (i : Nat) (hi : i ≤ ss.length) : before ss i = true ↔
    ∃ j < i, (∃ l, ss[j]? = some l ∧ Opens l) ∧ ∀ k, j < k → k < i → ∀ l, ss[k]? = some l → ¬ Closes l := by
  induction i with
  | zero => simp [before]
  | succ i ih =>
    have hlt : i < ss.length := hi
    have ih := ih (by omega)
    have e : before ss (i + 1) = next (before ss i) ss[i] := by
      unfold before
      rw [List.take_succ_eq_append_getElem hlt, List.foldl_append]
      rfl
    rw [e, next_iff]
    constructor
    · rintro (ho | ⟨hb, hc⟩)
      · exact ⟨i, by omega, ⟨_, by simp [hlt], ho⟩, by intro k a b; omega⟩
      · obtain ⟨j, j1, j2, j3⟩ := ih.1 hb
        refine ⟨j, by omega, j2, ?_⟩
        intro k k1 k2 l hl
        by_cases hk : k = i
        · subst hk
          rw [List.getElem?_eq_getElem hlt] at hl
          cases hl
          exact hc
        · exact j3 k k1 (by omega) l hl
    · rintro ⟨j, j1, j2, j3⟩
      by_cases hj : j = i
      · subst hj
        obtain ⟨l, l1, l2⟩ := j2
        rw [List.getElem?_eq_getElem hlt] at l1
        cases l1
        exact .inl l2
      · right
        refine ⟨ih.2 ⟨j, by omega, j2, fun k k1 k2 => j3 k k1 (by omega)⟩, ?_⟩
        exact j3 i (by omega) (by omega) _ (by simp [hlt])

theorem inside_iff (ss : List Bytes) (i : Nat) (hi : i < ss.length) : Inside ss i ↔ before ss i = true ∧ ¬ Closes ss[i] := by
  rw [before_iff ss i (by omega)]
  unfold Inside
  constructor
  · rintro ⟨j, j1, j2, j3⟩
    exact ⟨⟨j, j1, j2, fun k a b => j3 k a (by omega)⟩, j3 i j1 (Nat.le_refl _) _ (by simp [hi])⟩
  · rintro ⟨⟨j, j1, j2, j3⟩, hc⟩
    refine ⟨j, j1, j2, ?_⟩
    intro k a b l hl
    by_cases hk : k = i
    · subst hk
      rw [List.getElem?_eq_getElem hi] at hl
      cases hl
      exact hc
    · exact j3 k a (by omega) l hl

theorem cstr_append (p s : Bytes) (h : (0 : UInt8) ∉ p) : cstr (p ++ s) = p ++ upToNul s := by
  unfold cstr upToNul
  rw [List.takeWhile_append_of_pos]
  intro x hx
  simp only [ne_eq, decide_eq_true_eq]
  intro e
  subst e
  exact h hx

theorem step_spec (t : Tools) (ht : Proper t) (check b : Bool) (raw : Bytes) :
    ∃ out, step t check b raw = .ok (out, if check then b else next b (strip raw)) ∧
      (isOneline (strip raw) → OnelineOut t (strip raw) out) ∧
      (¬ isOneline (strip raw) → LineOut t (check = true ∨ (b = true ∧ ¬ Closes (strip raw))) (strip raw) out) := by
  unfold step
  simp only
  generalize strip raw = s
  rcases C108_oneline t ht s with ⟨h1, out, h2, h3⟩ | ⟨h1, h2⟩
  · rw [h2, Res.ok_bind]
    have hp : oneline.isPrefixOf s = true := List.isPrefixOf_iff_prefix.2 h1
    refine ⟨out, ?_, fun _ => h3, fun h => absurd h1 h⟩
    cases check <;> simp [next, hp]
  · rw [h2, Res.ok_bind]
    have hp : ¬ oneline.isPrefixOf s = true := fun h => h1 (List.isPrefixOf_iff_prefix.1 h)
    have hn : (if check then b else next b s) = (trace check b s).2 := by
      cases check
      · simp [next, hp]
      · simp [trace]
    rw [hn]
    have hd : (trace check b s).1 = true ↔ (check = true ∨ (b = true ∧ ¬ Closes s)) := by
      unfold trace
      by_cases he : endTrace.isPrefixOf s = true
      · have hc : Closes s := List.isPrefixOf_iff_prefix.1 he
        cases check <;> cases b <;> simp [he, hc] <;> split <;> rfl
      · have hc : ¬ Closes s := fun h' => he (List.isPrefixOf_iff_prefix.2 h')
        cases check <;> cases b <;> simp [he, hc] <;> split <;> rfl
    simp only
    by_cases hb : (trace check b s).1 = true
    · rw [if_pos hb]
      obtain ⟨p, p1, p2, p3⟩ := C108_decode t ht s
      rw [p1, Res.ok_bind]
      exact ⟨_, rfl, fun h => absurd h h1, fun _ => ⟨p, by rw [cstr_append p s p3], fun _ => p2, fun h => absurd (hd.1 hb) h⟩⟩
    · rw [if_neg hb]
      exact ⟨_, rfl, fun h => absurd h h1, fun _ => ⟨[], rfl, fun h => absurd (hd.2 h) hb, fun _ => rfl⟩⟩

theorem filter_spec (t : Tools) (ht : Proper t) (check : Bool) (ls : List Bytes) : ∀ b, ∃ outs, filter t check b ls = .ok outs ∧
    outs.length = ls.length ∧ ∀ i raw out, ls[i]? = some raw → outs[i]? = some out →
      (isOneline (strip raw) → OnelineOut t (strip raw) out) ∧
      (¬ isOneline (strip raw) →
        LineOut t (check = true ∨ (((ls.map strip).take i).foldl next b = true ∧ ¬ Closes (strip raw))) (strip raw) out) := by
  induction ls with
  | nil => intro b; exact ⟨[], rfl, rfl, by simp⟩
  | cons raw ls ih =>
    intro b
    obtain ⟨out, h1, h2, h3⟩ := step_spec t ht check b raw
    obtain ⟨outs, g1, g2, g3⟩ := ih (if check then b else next b (strip raw))
    refine ⟨out :: outs, by unfold filter; rw [h1, Res.ok_bind, g1]; rfl, by simp [g2], ?_⟩
    intro i raw' out' e1 e2
    cases i with
    | zero =>
      simp at e1 e2
      subst e1; subst e2
      simpa using ⟨h2, h3⟩
    | succ i =>
      simp at e1 e2
      have := g3 i raw' out' e1 e2
      refine ⟨this.1, fun hn => ?_⟩
      have h := this.2 hn
      cases check with
      | true => simpa [LineOut] using h
      | false => simpa using h

/-- The filter never fails, and prints for each line in turn: for a trace on one line the block, for any other line the line without the
line ends and up to a NUL, after a note about its first address exactly if all is checked or the line is inside a trace. -/
theorem C108_filter (t : Tools) (ht : Proper t) (check : Bool) (ls : List Bytes) :
    ∃ ss outs, filter t check false ls = .ok outs ∧ ss.length = ls.length ∧ outs.length = ls.length ∧
      ∀ i raw s out, ls[i]? = some raw → ss[i]? = some s → outs[i]? = some out → Stripped raw s ∧
        (isOneline s → OnelineOut t s out) ∧ (¬ isOneline s → LineOut t (check = true ∨ Inside ss i) s out) := by
  obtain ⟨outs, h1, h2, h3⟩ := filter_spec t ht check ls false
  refine ⟨ls.map strip, outs, h1, by simp, h2, ?_⟩
  intro i raw s out e1 e2 e3
  have es : s = strip raw := by simp [e1] at e2; exact e2.symm
  have hi : i < (ls.map strip).length := by
    have := (List.getElem?_eq_some_iff.1 e2).1
    exact this
  subst es
  refine ⟨strip_spec raw, (h3 i raw out e1 e3).1, fun hn => ?_⟩
  have h := (h3 i raw out e1 e3).2 hn
  have hg : (ls.map strip)[i] = strip raw := (List.getElem?_eq_some_iff.1 e2).2
  have : (check = true ∨ (((ls.map strip).take i).foldl next false = true ∧ ¬ Closes (strip raw))) ↔
      (check = true ∨ Inside (ls.map strip) i) := by
    rw [inside_iff _ i hi, hg]
    rfl
  obtain ⟨p, p1, p2, p3⟩ := h
  exact ⟨p, p1, fun hd => p2 (this.2 hd), fun hd => p3 (fun hd' => hd (this.1 hd'))⟩

theorem getLines_spec (s : Bytes) : ∀ cur : Bytes, (10 : UInt8) ∉ cur → LinesOf (cur.reverse ++ s) (getLines cur s) := by
  induction s with
  | nil =>
    intro cur h
    unfold getLines
    by_cases hc : cur = []
    · rw [if_pos hc, hc]
      exact ⟨by simp, .inl (by simp)⟩
    · rw [if_neg hc]
      exact ⟨by simpa using h, .inr ⟨by simp, cur.reverse, by simp, by simpa using hc⟩⟩
  | cons c s ih =>
    intro cur h
    unfold getLines
    by_cases hc : c = 10
    · rw [if_pos hc]
      subst hc
      obtain ⟨a, b⟩ := ih [] (by simp)
      refine ⟨by intro l hl; simp only [List.mem_cons] at hl; rcases hl with rfl | hl; exact (by simpa using h); exact a l hl, ?_⟩
      simp only [List.reverse_nil, List.nil_append] at b
      rcases b with b | ⟨b, l, l1, l2⟩
      · left; simp [b]
      · right
        refine ⟨by simp [b], l, ?_, l2⟩
        rw [List.getLast?_cons, l1]
        rfl
    · rw [if_neg hc]
      have := ih (c :: cur) (by simp [h, Ne.symm hc])
      simpa using this

/-- `main` reads all lines of the text, and its output is what the filter prints for them. -/
theorem C108_run (t : Tools) (ht : Proper t) (check : Bool) (input : Bytes) :
    ∃ ls outs, LinesOf input ls ∧ filter t check false ls = .ok outs ∧ run t check input = .ok outs.flatten := by
  obtain ⟨_, outs, h, _⟩ := C108_filter t ht check (getLines [] input)
  refine ⟨getLines [] input, outs, by simpa using getLines_spec input [] (by simp), h, ?_⟩
  unfold run
  rw [h]
  rfl

theorem words_blank (sp s : Bytes) (h : ∀ c ∈ sp, Blank c) : words [] (sp ++ s) = words [] s := by
  induction sp with
  | nil => rfl
  | cons c sp ih =>
    have hc := (space_blank c).2 (h c (by simp))
    rw [List.cons_append, words, if_pos hc, if_pos rfl, ih (fun x hx => h x (by simp [hx]))]

theorem words_word (w s : Bytes) : ∀ cur, (∀ c ∈ w, ¬ Blank c) → words cur (w ++ s) = words (w.reverse ++ cur) s := by
  induction w with
  | nil => intro cur _; rfl
  | cons c w ih =>
    intro cur h
    have hc : ¬ isSpace c = true := fun h' => h c (by simp) ((space_blank c).1 h')
    rw [List.cons_append, words, if_neg hc, ih _ (fun x hx => h x (by simp [hx]))]
    simp

theorem words_end (cur r : Bytes) (hc : cur ≠ []) (h : ∀ c, r.head? = some c → Blank c) :
    words cur r = cur.reverse :: words [] r := by
  cases r with
  | nil => simp [words, hc]
  | cons c r =>
    have hs := (space_blank c).2 (h c rfl)
    rw [words, if_pos hs, if_neg hc, words, if_pos hs, if_pos rfl]

theorem words_unique (s : Bytes) (ws : List Bytes) (h : Words s ws) : words [] s = ws := by
  induction h with
  | none s h =>
    have := words_blank s [] h
    simpa [words] using this
  | some sp w r ws h1 h2 h3 h4 _ ih =>
    rw [List.append_assoc, words_blank _ _ h1, words_word _ _ _ h2, List.append_nil, words_end _ _ (by simpa using h3) h4, ih]
    simp

/-- The words of a text are determined by it. -/
theorem words_det (s : Bytes) (ws ws' : List Bytes) (h : Words s ws) (h' : Words s ws') : ws = ws' := by
  rw [← words_unique s ws h, ← words_unique s ws' h']

theorem words_join (l : List Bytes) (h : ∀ w ∈ l, w ≠ [] ∧ ∀ c ∈ w, ¬ Blank c) : Words (Verif.Exception.joinLoop 32 l) l := by
  induction l with
  | nil => exact .none [] (by simp)
  | cons w l ih =>
    have hw := h w (by simp)
    have hl := ih (fun x hx => h x (by simp [hx]))
    cases l with
    | nil =>
      have := Words.some [] w [] [] (by simp) hw.2 hw.1 (by simp) (.none [] (by simp))
      simpa [Verif.Exception.joinLoop] using this
    | cons w' l =>
      have hb : Words ([32] ++ Verif.Exception.joinLoop 32 (w' :: l)) (w' :: l) := by
        have e := words_blank [32] (Verif.Exception.joinLoop 32 (w' :: l)) (by simp [Blank])
        have := words_nil _ ([32] ++ Verif.Exception.joinLoop 32 (w' :: l)) (Nat.le_refl _)
        rw [e, words_unique _ _ hl] at this
        exact this
      have := Words.some [] w _ _ (by simp) hw.2 hw.1 (by simp [Blank]) hb
      simpa [Verif.Exception.joinLoop] using this

theorem valFrom_digits (s : Bytes) : ∀ (x v : Nat), Verif.Atoi.valFrom 16 x s = some v → ∀ c ∈ s, (digit? c).isSome = true := by
  induction s with
  | nil => simp
  | cons c s ih =>
    intro x v h
    unfold Verif.Atoi.valFrom at h
    cases hd : digit? c with
    | none => rw [hd] at h; cases h
    | some d =>
      rw [hd] at h
      simp only at h
      split at h
      · intro y hy
        simp only [List.mem_cons] at hy
        rcases hy with rfl | hy
        · simp [hd]
        · exact ih _ _ h y hy
      · cases h

theorem digit_plain (c : UInt8) (h : (digit? c).isSome = true) : c ≠ 0 ∧ c ≠ 93 ∧ ¬ Blank c := by
  refine ⟨?_, ?_, ?_⟩
  · rintro rfl; revert h; decide
  · rintro rfl; revert h; decide
  · intro hb
    simp only [Blank, List.mem_cons, List.not_mem_nil, or_false] at hb
    rcases hb with rfl | rfl | rfl | rfl | rfl | rfl <;> (revert h; decide)

theorem upToNul_plain (s : Bytes) (h : (0 : UInt8) ∉ s) : upToNul s = s := by
  have := cstr_append s [] h
  unfold cstr at this
  simpa [upToNul] using this

theorem hex_facts (fmtX : Nat → Bytes) (hx : Verif.Spec.Exception.WritesHex fmtX) (a : Nat) (ha : a < 2 ^ 64) :
    HexText (fmtX a) a ∧ ∀ c ∈ fmtX a, c ≠ 0 ∧ c ≠ 93 ∧ ¬ Blank c := by
  obtain ⟨h1, h2, _⟩ := hx a
  have hd : ∀ c ∈ fmtX a, c ≠ 0 ∧ c ≠ 93 ∧ ¬ Blank c := by
    rw [Verif.Atoi.value_eq_valFrom] at h2
    exact fun c hc => digit_plain c (valFrom_digits _ _ _ h2 c hc)
  refine ⟨?_, hd⟩
  unfold HexText
  rw [upToNul_plain _ (fun h0 => (hd 0 h0).1 rfl), parseNat, if_neg h1, h2]
  simp only
  rw [if_pos (by omega)]

/-- The line of an address in a trace of several lines has this address as its first. -/
theorem C108_bracket (fmtX : Nat → Bytes) (hx : Verif.Spec.Exception.WritesHex fmtX) (a : Nat) (ha : a < 2 ^ 64) :
    FirstAddr (Verif.Exception.addrToHex fmtX false a) a := by
  obtain ⟨h1, h2⟩ := hex_facts fmtX hx a ha
  refine ⟨[], fmtX a, [], by simp [Verif.Exception.addrToHex], by simp, fun h => (h2 93 h).2.1 rfl, h1⟩

theorem addrLines_all (t : Tools) (fmtX : Nat → Bytes) (hx : Verif.Spec.Exception.WritesHex fmtX) (data : List Nat) :
    ∀ body, (∀ a ∈ data, a < 2 ^ 64) → AddrLines t (data.map (Verif.Exception.addrToHex fmtX true)) body →
    ∃ ps : List Bytes, ps.length = data.length ∧
      body = (List.zipWith (fun p a => p ++ [48, 120] ++ fmtX a ++ [10]) ps data).flatten ∧
      ∀ (i : Nat) p a, ps[i]? = some p → data[i]? = some a → NoteOrNot t a p := by
  induction data with
  | nil => intro body _ h; cases h; exact ⟨[], rfl, rfl, by simp⟩
  | cons a data ih =>
    intro body ha h
    obtain ⟨h1, h2⟩ := hex_facts fmtX hx a (ha a (by simp))
    rw [List.map_cons] at h
    have he : Verif.Exception.addrToHex fmtX true a = [48, 120] ++ fmtX a := rfl
    rw [he] at h
    cases h with
    | stop _ _ hn => exact absurd ⟨_, rfl, h1⟩ (hn a)
    | cons _ p out _ v hv hp hr =>
      obtain ⟨ps, p1, p2, p3⟩ := ih out (fun x hx' => ha x (by simp [hx'])) hr
      have hva : v = a := by
        obtain ⟨b, e, hb⟩ := hv
        have : fmtX a = b := by simpa using e
        subst this
        unfold HexText at h1 hb
        rw [h1] at hb
        exact (Option.some.inj hb).symm
      subst hva
      refine ⟨p :: ps, by simp [p1], ?_, ?_⟩
      · have : (0 : UInt8) ∉ [48, 120] ++ fmtX v := by
          simp only [List.mem_append, not_or]
          exact ⟨by decide, fun h0 => (h2 0 h0).1 rfl⟩
        rw [upToNul_plain _ this, p2]
        simp
      · intro i q b e1 e2
        cases i with
        | zero => simp at e1 e2; subst e1; subst e2; exact hp
        | succ i => exact p3 i q b (by simpa using e1) (by simpa using e2)

theorem getLines_append (a b : Bytes) : ∀ cur, getLines cur (a ++ 10 :: b) = getLines cur (a ++ [10]) ++ getLines [] b := by
  induction a with
  | nil => intro cur; simp [getLines]
  | cons c a ih =>
    intro cur
    simp only [List.cons_append, getLines]
    split
    · rw [ih]; rfl
    · rw [ih]

theorem getLines_line (a : Bytes) : ∀ cur, (10 : UInt8) ∉ a → getLines cur (a ++ [10]) = [cur.reverse ++ a] := by
  induction a with
  | nil => intro cur _; simp [getLines]
  | cons c a ih =>
    intro cur h
    simp only [List.mem_cons, not_or] at h
    simp only [List.cons_append, getLines]
    rw [if_neg (Ne.symm h.1), ih _ h.2]
    simp

theorem joinLoop_mem (l : List Bytes) (x : UInt8) (h : x ∈ Verif.Exception.joinLoop 32 l) : x = 32 ∨ ∃ w ∈ l, x ∈ w := by
  induction l with
  | nil => cases h
  | cons w l ih =>
    cases l with
    | nil => exact .inr ⟨w, by simp, by simpa [Verif.Exception.joinLoop] using h⟩
    | cons w' l =>
      simp only [Verif.Exception.joinLoop, List.mem_append, List.mem_cons, List.not_mem_nil, or_false] at h
      rcases h with (h | h) | h
      · exact .inr ⟨w, by simp, h⟩
      · exact .inl h
      · rcases ih h with h | ⟨v, v1, v2⟩
        · exact .inl h
        · exact .inr ⟨v, List.mem_cons_of_mem _ v1, v2⟩

/-- The trace of an exception that a program wrote to its log, anywhere in it, comes out as a block with a line for every address of the
stack, each after the note for it. -/
theorem C108_exception (t : Tools) (ht : Proper t) (check : Bool) (fmtX : Nat → Bytes) (hx : Verif.Spec.Exception.WritesHex fmtX)
    (dem : Bytes → Option Bytes) (data : List Nat) (hd : data ≠ []) (ha : ∀ a ∈ data, a < 2 ^ 64) (name pre post : Bytes)
    (hn : (0 : UInt8) ∉ name) :
    ∃ tr u w, ∃ ps : List Bytes, Verif.Exception.traceStr fmtX dem false none data = .ok tr ∧ ps.length = data.length ∧
      run t check (pre ++ ((Verif.Exception.Exc.new name true tr).what true 2).1 ++ [10] ++ post) =
        .ok (u ++ ("<<<STACKTRACE\n".toUTF8.toList ++
          (List.zipWith (fun p a => p ++ [48, 120] ++ fmtX a ++ [10]) ps data).flatten ++ ">>>STACKTRACE\n".toUTF8.toList) ++ w) ∧
      ∀ (i : Nat) p a, ps[i]? = some p → data[i]? = some a → NoteOrNot t a p := by
  have hdig : ∀ w ∈ data.map (Verif.Exception.addrToHex fmtX true), w ≠ [] ∧ ∀ c ∈ w, c ≠ 0 ∧ ¬ Blank c := by
    intro w hw
    obtain ⟨a, a1, rfl⟩ := List.mem_map.1 hw
    obtain ⟨_, h2⟩ := hex_facts fmtX hx a (ha a a1)
    refine ⟨by simp [Verif.Exception.addrToHex], ?_⟩
    intro c hc
    simp only [Verif.Exception.addrToHex, if_true, List.cons_append, List.nil_append, List.mem_cons] at hc
    rcases hc with rfl | rfl | hc
    · exact ⟨by decide, by unfold Blank; decide⟩
    · exact ⟨by decide, by unfold Blank; decide⟩
    · exact ⟨(h2 c hc).1, (h2 c hc).2.2⟩
  have htr : Verif.Exception.traceStr fmtX dem false none data =
      .ok (Verif.Exception.joinLoop 32 (data.map (Verif.Exception.addrToHex fmtX true))) := by
    simp [Verif.Exception.traceStr, hd]
  have hwords := words_join _ (fun w hw => ⟨(hdig w hw).1, fun c hc => ((hdig w hw).2 c hc).2⟩)
  have hchars : ∀ c ∈ Verif.Exception.joinLoop 32 (data.map (Verif.Exception.addrToHex fmtX true)), c ≠ 0 ∧ c ≠ 10 ∧ c ≠ 13 := by
    intro c hc
    rcases joinLoop_mem _ _ hc with rfl | ⟨w, w1, w2⟩
    · decide
    · have := (hdig w w1).2 c w2
      refine ⟨this.1, ?_, ?_⟩
      · rintro rfl; exact this.2 (by simp [Blank])
      · rintro rfl; exact this.2 (by simp [Blank])
  have hne : Verif.Exception.joinLoop 32 (data.map (Verif.Exception.addrToHex fmtX true)) ≠ [] := by
    cases data with
    | nil => exact absurd rfl hd
    | cons a l => cases l <;> simp [Verif.Exception.joinLoop, Verif.Exception.addrToHex]
  refine ⟨Verif.Exception.joinLoop 32 (data.map (Verif.Exception.addrToHex fmtX true)), ?_⟩
  generalize Verif.Exception.joinLoop 32 (data.map (Verif.Exception.addrToHex fmtX true)) = tr at *
  have hone : "\n<<<STACKTRACE>>> ".toUTF8.toList = 10 :: oneline := by decide +kernel
  have hplain : ∀ c ∈ oneline, c ≠ 0 ∧ c ≠ 10 ∧ c ≠ 13 := by decide +kernel
  have hL : ∀ c ∈ oneline ++ tr, c ≠ 0 ∧ c ≠ 10 ∧ c ≠ 13 := by
    intro c hc
    rcases List.mem_append.1 hc with h | h
    · exact hplain c h
    · exact hchars c h
  have hwhat : ((Verif.Exception.Exc.new name true tr).what true 2).1 = name ++ 10 :: (oneline ++ tr) := by
    simp only [Verif.Exception.Exc.what, Verif.Exception.Exc.toStr, Verif.Exception.Exc.new, if_true, ne_eq, hne, not_false_eq_true,
      Verif.Exception.pieces, hone]
    have : name ++ (List.take 2 [10 :: oneline, tr]).flatten = (name ++ 10 :: (oneline ++ tr)) ++ [] := by simp
    rw [this, cstr_append]
    · simp [upToNul]
    · simp only [List.mem_append, List.mem_cons, not_or]
      exact ⟨hn, by decide, fun h => (hplain 0 h).1 rfl, fun h => (hchars 0 h).1 rfl⟩
  rw [hwhat]
  have hin : getLines [] (pre ++ (name ++ 10 :: (oneline ++ tr)) ++ [10] ++ post) =
      getLines [] (pre ++ name ++ [10]) ++ (oneline ++ tr) :: getLines [] post := by
    have : pre ++ (name ++ 10 :: (oneline ++ tr)) ++ [10] ++ post = (pre ++ name) ++ 10 :: ((oneline ++ tr) ++ 10 :: post) := by simp
    rw [this, getLines_append, getLines_append (oneline ++ tr), getLines_line _ _ (fun h => (hL 10 h).2.1 rfl)]
    simp
  obtain ⟨ss, outs, f1, f2, f3, f4⟩ := C108_filter t ht check
    (getLines [] (pre ++ (name ++ 10 :: (oneline ++ tr)) ++ [10] ++ post))
  generalize hX : getLines [] (pre ++ name ++ [10]) = X at *
  have hi1 : X.length < (getLines [] (pre ++ (name ++ 10 :: (oneline ++ tr)) ++ [10] ++ post)).length := by
    rw [hin]; simp
  have hraw : (getLines [] (pre ++ (name ++ 10 :: (oneline ++ tr)) ++ [10] ++ post))[X.length]? = some (oneline ++ tr) := by
    rw [hin]; simp
  have hs : ss[X.length]? = some ss[X.length] := by simp
  have ho : outs[X.length]? = some outs[X.length] := by simp
  obtain ⟨g1, g2, _⟩ := f4 X.length _ _ _ hraw hs ho
  have hst : ss[X.length] = oneline ++ tr := by
    obtain ⟨e, e1, e2, _⟩ := g1
    cases e with
    | nil => simpa using e1.symm
    | cons c e =>
      have hc := hL c (by rw [e1]; simp)
      rcases e2 c (by simp) with h | h
      · exact absurd h hc.2.1
      · exact absurd h hc.2.2
  rw [hst] at g2
  obtain ⟨rest, ws, body, r1, r2, r3, r4⟩ := g2 ⟨tr, rfl⟩
  have hrest : rest = tr := by
    have : oneline ++ tr = oneline ++ rest := r1
    exact (List.append_cancel_left this).symm
  subst hrest
  rw [words_det _ _ _ r2 hwords] at r3
  obtain ⟨ps, p1, p2, p3⟩ := addrLines_all t fmtX hx data body ha r3
  refine ⟨(outs.take X.length).flatten, (outs.drop (X.length + 1)).flatten, ps, htr, p1, ?_, p3⟩
  unfold run
  rw [f1, Res.ok_bind]
  have hsplit : outs = outs.take X.length ++ outs[X.length] :: outs.drop (X.length + 1) := by simp
  show Res.ok outs.flatten = _
  rw [← p2, ← r4]
  have hf := congrArg List.flatten hsplit
  rw [List.flatten_append, List.flatten_cons] at hf
  rw [List.append_assoc]
  exact congrArg Res.ok hf

/-- After a word that is no address the rest of a trace on one line is lost. -/
theorem C108_finding_rest_lost (t : Tools) (w s : Bytes) (hw : ∀ c ∈ w, ¬ Blank c) (hne : w ≠ []) (h : ¬ [48, 120] <+: w) :
    tryOneline t (oneline ++ w ++ [32] ++ s) = .ok (some (beginTrace ++ [10] ++ endTrace ++ [10])) := by
  unfold tryOneline
  have hp : oneline.isPrefixOf (oneline ++ w ++ [32] ++ s) = true :=
    List.isPrefixOf_iff_prefix.2 ⟨w ++ [32] ++ s, by simp⟩
  rw [if_pos hp]
  have hd : (oneline ++ w ++ [32] ++ s).drop oneline.length = w ++ ([32] ++ s) := by simp
  rw [hd, words_word _ _ _ hw, words_end _ _ (by simpa using hne) (by simp [Blank])]
  simp only [List.append_nil, List.reverse_reverse, addrLoop]
  rw [if_neg (fun h' => h (List.isPrefixOf_iff_prefix.1 h'))]
  simp

/-- A line is cut at a NUL. -/
theorem C108_finding_nul (t : Tools) (a b : Bytes) (ha : (0 : UInt8) ∉ a) (h1 : ¬ isOneline (strip (a ++ 0 :: b))) :
    ∃ st, step t false false (a ++ 0 :: b) = .ok (a ++ [10], st) := by
  have hs : strip (a ++ 0 :: b) = a ++ 0 :: strip b := by
    unfold strip
    have e : (a ++ 0 :: b).reverse = b.reverse ++ (0 :: a.reverse) := by simp
    rw [e, List.dropWhile_append]
    split
    · next h =>
      rw [List.isEmpty_iff] at h
      rw [h, List.dropWhile_cons_of_neg (by decide)]
      simp
    · simp
  rw [hs] at h1
  unfold step
  simp only
  rw [hs]
  have hp : ¬ oneline.isPrefixOf (a ++ 0 :: strip b) = true := fun h => h1 (List.isPrefixOf_iff_prefix.1 h)
  unfold tryOneline
  rw [if_neg hp]
  simp only [Res.pure_eq, Res.ok_bind]
  have hc : cstr (a ++ 0 :: strip b) = a := by rw [cstr_append a _ ha]; simp [upToNul]
  have ht : (trace false false (a ++ 0 :: strip b)).1 = false := by
    unfold trace
    simp only [Bool.false_eq_true, if_false]
    split <;> rfl
  rw [ht, hc]
  exact ⟨_, rfl⟩

/-- A file with two sections that overlap; the second knows more. -/
def exLib : Lib :=
  ⟨[⟨0x1000, 0x100⟩, ⟨0x1080, 0x100⟩],
    fun n o => if n = 1 ∧ o = 0x10 then some ⟨some "a.cpp".toUTF8.toList, some "f".toUTF8.toList, 7⟩ else none⟩
def exTools : Tools := ⟨some exLib, fun _ => none, fun n => if n = 7 then [55] else [63]⟩

theorem exTools_proper : Proper exTools := by
  refine ⟨?_, ?_, (by intro f g h; cases h), ?_⟩
  · intro lib h; cases h; decide
  · intro lib h n o i hi
    cases h
    simp only [exLib] at hi
    split at hi
    · cases hi; decide +kernel
    · cases hi
  · intro n
    simp only [exTools]
    split <;> decide

example : getInfo (some exLib) 0x1090 = some ("a.cpp".toUTF8.toList, "f".toUTF8.toList, 7) := by decide +kernel
example : run exTools false "x [0x1090]\n<<<STACKTRACE\n [0x1090] y\n>>>STACKTRACE\n[0x1090]\n<<<STACKTRACE>>> 0x1090 0x1 z 0x1090".toUTF8.toList =
    .ok ("x [0x1090]\n<<<STACKTRACE\na.cpp:7 f  [0x1090] y\n>>>STACKTRACE\n[0x1090]\n" ++
      "<<<STACKTRACE\na.cpp:7 f 0x1090\n0x1\n>>>STACKTRACE\n").toUTF8.toList := by decide +kernel
example : run exTools true "x [0x1090]".toUTF8.toList = .ok "a.cpp:7 f x [0x1090]\n".toUTF8.toList := by decide +kernel
example : ¬ isOneline (strip ([97] ++ 0 :: [98])) := by
  rintro ⟨r, h⟩
  have := congrArg List.length h
  have e : ("<<<STACKTRACE>>> ".toUTF8.toList).length = 17 := by decide +kernel
  have e2 : (strip ([97] ++ 0 :: [98])).length = 3 := by decide
  rw [List.length_append, e, e2] at this
  omega
example : ¬ [48, 120] <+: ([63] : Bytes) ∧ (∀ c ∈ ([63] : Bytes), ¬ Blank c) := by
  constructor
  · decide
  · simp [Blank]

#print axioms C108_get_info
#print axioms C108_finding_top_section
#print axioms C108_find_addr
#print axioms C108_decode
#print axioms C108_oneline
#print axioms C108_filter
#print axioms C108_run
#print axioms C108_bracket
#print axioms C108_exception
#print axioms C108_finding_rest_lost
#print axioms C108_finding_nul

end Verif.Props.Desymbol
