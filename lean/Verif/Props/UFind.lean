import Verif.Proof.UFind
import Verif.Props.FmSample32
set_option linter.unusedSimpArgs false

/-! # C129: the searches of `String`, and searching characters versus searching bytes -/
namespace Verif.Props.UFind
open Verif Verif.UFind Verif.Spec.UFind Verif.Spec.Utf
open Verif.Spec.FmSample (positions File)
open Verif.Spec.UStream (IsWords)

/-- C129.  `find` gives the first occurrence at or behind `off`, `npos` iff there is none. -/
theorem C129_find (s key : List Nat) (off : Nat) : IsFirst (Occurs key s) off (find s key off) := find_first s key off

/-- C129.  `rfind` gives the last occurrence at or before `off`, `npos` iff there is none. -/
theorem C129_rfind (s key : List Nat) (off : Nat) : IsLast (Occurs key s) off (rfind s key off) := rfind_last s key off

theorem oneOf_eq (s set : List Nat) : OneOf s set = fun i => ∃ c, s[i]? = some c ∧ set.contains c = true := by
  funext i; simp [OneOf]

theorem noneOf_eq (s set : List Nat) : NoneOf s set = fun i => ∃ c, s[i]? = some c ∧ (!set.contains c) = true := by
  funext i; simp [NoneOf]

/-- C129.  `find_first_of` gives the first character of the set at or behind `off`. -/
theorem C129_find_first_of (s set : List Nat) (off : Nat) : IsFirst (OneOf s set) off (findFirstOf s set off) := by
  rw [oneOf_eq]; exact scan_drop _ s off

/-- C129.  `find_first_not_of` gives the first character outside the set at or behind `off`. -/
theorem C129_find_first_not_of (s set : List Nat) (off : Nat) : IsFirst (NoneOf s set) off (findFirstNotOf s set off) := by
  rw [noneOf_eq]; exact scan_drop _ s off

/-- C129.  `find_last_of` gives the last character of the set at or before `off`. -/
theorem C129_find_last_of (s set : List Nat) (off : Nat) : IsLast (OneOf s set) off (findLastOf s set off) := by
  rw [oneOf_eq]; exact scanDown_last _ s off

/-- C129.  `find_last_not_of` gives the last character outside the set at or before `off`. -/
theorem C129_find_last_not_of (s set : List Nat) (off : Nat) : IsLast (NoneOf s set) off (findLastNotOf s set off) := by
  rw [noneOf_eq]; exact scanDown_last _ s off

/-- C129.  The UTF-8 form of a non-empty key stands in the UTF-8 form of a text exactly where the key stands in the text:
never across the borders of characters. -/
theorem C129_sync (cs key : List Nat) (hc : ∀ c ∈ cs, Scalar c) (hk : ∀ c ∈ key, Scalar c) (hne : key ≠ []) (p : Nat) :
    Occurs (utf8s key) (utf8s cs) p ↔ ∃ i, p = bytePos cs i ∧ Occurs key cs i := sync key cs hk hc hne p

theorem occurs_lt {key cs : List Nat} (hne : key ≠ []) {i : Nat} (h : Occurs key cs i) : i < cs.length := by
  have h1 := occurs_le h
  have h2 := List.length_pos_iff.2 hne
  omega

/-- C129.  Searching the characters and searching the bytes find the same place. -/
theorem C129_find_bytes (cs key : List Nat) (hc : ∀ c ∈ cs, Scalar c) (hk : ∀ c ∈ key, Scalar c) (off : Nat)
    (ho : key = [] → off ≤ cs.length) :
    find (utf8s cs) (utf8s key) (bytePos cs off) = (find cs key off).map (bytePos cs) := by
  by_cases hne : key = []
  · subst hne
    refine first_unique (find_first _ _ _) ?_
    have e : find cs [] off = some off := by
      refine first_unique (find_first _ _ _) ⟨Nat.le_refl _, occurs_iff.2 ⟨ho rfl, by simp⟩, fun p h1 h2 => by omega⟩
    rw [e]
    exact ⟨Nat.le_refl _, occurs_iff.2 ⟨bytePos_le _ _, by simp [utf8s]⟩, fun p h1 h2 => by omega⟩
  · exact first_unique (find_first _ _ _) (first_map (fun i h => occurs_lt hne h) (sync key cs hk hc hne) (find_first cs key off))

/-- C129.  The same from the end; without `off` (that is, `npos`) both search everything. -/
theorem C129_rfind_bytes (cs key : List Nat) (hc : ∀ c ∈ cs, Scalar c) (hk : ∀ c ∈ key, Scalar c) (off : Nat) :
    rfind (utf8s cs) (utf8s key) (bytePos cs off) = (rfind cs key off).map (bytePos cs) := by
  by_cases hne : key = []
  · subst hne
    have gen : ∀ (s : List Nat) (n : Nat), rfind s [] n = some (min s.length n) := by
      intro s n
      refine last_unique (rfind_last _ _ _) ⟨by omega, occurs_iff.2 ⟨by omega, by simp⟩, fun p h1 h2 ho => ?_⟩
      have := (occurs_iff.1 ho).1
      omega
    rw [show utf8s [] = [] from rfl, gen, gen, Nat.min_eq_right (bytePos_le _ _), Option.map_some]
    by_cases c : off ≤ cs.length
    · rw [Nat.min_eq_right c]
    · rw [Nat.min_eq_left (by omega), bytePos, bytePos, List.take_length, List.take_of_length_le (by omega)]
  · exact last_unique (rfind_last _ _ _) (last_map (fun i h => occurs_lt hne h) (sync key cs hk hc hne) (rfind_last cs key off))

/-- C129.  `find_first_of` with a set of ASCII characters finds the same place in the bytes. -/
theorem C129_first_of_bytes (cs set : List Nat) (hc : ∀ c ∈ cs, Scalar c) (hs : ∀ c ∈ set, c < 0x80) (off : Nat) :
    findFirstOf (utf8s cs) set (bytePos cs off) = (findFirstOf cs set off).map (bytePos cs) := by
  refine first_unique (C129_find_first_of _ _ _) (first_map ?_ (oneOf_ascii cs set hc hs) (C129_find_first_of cs set off))
  rintro i ⟨c, e, _⟩
  exact (List.getElem?_eq_some_iff.1 e).1

/-- C129.  `find_last_of` with a set of ASCII characters finds the same place in the bytes. -/
theorem C129_last_of_bytes (cs set : List Nat) (hc : ∀ c ∈ cs, Scalar c) (hs : ∀ c ∈ set, c < 0x80) (off : Nat) :
    findLastOf (utf8s cs) set (bytePos cs off) = (findLastOf cs set off).map (bytePos cs) := by
  refine last_unique (C129_find_last_of _ _ _) (last_map ?_ (oneOf_ascii cs set hc hs) (C129_find_last_of cs set off))
  rintro i ⟨c, e, _⟩
  exact (List.getElem?_eq_some_iff.1 e).1

/-- C129, the border of the claim: with other characters in the set the bytes give other places.  U+00E8 is none of {U+00E9},
but its first byte is the first byte of U+00E9. -/
theorem C129_finding_of_bytes : findFirstOf [0xe8] [0xe9] 0 = none ∧ findFirstOf (utf8s [0xe8]) (utf8s [0xe9]) 0 = some 0 := by decide

/-- C129.  `substr` of the characters is `substr` of the bytes between the same places, and is refused in the same cases. -/
theorem C129_substr (cs : List Nat) (off count : Nat) (r : List Nat) (h : substr cs off count = .ok r) :
    substr (utf8s cs) (bytePos cs off) (bytePos cs (off + count) - bytePos cs off) = .ok (utf8s r) := by
  rw [substr] at h
  split at h
  · exact absurd h (by simp)
  · obtain rfl := Res.ok.inj h
    rw [substr, if_neg (by have := bytePos_le cs off; omega)]
    have e := congrArg (List.drop (bytePos cs off)) (take_bytePos cs (off + count))
    rw [List.drop_take] at e
    rw [e]
    have e2 : utf8s (cs.take (off + count)) = utf8s (cs.take off) ++ utf8s ((cs.drop off).take count) := by
      rw [← utf8s_app, List.take_add]
    rw [e2, bytePos, List.drop_left]

/-- C129.  `substr` and `erase` cut a text into what is taken and what is left; beyond the end both throw. -/
theorem C129_erase (s : List Nat) (off count : Nat) :
    (off ≤ s.length → ∃ a m b, s = a ++ m ++ b ∧ a.length = off ∧ m.length = min count (s.length - off) ∧
      substr s off count = .ok m ∧ erase s off count = .ok (a ++ b)) ∧
    (s.length < off → substr s off count = .throw ∧ erase s off count = .throw) := by
  constructor
  · intro h
    refine ⟨s.take off, (s.drop off).take count, (s.drop off).drop count, ?_, by simp; omega, by simp, ?_, ?_⟩
    · rw [List.append_assoc, List.take_append_drop, List.take_append_drop]
    · rw [substr, if_neg (by omega)]
    · rw [erase, if_neg (by omega)]
  · intro h
    exact ⟨by rw [substr, if_pos h], by rw [erase, if_pos h]⟩

/-! ### The two builds of the search program -/

theorem positions_bytes (cs key : List Nat) (hc : ∀ c ∈ cs, Scalar c) (hk : ∀ c ∈ key, Scalar c) (hne : key ≠ []) :
    positions (utf8s cs) (utf8s key) = (positions cs key).map fun p => (bytePos cs p.toNat : Int) := by
  have occ : ∀ (s k : List Nat) (p : Nat), k ≠ [] → (Verif.Spec.FMindex.OccursAt s k p ↔ Occurs k s p) := by
    intro s k p hk
    rw [Verif.Spec.FMindex.OccursAt]
    constructor
    · rintro ⟨a, b⟩; exact occurs_iff.2 ⟨by omega, b⟩
    · intro h; exact ⟨occurs_lt hk h, (occurs_iff.1 h).2⟩
  have hne8 : utf8s key ≠ [] := by
    obtain ⟨k, ks, rfl⟩ := List.exists_cons_of_ne_nil hne
    rw [utf8s_c]
    simp [Verif.Utf.utf8_ne_nil]
  refine Verif.Props.FmSample.sorted_unique (Verif.Props.FmSample.sorted_positions _ _) ?_ ?_
  · rw [List.pairwise_map]
    refine (Verif.Props.FmSample.sorted_positions cs key).imp_of_mem ?_
    intro a b ha hb hab
    rw [Verif.Props.FmSample.mem_positions] at ha hb
    obtain ⟨p, h1, rfl⟩ := ha
    obtain ⟨q, h2, rfl⟩ := hb
    have := bytePos_lt' (cs := cs) (i := p) (j := q) (by omega) (occurs_lt hne ((occ _ _ _ hne).1 h1))
    simp only [Int.toNat_natCast]
    omega
  · intro x
    rw [Verif.Props.FmSample.mem_positions, List.mem_map]
    constructor
    · rintro ⟨p, h, rfl⟩
      obtain ⟨i, rfl, hi⟩ := (sync key cs hk hc hne p).1 ((occ _ _ _ hne8).1 h)
      exact ⟨i, (Verif.Props.FmSample.mem_positions _ _ _).2 ⟨i, (occ _ _ _ hne).2 hi, rfl⟩, by simp⟩
    · rintro ⟨y, hy, rfl⟩
      obtain ⟨i, hi, rfl⟩ := (Verif.Props.FmSample.mem_positions _ _ _).1 hy
      exact ⟨bytePos cs i, (occ _ _ _ hne8).2 ((sync key cs hk hc hne _).2 ⟨i, rfl, (occ _ _ _ hne).1 hi⟩), by simp⟩

theorem file_tail {ws : List (List Nat)} {c : Nat} {rest : List Nat} (hc : Verif.Spec.FmSample.Blank c) (h : File ws (c :: rest)) :
    File ws rest := by
  generalize e : c :: rest = q at h
  cases h with
  | none s h =>
    subst e
    exact .none _ fun x hx => h x (List.mem_cons_of_mem _ hx)
  | last s w h hw hb =>
    cases s with
    | nil =>
      cases w with
      | nil => exact absurd rfl hw
      | cons x w => simp at e; obtain ⟨rfl, rfl⟩ := e; exact absurd hc (hb c (by simp))
    | cons x s =>
      simp at e
      obtain ⟨rfl, rfl⟩ := e
      exact .last _ _ (fun y hy => h y (List.mem_cons_of_mem _ hy)) hw hb
  | more s w x ws rest' h hw hb hx hr =>
    cases s with
    | nil =>
      cases w with
      | nil => exact absurd rfl hw
      | cons y w => simp at e; obtain ⟨rfl, rfl⟩ := e; exact absurd hc (hb c (by simp))
    | cons y s =>
      simp only [List.cons_append, List.cons.injEq] at e
      obtain ⟨rfl, rfl⟩ := e
      exact .more _ _ _ _ _ (fun y hy => h y (List.mem_cons_of_mem _ hy)) hw hb hx hr

theorem file_of_words {q : List Nat} {ws : List (List Nat)} (h : IsWords q ws) : File ws q := by
  induction h with
  | nil sp h => exact .none _ h
  | last sp w h hw hb => exact .last _ _ h hw hb
  | cons sp w c rest ws h hw hb hc _ ih => exact .more _ _ _ _ _ h hw hb hc (file_tail hc ih)

/-- C129.  The two builds of fmindex_smpl agree: for a UTF-8 text and a UTF-8 query file, the build over bytes prints for every word
the byte positions of exactly the places whose character positions the build over characters prints, in the same order. -/
theorem C129_builds (cs : List Nat) (hcs : ∀ c ∈ cs, Scalar c) (hn : (utf8s cs).length < 2 ^ 31) (css : List (List Nat)) (q : List Nat)
    (hq : IsWords q (css.map utf8s)) (hk : ∀ w ∈ css, ∀ c ∈ w, Scalar c) :
    Verif.FmSample32.simpleSearch (utf8s cs) q = .ok (css.map (fun w => (w, positions cs w)), Verif.UStream.End.stream) ∧
    Verif.FmSample.simpleSearch (utf8s cs) q =
      .ok (css.map fun w => (utf8s w, (positions cs w).map fun p => (bytePos cs p.toNat : Int))) := by
  have hlen : cs.length ≤ (utf8s cs).length := by
    clear hn hcs
    induction cs with
    | nil => simp
    | cons c cs ih =>
      rw [utf8s_c, List.length_append, List.length_cons]
      have := List.length_pos_iff.2 (Verif.Utf.utf8_ne_nil c)
      omega
  refine ⟨Verif.Props.FmSample32.C128_simple cs hcs (by omega) css q hq hk, ?_⟩
  rw [Verif.Props.FmSample.C111_simple _ _ hn, Verif.Props.FmSample.C111_words _ _ (file_of_words hq), List.map_map]
  congr 1
  refine List.map_congr_left fun w hw => ?_
  have hne : w ≠ [] := by
    rintro rfl
    exact Verif.Props.FmSample32.words_ne hq _ (List.mem_map_of_mem hw) rfl
  rw [Function.comp, positions_bytes cs w hcs (hk w hw) hne]

/-! ### Examples -/

example : find [0x61, 0x3042, 0x61, 0x3042] [0x3042] 2 = some 3 ∧ bytePos [0x61, 0x3042, 0x61, 0x3042] 3 = 5 := by decide
example : rfind [0x61, 0x3042, 0x61, 0x3042] [0x61] 1 = some 0 ∧ rfind [0x61] [0x62] 7 = none := by decide
example : findLastOf [0x61, 0x62, 0x61] [0x62] 9 = some 1 ∧ findFirstNotOf [0x61, 0x62] [0x61] 0 = some 1 ∧
    findLastNotOf [0x61, 0x61] [0x61] 1 = none := by decide
example : ∀ c ∈ [0x61, 0x3042], Scalar c := by decide +kernel
example : substr [0x61, 0x3042, 0x62] 1 1 = .ok [0x3042] ∧ erase [0x61, 0x3042, 0x62] 1 1 = .ok [0x61, 0x62] ∧
    substr [0x61] 2 1 = .throw := by decide
example : IsWords [32, 0xc3, 0xa9, 10] ([[0xe9]].map utf8s) :=
  .cons [32] [0xc3, 0xa9] 10 [] [] (by simp [Verif.Spec.UStream.Blank]) (by simp) (by simp [Verif.Spec.UStream.Blank]) (by simp [Verif.Spec.UStream.Blank])
    (.nil _ (by simp [Verif.Spec.UStream.Blank]))

#print axioms C129_find
#print axioms C129_rfind
#print axioms C129_find_first_of
#print axioms C129_find_first_not_of
#print axioms C129_find_last_of
#print axioms C129_find_last_not_of
#print axioms C129_sync
#print axioms C129_find_bytes
#print axioms C129_rfind_bytes
#print axioms C129_first_of_bytes
#print axioms C129_last_of_bytes
#print axioms C129_finding_of_bytes
#print axioms C129_substr
#print axioms C129_erase
#print axioms C129_builds

end Verif.Props.UFind
