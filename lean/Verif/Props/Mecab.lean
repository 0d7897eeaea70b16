import Verif.Proof.Mecab

/-!
# C93 the wrapper of MeCab
-/
set_option linter.unusedSimpArgs false
namespace Verif.Props.Mecab
open Verif.Mecab Verif.Spec.Mecab

/-- C93: for every text that MeCab returns (that is, for every sequence of pieces joined by blanks), `parse`
appends the pieces without the white space before them, skipping those that are empty then; nothing that was
in `out` changes. -/
theorem C93_words (tagger : List UInt8 → Option (List UInt8)) (out : List (List UInt8)) (mem : List UInt8) (n : Nat)
    (ps : List (List UInt8)) (hn : 0 < n) (hm : n ≤ mem.length) (hps : ∀ p ∈ ps, 32 ∉ p)
    (ht : tagger (mem.take n) = some (joined ps)) :
    parse tagger out mem n = .ok (true, out ++ (ps.map trimmed).filter (· ≠ [])) := by
  rw [parse, effLen, if_neg (by omega)]
  simp only [Res.ok_bind]
  rw [if_neg (by omega), ht]
  dsimp only
  rw [loop_joined ps _ hps (by omega)]
  rfl

/-- C93: the output of `-O wakati`, each word followed by a blank and a line feed at the end, gives exactly the
words. -/
theorem C93_wakati (tagger : List UInt8 → Option (List UInt8)) (out : List (List UInt8)) (mem : List UInt8) (n : Nat)
    (ws : List (List UInt8)) (hn : 0 < n) (hm : n ≤ mem.length) (hws : ∀ w ∈ ws, 32 ∉ w)
    (hne : ∀ w ∈ ws, ∃ b r, w = b :: r ∧ ¬White b)
    (ht : tagger (mem.take n) = some ((ws.flatMap fun w => w ++ [32]) ++ [10])) :
    parse tagger out mem n = .ok (true, out ++ ws) := by
  rw [joined_blanks] at ht
  rw [C93_words tagger out mem n (ws ++ [[10]]) hn hm ?_ ht]
  · have e : ((ws ++ [[10]]).map trimmed).filter (· ≠ []) = ws := by
      have e1 : ws.map trimmed = ws := by
        conv => rhs; rw [← List.map_id ws]
        apply List.map_congr_left
        intro w hw
        obtain ⟨b, r, rfl, hb⟩ := hne w hw
        simp [trimmed, hb]
      have e2 : ws.filter (· ≠ []) = ws := by
        rw [List.filter_eq_self]
        intro w hw
        obtain ⟨b, r, rfl, hb⟩ := hne w hw
        simp
      rw [List.map_append, e1, List.filter_append, e2]
      have e3 : ([[10]].map trimmed).filter (· ≠ []) = [] := by decide
      rw [e3, List.append_nil]
    rw [e]
  · intro p hp
    rcases List.mem_append.1 hp with h | h
    · exact hws p h
    · simp only [List.mem_singleton] at h; subst h; decide

/-- C93: if MeCab fails, `parse` says so and leaves `out` alone. -/
theorem C93_failure (tagger : List UInt8 → Option (List UInt8)) (out : List (List UInt8)) (mem : List UInt8) (n : Nat)
    (hn : 0 < n) (hm : n ≤ mem.length) (ht : tagger (mem.take n) = none) :
    parse tagger out mem n = .ok (false, out) := by
  rw [parse, effLen, if_neg (by omega)]
  simp only [Res.ok_bind]
  rw [if_neg (by omega), ht]

/-- C93: without a length the text ends at the first NUL. -/
theorem C93_c_string (tagger : List UInt8 → Option (List UInt8)) (out : List (List UInt8)) (text rest : List UInt8)
    (h0 : 0 ∉ text) (hne : text ≠ []) :
    parse tagger out (text ++ 0 :: rest) 0 = parse tagger out text text.length := by
  have h' : ∀ x ∈ text, (x != 0) = true := fun x hx => by simp only [bne_iff_ne, ne_eq]; rintro rfl; exact h0 hx
  have e : effLen (text ++ 0 :: rest) 0 = .ok text.length := by
    rw [effLen, if_pos rfl, strlen, if_pos (by simp), List.takeWhile_append_of_pos h']
    simp
  have hl : text.length ≠ 0 := fun h => hne (List.length_eq_zero_iff.1 h)
  have e' : effLen text text.length = .ok text.length := by rw [effLen, if_neg hl]
  rw [parse, parse, e, e', Res.ok_bind, Res.ok_bind, if_neg (by simp), if_neg (by omega), List.take_left, List.take_length]

/-- C93, finding: an empty part of a longer text is not parsed as empty: the length 0 is taken as "not given",
and everything up to the next NUL is parsed. -/
theorem C93_finding_empty_part (tagger : List UInt8 → Option (List UInt8)) (out : List (List UInt8)) (text rest : List UInt8)
    (ps : List (List UInt8)) (h0 : 0 ∉ text) (hne : text ≠ []) (hps : ∀ p ∈ ps, 32 ∉ p) (ht : tagger text = some (joined ps)) :
    parse tagger out (text ++ 0 :: rest) 0 = .ok (true, out ++ (ps.map trimmed).filter (· ≠ [])) := by
  have hl : text.length ≠ 0 := fun h => hne (List.length_eq_zero_iff.1 h)
  rw [C93_c_string tagger out text rest h0 hne,
    C93_words tagger out text text.length ps (by omega) (Nat.le_refl _) hps (by rw [List.take_length, ht])]

/-- C93, finding: if there is no blank before the line feed at the end, the line feed becomes part of the last
word. -/
theorem C93_finding_line_feed (tagger : List UInt8 → Option (List UInt8)) (mem : List UInt8) (n : Nat)
    (w : List UInt8) (hn : 0 < n) (hm : n ≤ mem.length) (hw : 32 ∉ w) (b : UInt8) (r : List UInt8) (hb : w = b :: r)
    (hnw : ¬White b) (ht : tagger (mem.take n) = some (w ++ [10])) : parse tagger [] mem n = .ok (true, [w ++ [10]]) := by
  have h10 : (32 : UInt8) ∉ w ++ [10] := by simp [hw]
  rw [C93_words tagger [] mem n [w ++ [10]] hn hm (by simpa using hw) ht]
  subst hb
  have : trimmed (b :: r ++ [10]) = b :: r ++ [10] := by simp [trimmed, hnw]
  rw [List.map_cons, List.map_nil, this]
  rfl

/-- C93: walking over the nodes shows every word before the end mark, in order, and stops there. -/
theorem C93_walk (parseToNode : List UInt8 → List Node) (text : List UInt8) (ns rest : List Node) (eos : Node)
    (hp : parseToNode text = ns ++ eos :: rest) (hns : ∀ n ∈ ns, n.isEos = false) (he : eos.isEos = true) :
    (setString parseToNode text >>= visit (ns.length + 1)) = .ok (ns.map (·.surface)) := by
  have hl : effLen (text ++ [0]) text.length = .ok text.length := by
    rw [effLen]
    split
    · rename_i h; rw [List.length_eq_zero_iff.1 h]; rfl
    · rfl
  rw [setString, setText, hl]
  simp only [Res.ok_bind, List.length_append, List.length_cons, List.length_nil, gt_iff_lt]
  rw [if_neg (by omega), List.take_left, hp, Res.ok_bind]
  clear hp
  induction ns with
  | nil => simp [visit, isEnd, he]
  | cons n ns ih =>
    have h1 : n.isEos = false := hns n (by simp)
    have ih := ih fun m hm => hns m (by simp [hm])
    rw [List.length_cons, visit, List.cons_append]
    simp only [isEnd, h1, word, next, Res.ok_bind, if_false, Bool.false_eq_true]
    rw [ih]
    rfl

/-- C93: `isNoun` never reads behind the feature text, and is true exactly for words of two bytes or more
whose feature begins with E5 90 8D (the first character of the word for "noun"). -/
theorem C93_isNoun (n : Node) (r : List Node) :
    isNoun (n :: r) = .ok (decide (2 ≤ n.surface.length ∧ n.feature.take 3 = [0xE5, 0x90, 0x8D])) := by
  obtain ⟨s, f, e⟩ := n
  rw [isNoun]
  by_cases h : s.length < 2
  · rw [if_pos h, decide_eq_false (by dsimp only; omega)]
  · rw [if_neg h]
    have h2 : 2 ≤ s.length := by omega
    rcases f with _ | ⟨a, _ | ⟨b, _ | ⟨c, f⟩⟩⟩
    · simp [at?]
    · by_cases ha : a = 0xE5 <;> simp [at?, ha, h2]
    · by_cases ha : a = 0xE5 <;> by_cases hb : b = 0x90 <;> simp [at?, ha, hb, h2]
    · by_cases ha : a = 0xE5 <;> by_cases hb : b = 0x90 <;> simp [at?, ha, hb, h2]

/-- C93, finding: a noun of a single byte (a letter or a digit) is not taken for a noun, whatever its feature. -/
theorem C93_finding_short_noun (n : Node) (r : List Node) (h : n.surface.length < 2) : isNoun (n :: r) = .ok false := by
  rw [isNoun, if_pos h]

/-- C93: without a parsed text there is no word to visit. -/
theorem C93_nothing_set (parseToNode : List UInt8 → List Node) (text : List UInt8) (fuel : Nat) (hp : parseToNode text = []) :
    isEnd [] = true ∧ (setString parseToNode text >>= visit (fuel + 1)) = .ok [] := by
  have hl : effLen (text ++ [0]) text.length = .ok text.length := by
    rw [effLen]
    split
    · rename_i h; rw [List.length_eq_zero_iff.1 h]; rfl
    · rfl
  refine ⟨rfl, ?_⟩
  have hs : setString parseToNode text = .ok [] := by
    rw [setString, setText, hl, Res.ok_bind, if_neg (by simp), List.take_left' rfl, hp]
  rw [hs, Res.ok_bind, visit]
  rfl

/-- C93: the tagger made by the constructor is deleted by the destructor, and no other; if it cannot be made
the constructor throws. -/
theorem C93_lifetime (t : Nat) (live : List Nat) :
    (create (some t) live >>= fun r => destroy r.1 r.2) = .ok live ∧ create none live = .throw := by
  simp [create, destroy]

/-- C93, finding: a copy of a `Mecab` object shares the tagger, and destroying both deletes it twice. -/
theorem C93_finding_copy (t : Nat) (live : List Nat) (h : t ∉ live) :
    (create (some t) live >>= fun r => destroy (copy r.1) r.2 >>= destroy r.1) = .ub := by
  simp [create, destroy, copy, h]

example : parse (fun _ => some [97, 98, 32, 99, 32, 10]) [] [97, 98, 99] 3 = .ok (true, [[97, 98], [99]]) := by decide
example : parse (fun _ => some [97, 32, 98, 10]) [[1]] [97, 98] 2 = .ok (true, [[1], [97], [98, 10]]) := by decide
example : ∀ w ∈ [[97, 98], [99]], ∃ b r, w = b :: r ∧ ¬White b := by
  simp only [List.mem_cons, List.not_mem_nil, or_false]
  rintro w (rfl | rfl)
  · exact ⟨97, [98], rfl, by decide⟩
  · exact ⟨99, [], rfl, by decide⟩
example : visit 3 [⟨[97], [], false⟩, ⟨[98], [], false⟩, ⟨[], [], true⟩] = .ok [[97], [98]] := by decide
example : isNoun [⟨[97, 98], [0xE5, 0x90, 0x8D, 0xE8], false⟩] = .ok true := by decide
example : isNoun [⟨[97], [0xE5, 0x90, 0x8D, 0xE8], false⟩] = .ok false := by decide

end Verif.Props.Mecab

open Verif.Props.Mecab in
#print axioms C93_wakati
#print axioms Verif.Props.Mecab.C93_nothing_set
