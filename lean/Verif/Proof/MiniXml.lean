import Verif.Model.MiniXml
import Verif.Spec.MiniXml
import Verif.Proof.Config

/-! Lemmas for minixml.hpp. -/
set_option linter.unusedSimpArgs false
namespace Verif.MiniXml

open Verif.Config (Str place Sorted place_last strLt strLt_irrefl)
open Verif.Spec.MiniXml

/-! ## Escaping -/

theorem escape_eq (s : Str) : escape s = (s.map escapeChar).flatten := by
  have : ∀ (l acc : Str), l.foldl (fun ret c => ret ++ escapeChar c) acc = acc ++ (l.map escapeChar).flatten := by
    intro l
    induction l with
    | nil => simp
    | cons c l ih => intro acc; simp [ih]
  rw [escape, this]; rfl

theorem escapeChar_cases (c : UInt8) : (escapeChar c, c) ∈ entities ∨ (escapeChar c = [c] ∧ c ≠ 38 ∧ c ≠ 60 ∧ c ≠ 62 ∧ c ≠ 39 ∧ c ≠ 34) := by
  rw [escapeChar]
  by_cases h1 : c = 38
  · subst h1; left; decide
  by_cases h2 : c = 60
  · subst h2; left; decide
  by_cases h3 : c = 62
  · subst h3; left; decide
  by_cases h4 : c = 39
  · subst h4; left; decide
  by_cases h5 : c = 34
  · subst h5; left; decide
  right
  simp [h1, h2, h3, h4, h5]

theorem means_escape (s : Str) : Means (escape s) s := by
  rw [escape_eq]
  induction s with
  | nil => exact .nil
  | cons c s ih =>
    rw [List.map_cons, List.flatten_cons]
    rcases escapeChar_cases c with h | ⟨h, h1, _⟩
    · exact .entity _ _ _ _ h ih
    · rw [h]; exact .plain c _ _ h1 ih

/-- A position where an & starts no entity. -/
def Bad (t : Str) : Prop := ∃ i, t[i]? = some 38 ∧ ∀ e ∈ entities, ¬ e.1 <+: t.drop i

theorem entity_shape (e : Str × UInt8) (h : e ∈ entities) : ∃ lit, e.1 = 38 :: lit ∧ 38 ∉ lit ∧ lit.length ≤ 5 := by
  simp only [entities, List.mem_cons, List.not_mem_nil, or_false] at h
  rcases h with rfl | rfl | rfl | rfl | rfl <;> exact ⟨_, rfl, by decide, by decide⟩

theorem means_not_bad (t s : Str) (h : Means t s) : ¬ Bad t := by
  induction h with
  | nil => rintro ⟨i, h, _⟩; simp at h
  | plain c t s hc _ ih =>
    rintro ⟨i, h1, h2⟩
    cases i with
    | zero => simp at h1; exact hc h1
    | succ i => exact ih ⟨i, by simpa using h1, by simpa using h2⟩
  | entity e c t s he _ ih =>
    obtain ⟨lit, h1, h2, _⟩ := entity_shape _ he
    simp only at h1
    rintro ⟨i, h3, h4⟩
    cases i with
    | zero => exact h4 _ he ⟨t, by simp⟩
    | succ i =>
      subst h1
      rw [List.cons_append, List.getElem?_cons_succ, List.getElem?_append] at h3
      split at h3
      · exact h2 (List.mem_of_getElem? h3)
      · rename_i hlt
        refine ih ⟨i - lit.length, h3, ?_⟩
        intro e' he'
        have := h4 e' he'
        rw [List.cons_append, List.drop_succ_cons, List.drop_append, List.drop_eq_nil_of_le (by omega)] at this
        simpa using this

theorem entityAt_eq (pre t lit : Str) (h0 : 0 ∉ lit) (hl : 0 < lit.length) : entityAt (pre ++ 38 :: t) pre.length (lit.length + 1) lit = .ok (lit.isPrefixOf t) := by
  rw [entityAt]
  have hlen : (pre ++ 38 :: t).length - pre.length = t.length + 1 := by simp
  rw [hlen]
  have hd : ((pre ++ 38 :: t) ++ [0]).drop (pre.length + 1) = t ++ [0] := by
    rw [List.append_assoc, List.drop_append, List.drop_eq_nil_of_le (by omega)]
    simp
  by_cases h : t.length + 1 ≥ lit.length + 1
  · rw [if_pos h, memcmpEq, if_pos (by simp; omega), hd]
    congr 1
    rw [List.take_append_of_le_length (by omega)]
    rw [Bool.eq_iff_iff, decide_eq_true_iff, List.isPrefixOf_iff_prefix, List.prefix_iff_eq_take, eq_comm]
  · rw [if_neg h]
    congr 1
    rw [eq_comm, Bool.eq_false_iff]
    intro hp
    rw [List.isPrefixOf_iff_prefix] at hp
    have := hp.length_le
    omega

theorem not_prefix_of (lit t : Str) (h : ¬ lit.isPrefixOf t = true) : ¬ (38 :: lit) <+: (38 :: t) := by
  rw [List.prefix_cons_inj]
  intro h'
  exact h (List.isPrefixOf_iff_prefix.mpr h')

theorem unescape_spec (n : Nat) : ∀ t : Str, t.length ≤ n →
    (∃ s, Means t s ∧ ∀ pre fuel ret, t.length < fuel → unescapeLoop (pre ++ t) fuel pre.length ret = .ok (ret ++ s)) ∨
    (Bad t ∧ ∀ pre fuel ret, t.length < fuel → unescapeLoop (pre ++ t) fuel pre.length ret = .throw) := by
  induction n with
  | zero =>
    intro t ht
    have : t = [] := by cases t; rfl; simp at ht
    subst this
    left
    refine ⟨[], .nil, ?_⟩
    intro pre fuel ret hf
    obtain ⟨f, rfl⟩ : ∃ f, fuel = f + 1 := ⟨fuel - 1, by simp at hf; omega⟩
    rw [unescapeLoop, if_neg (by simp)]; simp
  | succ n ih =>
    intro t ht
    cases t with
    | nil => exact ih [] (by simp)
    | cons c t =>
      have hstep : ∀ (e t' : Str) (c' : UInt8) (k : Nat), c :: t = e ++ t' → e.length = k + 1 →
          (∀ s, Means t' s → Means (c :: t) (c' :: s)) →
          (∀ pre fuel ret, unescapeLoop (pre ++ c :: t) (fuel + 1) pre.length ret = unescapeLoop (pre ++ c :: t) fuel (pre.length + k + 1) (ret ++ [c'])) →
          (∃ s, Means (c :: t) s ∧ ∀ pre fuel ret, (c :: t).length < fuel → unescapeLoop (pre ++ c :: t) fuel pre.length ret = .ok (ret ++ s)) ∨
          (Bad (c :: t) ∧ ∀ pre fuel ret, (c :: t).length < fuel → unescapeLoop (pre ++ c :: t) fuel pre.length ret = .throw) := by
        intro e t' c' k he hk hm hloop
        have hlen : (c :: t).length = k + 1 + t'.length := by rw [he, List.length_append, hk]
        rcases ih t' (by omega) with ⟨s, h1, h2⟩ | ⟨⟨i, h1, h1'⟩, h2⟩
        · left
          refine ⟨c' :: s, hm s h1, ?_⟩
          intro pre fuel ret hf
          obtain ⟨f, rfl⟩ : ∃ f, fuel = f + 1 := ⟨fuel - 1, by omega⟩
          rw [hloop]
          have := h2 (pre ++ e) f (ret ++ [c']) (by omega)
          rw [List.append_assoc, ← he, List.length_append, hk, ← Nat.add_assoc] at this
          rw [this]; simp
        · right
          refine ⟨⟨e.length + i, ?_, ?_⟩, ?_⟩
          · rw [he, List.getElem?_append_right (by omega)]
            rw [Nat.add_sub_cancel_left]; exact h1
          · intro e' he'
            rw [he, List.drop_append, List.drop_eq_nil_of_le (by omega), Nat.add_sub_cancel_left, List.nil_append]
            exact h1' e' he'
          · intro pre fuel ret hf
            obtain ⟨f, rfl⟩ : ∃ f, fuel = f + 1 := ⟨fuel - 1, by omega⟩
            rw [hloop]
            have := h2 (pre ++ e) f (ret ++ [c']) (by omega)
            rw [List.append_assoc, ← he, List.length_append, hk, ← Nat.add_assoc] at this
            rw [this]
      have hin : ∀ pre : Str, pre.length < (pre ++ c :: t).length := by intro pre; simp
      have hget : ∀ pre : Str, at? (pre ++ c :: t) pre.length = .ok c := by
        intro pre
        rw [at?_eq_ok (hin pre)]
        simp
      by_cases hc : c = 38
      · subst hc
        have e1 := fun pre => entityAt_eq pre t [97, 109, 112, 59] (by decide) (by decide)
        have e2 := fun pre => entityAt_eq pre t [108, 116, 59] (by decide) (by decide)
        have e3 := fun pre => entityAt_eq pre t [103, 116, 59] (by decide) (by decide)
        have e4 := fun pre => entityAt_eq pre t [97, 112, 111, 115, 59] (by decide) (by decide)
        have e5 := fun pre => entityAt_eq pre t [113, 117, 111, 116, 59] (by decide) (by decide)
        simp only [List.length_cons, List.length_nil, Nat.zero_add, Nat.reduceAdd] at e1 e2 e3 e4 e5
        have hloop : ∀ (pre : Str) (fuel : Nat) (ret : Str), unescapeLoop (pre ++ 38 :: t) (fuel + 1) pre.length ret =
            if [97, 109, 112, 59].isPrefixOf t then unescapeLoop (pre ++ 38 :: t) fuel (pre.length + 4 + 1) (ret ++ [38])
            else if [108, 116, 59].isPrefixOf t then unescapeLoop (pre ++ 38 :: t) fuel (pre.length + 3 + 1) (ret ++ [60])
            else if [103, 116, 59].isPrefixOf t then unescapeLoop (pre ++ 38 :: t) fuel (pre.length + 3 + 1) (ret ++ [62])
            else if [97, 112, 111, 115, 59].isPrefixOf t then unescapeLoop (pre ++ 38 :: t) fuel (pre.length + 5 + 1) (ret ++ [39])
            else if [113, 117, 111, 116, 59].isPrefixOf t then unescapeLoop (pre ++ 38 :: t) fuel (pre.length + 5 + 1) (ret ++ [34])
            else .throw := by
          intro pre fuel ret
          rw [unescapeLoop, if_pos (hin pre), hget]
          simp only [Res.ok_bind, if_true, e1, e2, e3, e4, e5]
        have hent : ∀ (lit : Str) (c' : UInt8), (38 :: lit, c') ∈ entities → lit.isPrefixOf t = true →
            ∃ t', 38 :: t = (38 :: lit) ++ t' ∧ ∀ s, Means t' s → Means (38 :: t) (c' :: s) := by
          intro lit c' h1 h2
          rw [List.isPrefixOf_iff_prefix] at h2
          obtain ⟨t', rfl⟩ := h2
          exact ⟨t', by simp, fun s hs => .entity (38 :: lit) c' t' s h1 hs⟩
        by_cases p1 : [97, 109, 112, 59].isPrefixOf t = true
        · obtain ⟨t', h1, h2⟩ := hent [97, 109, 112, 59] 38 (by decide) p1
          exact hstep _ t' 38 4 h1 rfl h2 (fun pre fuel ret => by rw [hloop, if_pos p1])
        by_cases p2 : [108, 116, 59].isPrefixOf t = true
        · obtain ⟨t', h1, h2⟩ := hent [108, 116, 59] 60 (by decide) p2
          exact hstep _ t' 60 3 h1 rfl h2 (fun pre fuel ret => by rw [hloop, if_neg p1, if_pos p2])
        by_cases p3 : [103, 116, 59].isPrefixOf t = true
        · obtain ⟨t', h1, h2⟩ := hent [103, 116, 59] 62 (by decide) p3
          exact hstep _ t' 62 3 h1 rfl h2 (fun pre fuel ret => by rw [hloop, if_neg p1, if_neg p2, if_pos p3])
        by_cases p4 : [97, 112, 111, 115, 59].isPrefixOf t = true
        · obtain ⟨t', h1, h2⟩ := hent [97, 112, 111, 115, 59] 39 (by decide) p4
          exact hstep _ t' 39 5 h1 rfl h2 (fun pre fuel ret => by rw [hloop, if_neg p1, if_neg p2, if_neg p3, if_pos p4])
        by_cases p5 : [113, 117, 111, 116, 59].isPrefixOf t = true
        · obtain ⟨t', h1, h2⟩ := hent [113, 117, 111, 116, 59] 34 (by decide) p5
          exact hstep _ t' 34 5 h1 rfl h2 (fun pre fuel ret => by rw [hloop, if_neg p1, if_neg p2, if_neg p3, if_neg p4, if_pos p5])
        right
        refine ⟨⟨0, rfl, ?_⟩, ?_⟩
        · intro e he
          simp only [entities, List.mem_cons, List.not_mem_nil, or_false] at he
          rcases he with rfl | rfl | rfl | rfl | rfl
          · exact not_prefix_of _ _ p1
          · exact not_prefix_of _ _ p2
          · exact not_prefix_of _ _ p3
          · exact not_prefix_of _ _ p4
          · exact not_prefix_of _ _ p5
        · intro pre fuel ret hf
          obtain ⟨f, rfl⟩ : ∃ f, fuel = f + 1 := ⟨fuel - 1, by omega⟩
          rw [hloop, if_neg p1, if_neg p2, if_neg p3, if_neg p4, if_neg p5]
      · refine hstep [c] t c 0 rfl rfl (fun s hs => .plain c t s hc hs) ?_
        intro pre fuel ret
        rw [unescapeLoop, if_pos (hin pre), hget]
        simp only [Res.ok_bind, if_neg hc]

/-! ## Parsing printed trees -/

theorem separator_iff (c : UInt8) : isName c = true ↔ ¬ Separator c := by
  simp only [isName, isSpace, isEqual, isQuote, Separator, List.mem_cons, List.not_mem_nil, or_false, Bool.and_eq_true, Bool.not_eq_true',
    Bool.or_eq_false_iff, decide_eq_false_iff_not, not_or, and_assoc]

theorem isName2_iff (c : UInt8) : isName2 c = true ↔ ¬ Separator c ∧ c ≠ 62 := by
  rw [← separator_iff, isName2, isName]
  simp [and_assoc]

theorem getWord_stop (f : UInt8 → Bool) (w : Str) (x : UInt8) (r : Str) (hw : ∀ c ∈ w, f c = true) (hx : f x = false) :
    getWord f (w ++ x :: r) = (w, x :: r) := by
  induction w with
  | nil => rw [List.nil_append, getWord, if_pos (by simp [hx])]
  | cons c w ih =>
    rw [List.cons_append, getWord, if_neg (by simp [hw c (by simp)]), ih (fun c' h => hw c' (by simp [h]))]

theorem skipSpace_stop (c : UInt8) (s : Str) (h : isSpace c = false) : skipSpace (c :: s) = c :: s := by
  rw [skipSpace, if_pos (by simp [h])]

theorem not_space_of_name (c : UInt8) (h : ¬ Separator c) : isSpace c = false := by
  have := (separator_iff c).mpr h
  simp only [isName, Bool.and_eq_true, Bool.not_eq_true'] at this
  exact this.1.1

/-- An attribute that survives printing. -/
def AttrOk (p : Str × Str) : Prop := AttrName p.1 ∧ 34 ∉ p.2

theorem parseAttribute_print (k v r : Str) (h : AttrOk (k, v)) : parseAttribute (k ++ 61 :: 34 :: (v ++ 34 :: r)) = .ok (k, v, r) := by
  rw [parseAttribute, getWord_stop isName k 61 _ (fun c hc => (separator_iff c).mpr (h.1.2.1 c hc)) (by decide)]
  simp only
  rw [if_neg h.1.1, skipSpace_stop _ _ (by decide)]
  simp only [next, Res.ok_bind]
  rw [if_pos (by decide), skipSpace_stop _ _ (by decide)]
  simp only [Res.ok_bind]
  rw [if_pos (by decide), getWord_stop _ v 34 r _ (by simp)]
  · simp
  · intro c hc
    have : c ≠ 34 := fun e => h.2 (e ▸ hc)
    simpa using this

/-- The attributes of a node: legal, sorted. -/
def AttrsOk (m : Attrs) : Prop := Sorted m ∧ ∀ p ∈ m, AttrOk p

theorem setAttr_last (m : Attrs) (k v : Str) (h : ∀ y ∈ m, strLt y.1 k = true) : setAttr m k v = m ++ [(k, v)] := by
  rw [setAttr]
  have hany : (m.any fun y => decide (y.1 = k)) = false := by
    rw [List.any_eq_false]
    intro y hy
    have := h y hy
    simp only [decide_eq_true_eq]
    intro he
    rw [he, strLt_irrefl] at this
    cases this
  rw [hany, if_neg (by simp), place_last _ _ (by simpa using h)]

theorem parseAttributes_print (normal : Bool) (m : Attrs) : ∀ (done : Attrs) (fuel : Nat) (r : Str), AttrsOk (done ++ m) → m.length < fuel →
    (normal = false → ∀ p ∈ m, p.1.head? ≠ some 63) →
    parseAttributes normal fuel done (printAttrs m ++ (if normal then [62] else [63, 62]) ++ r) = .ok (!normal, done ++ m, r) := by
  induction m with
  | nil =>
    intro done fuel r _ hf _
    obtain ⟨f, rfl⟩ : ∃ f, fuel = f + 1 := ⟨fuel - 1, by simp at hf; omega⟩
    cases normal
    · simp [printAttrs, parseAttributes, skipSpace, isSpace, query, lastChar, inc, next, at?]
    · simp [printAttrs, parseAttributes, skipSpace, isSpace, query, lastChar, inc, next, at?]
  | cons p m ih =>
    intro done fuel r hok hf hq
    obtain ⟨f, rfl⟩ : ∃ f, fuel = f + 1 := ⟨fuel - 1, by simp at hf; omega⟩
    have hp := hok.2 p (by simp)
    obtain ⟨k, v⟩ := p
    have htext : printAttrs ((k, v) :: m) ++ (if normal then [62] else [63, 62]) ++ r =
        32 :: (k ++ 61 :: 34 :: (v ++ 34 :: (printAttrs m ++ (if normal then [62] else [63, 62]) ++ r))) := by
      simp [printAttrs]
    rw [htext, parseAttributes]
    obtain ⟨x, k', rfl⟩ : ∃ x k', k = x :: k' := by
      cases k with
      | nil => exact absurd rfl hp.1.1
      | cons x k' => exact ⟨x, k', rfl⟩
    have hx := hp.1.2.1 x (by simp)
    have h47 : x ≠ 47 := by have := hp.1.2.2.1; simpa using this
    have h62 : x ≠ 62 := by have := hp.1.2.2.2; simpa using this
    have hskip : ∀ s, skipSpace (32 :: x :: s) = x :: s := by
      intro s
      rw [skipSpace, if_neg (by decide), skipSpace_stop _ _ (not_space_of_name x hx)]
    rw [List.cons_append, hskip]
    simp only [query]
    rw [if_neg (by simp), at?_eq_ok (by simp)]
    simp only [Res.ok_bind, List.getElem_cons_zero]
    rw [if_neg (by simp [h62]), if_neg (by simp [h47]), if_neg ?_]
    · rw [← List.cons_append, parseAttribute_print _ _ _ hp]
      simp only [Res.ok_bind]
      rw [setAttr_last, ih (done ++ [(x :: k', v)]) f r (by simpa using hok) (by simp at hf; omega) (fun h q hq' => hq h q (by simp [hq']))]
      · simp
      · have hs := hok.1
        rw [Sorted, List.pairwise_append] at hs
        exact fun y hy => hs.2.2 y hy (x :: k', v) (by simp)
    · cases normal with
      | true => simp
      | false =>
        have := hq rfl (x :: k', v) (by simp)
        simpa using this

mutual
/-- Every name and attribute of the tree is legal. -/
def NodeOk : Node → Prop
  | .mk name attr _ child => ElementName name ∧ AttrsOk attr ∧ ListOk child
/-- Every tree of the list is legal. -/
def ListOk : List Node → Prop
  | [] => True
  | n :: ns => NodeOk n ∧ ListOk ns
end

mutual
/-- The tree without contents. -/
def strip : Node → Node
  | .mk name attr _ child => .mk name attr [] (stripList child)
/-- The trees without contents. -/
def stripList : List Node → List Node
  | [] => []
  | n :: ns => strip n :: stripList ns
end

theorem printAttrs_length (m : Attrs) : m.length ≤ (printAttrs m).length := by
  induction m with
  | nil => simp
  | cons p m ih =>
    have : printAttrs (p :: m) = ([32] ++ p.1 ++ [61, 34] ++ p.2 ++ [34]) ++ printAttrs m := by simp [printAttrs]
    rw [this]
    simp
    omega

theorem parseTag_begin (name : Str) (m : Attrs) (r : Str) (fuel : Nat) (hn : ElementName name) (hm : AttrsOk m) (hf : m.length < fuel) :
    parseTag fuel ([60] ++ name ++ printAttrs m ++ [62] ++ r) = .ok (.begin, name, m, r) := by
  obtain ⟨x, n', rfl⟩ : ∃ x n', name = x :: n' := by
    cases name with
    | nil => exact absurd rfl hn.1
    | cons x k' => exact ⟨x, k', rfl⟩
  have h47 : x ≠ 47 := by have := hn.2.2; simpa using this
  obtain ⟨y, r2, hy, hyn⟩ : ∃ y r2, printAttrs m ++ [62] ++ r = y :: r2 ∧ isName2 y = false := by
    cases m with
    | nil => exact ⟨62, r, by simp [printAttrs], by decide⟩
    | cons p m => exact ⟨32, _, by simp [printAttrs]; rfl, by decide⟩
  have htext : [60] ++ (x :: n') ++ printAttrs m ++ [62] ++ r = 60 :: ((x :: n') ++ y :: r2) := by
    rw [← hy]; simp
  rw [htext, parseTag, skipSpace_stop _ _ (by decide)]
  simp only [next, Res.ok_bind, query]
  rw [if_neg (by decide), if_neg (by simp), at?_eq_ok (by simp)]
  simp only [Res.ok_bind, endMark]
  rw [if_neg (by simpa using h47)]
  simp only [Res.ok_bind, Res.pure_eq]
  rw [getWord_stop isName2 (x :: n') y r2 (fun c hc => (isName2_iff c).mpr (hn.2.1 c hc)) hyn]
  simp only
  rw [if_neg (by simp), if_neg (by simp), ← hy]
  have := parseAttributes_print true m [] fuel r (by simpa using hm) hf (by simp)
  simp only [if_true, List.nil_append, Bool.not_true] at this
  rw [this]
  simp

theorem parseTag_end (name r : Str) (fuel : Nat) (hn : ElementName name) : parseTag fuel ([60, 47] ++ name ++ [62] ++ r) = .ok (.end, name, [], r) := by
  have htext : [60, 47] ++ name ++ [62] ++ r = 60 :: 47 :: (name ++ 62 :: r) := by simp
  rw [htext, parseTag, skipSpace_stop _ _ (by decide)]
  simp only [next, Res.ok_bind, query]
  rw [if_neg (by decide), if_neg (by simp), at?_eq_ok (by simp)]
  simp only [Res.ok_bind, endMark, List.getElem_cons_zero, if_true, inc, Res.pure_eq]
  rw [getWord_stop isName2 name 62 r (fun c hc => (isName2_iff c).mpr (hn.2.1 c hc)) (by decide)]
  simp [hn.1]

theorem parseNode_print (fuel : Nat) : ∀ (name content : Str) (done child : List Node) (r : Str), ElementName name → ListOk child →
    (printList child ++ [60, 47] ++ name ++ [62] ++ r).length < fuel →
    parseNode fuel name content done (printList child ++ [60, 47] ++ name ++ [62] ++ r) = .ok (content, done ++ stripList child, r) := by
  induction fuel with
  | zero => intro _ _ _ _ _ _ _ h; omega
  | succ fuel ih =>
    intro name content done child r hn hc hf
    cases child with
    | nil =>
      rw [printList, List.nil_append, parseNode]
      have h60 : [60, 47] ++ name ++ [62] ++ r = 60 :: (47 :: (name ++ 62 :: r)) := by simp
      rw [h60, skipSpace_stop _ _ (by decide)]
      simp only [parseContent, query]
      rw [if_neg (by simp), at?_eq_ok (by simp)]
      simp only [Res.ok_bind, List.getElem_cons_zero]
      rw [if_neg (by decide)]
      simp only [Res.ok_bind, Res.pure_eq]
      rw [← h60, parseTag_end name r _ hn]
      simp [stripList]
    | cons n ns =>
      obtain ⟨n1, a1, c1, ch1⟩ := n
      have hc1 : ElementName n1 ∧ AttrsOk a1 ∧ ListOk ch1 := by have := hc.1; rwa [NodeOk] at this
      have hns : ListOk ns := hc.2
      have htext : printList (.mk n1 a1 c1 ch1 :: ns) ++ [60, 47] ++ name ++ [62] ++ r =
          [60] ++ n1 ++ printAttrs a1 ++ [62] ++ (printList ch1 ++ [60, 47] ++ n1 ++ [62] ++ (printList ns ++ [60, 47] ++ name ++ [62] ++ r)) := by
        simp [printList, printNode]
      rw [htext] at hf ⊢
      generalize hT : printList ch1 ++ [60, 47] ++ n1 ++ [62] ++ (printList ns ++ [60, 47] ++ name ++ [62] ++ r) = T at hf ⊢
      have h60 : [60] ++ n1 ++ printAttrs a1 ++ [62] ++ T = 60 :: (n1 ++ printAttrs a1 ++ [62] ++ T) := by simp
      have hl := printAttrs_length a1
      have hlenT : T.length + a1.length < fuel := by
        simp only [List.length_append, List.length_cons, List.length_nil] at hf
        omega
      rw [parseNode, h60, skipSpace_stop _ _ (by decide)]
      simp only [parseContent, query]
      rw [if_neg (by simp), at?_eq_ok (by simp)]
      simp only [Res.ok_bind, List.getElem_cons_zero]
      rw [if_neg (by decide)]
      simp only [Res.ok_bind, Res.pure_eq]
      rw [← h60, parseTag_begin n1 a1 T _ hc1.1 hc1.2.1 (by omega)]
      simp only [Res.ok_bind]
      rw [← hT]
      rw [ih n1 [] [] ch1 _ hc1.1 hc1.2.2 (by rw [hT]; omega)]
      simp only [Res.ok_bind]
      have hlen2 : (printList ns ++ [60, 47] ++ name ++ [62] ++ r).length < fuel := by
        rw [← hT] at hlenT
        simp only [List.length_append, List.length_cons, List.length_nil] at hlenT ⊢
        omega
      rw [ih name content _ ns r hn hns hlen2]
      simp [stripList, strip]

/-- The attributes of the printed header. -/
def headerAttrs : Attrs :=
  [([101, 110, 99, 111, 100, 105, 110, 103], [85, 84, 70, 45, 56]), ([115, 116, 97, 110, 100, 97, 108, 111, 110, 101], [121, 101, 115]),
   ([118, 101, 114, 115, 105, 111, 110], [49, 46, 48])]

theorem parseAttribute_head (k v r : Str) (h : AttrOk (k, v)) (normal : Bool) (f : Nat) (m : Attrs) (h63 : k.head? ≠ some 63) :
    parseAttributes normal (f + 1) m (32 :: (k ++ 61 :: 34 :: (v ++ 34 :: r))) = parseAttributes normal f (setAttr m k v) r := by
  rw [parseAttributes]
  obtain ⟨x, k', rfl⟩ : ∃ x k', k = x :: k' := by
    cases k with
    | nil => exact absurd rfl h.1.1
    | cons x k' => exact ⟨x, k', rfl⟩
  have hx := h.1.2.1 x (by simp)
  have h47 : x ≠ 47 := by have := h.1.2.2.1; simpa using this
  have h62 : x ≠ 62 := by have := h.1.2.2.2; simpa using this
  have h63' : x ≠ 63 := by simpa using h63
  have hskip : ∀ s, skipSpace (32 :: x :: s) = x :: s := by
    intro s
    rw [skipSpace, if_neg (by decide), skipSpace_stop _ _ (not_space_of_name x hx)]
  rw [List.cons_append, hskip]
  simp only [query]
  rw [if_neg (by simp), at?_eq_ok (by simp)]
  simp only [Res.ok_bind, List.getElem_cons_zero]
  rw [if_neg (by simp [h62]), if_neg (by simp [h47]), if_neg (by simp [h63'])]
  rw [← List.cons_append, parseAttribute_print _ _ _ h]
  simp

theorem readHeader_print (fuel : Nat) (r : Str) (hf : 4 ≤ fuel) : readHeader fuel (header ++ r) = .ok (headerAttrs, r) := by
  obtain ⟨f, rfl⟩ : ∃ f, fuel = f + 1 + 1 + 1 + 1 := ⟨fuel - 4, by omega⟩
  have ok1 : AttrOk ([118, 101, 114, 115, 105, 111, 110], [49, 46, 48]) := by
    refine ⟨⟨by simp, ?_, by simp, by simp⟩, by simp⟩
    simp [Separator]
  have ok2 : AttrOk ([101, 110, 99, 111, 100, 105, 110, 103], [85, 84, 70, 45, 56]) := by
    refine ⟨⟨by simp, ?_, by simp, by simp⟩, by simp⟩
    simp [Separator]
  have ok3 : AttrOk ([115, 116, 97, 110, 100, 97, 108, 111, 110, 101], [121, 101, 115]) := by
    refine ⟨⟨by simp, ?_, by simp, by simp⟩, by simp⟩
    simp [Separator]
  have htext : header ++ r = [60, 63, 120, 109, 108] ++ 32 :: ([118, 101, 114, 115, 105, 111, 110] ++ 61 :: 34 :: ([49, 46, 48] ++ 34 ::
      (32 :: ([101, 110, 99, 111, 100, 105, 110, 103] ++ 61 :: 34 :: ([85, 84, 70, 45, 56] ++ 34 ::
      (32 :: ([115, 116, 97, 110, 100, 97, 108, 111, 110, 101] ++ 61 :: 34 :: ([121, 101, 115] ++ 34 :: (63 :: 62 :: r))))))))) := rfl
  rw [htext, readHeader, List.cons_append, skipSpace_stop _ _ (by decide), ← List.cons_append,
    getWord_stop isName [60, 63, 120, 109, 108] 32 _ (by decide) (by decide)]
  simp only
  rw [if_neg (by simp), parseAttribute_head _ _ _ ok1 _ _ _ (by simp), parseAttribute_head _ _ _ ok2 _ _ _ (by simp),
    parseAttribute_head _ _ _ ok3 _ _ _ (by simp), parseAttributes, skipSpace_stop _ _ (by decide)]
  simp only [query]
  rw [if_neg (by simp), at?_eq_ok (by simp)]
  simp only [Res.ok_bind, List.getElem_cons_zero, lastChar, inc, next]
  simp only [Bool.false_and, Bool.false_eq_true, if_false, Bool.not_false, Bool.true_and, decide_true, if_true, ne_eq, not_true, Res.ok_bind, Res.pure_eq]
  congr 1

theorem parse_print (fuel : Nat) (n : Node) (h : NodeOk n) (hf : (printXml n).length < fuel) : parse fuel (printXml n) = .ok (headerAttrs, strip n) := by
  obtain ⟨name, attr, content, child⟩ := n
  rw [NodeOk] at h
  rw [printXml] at hf ⊢
  have hl : header.length = 55 := rfl
  rw [List.length_append, hl] at hf
  rw [parse, readHeader_print fuel _ (by omega)]
  have htext : printNode (.mk name attr content child) = [60] ++ name ++ printAttrs attr ++ [62] ++ (printList child ++ [60, 47] ++ name ++ [62] ++ []) := by
    simp [printNode]
  rw [htext] at hf ⊢
  simp only [Res.ok_bind]
  have h2 := printAttrs_length attr
  rw [parseTag_begin name attr _ fuel h.1 h.2.1 (by simp only [List.length_append] at hf; omega)]
  simp only [Res.ok_bind]
  rw [parseNode_print fuel name [] [] child [] h.1 h.2.2 (by simp only [List.length_append, List.length_cons, List.length_nil] at hf ⊢; omega)]
  simp [strip]

/-! ## The parser on arbitrary text -/

theorem skipSpace_length (s : Str) : (skipSpace s).length ≤ s.length := by
  induction s with
  | nil => simp [skipSpace]
  | cons c s ih => rw [skipSpace]; split <;> simp; omega

theorem getWord_length (f : UInt8 → Bool) (s : Str) : (getWord f s).1.length + (getWord f s).2.length = s.length := by
  induction s with
  | nil => simp [getWord]
  | cons c s ih => rw [getWord]; split <;> simp; omega

/-- The call ends normally with less text left than `n`, or throws. -/
def Shorter {α : Type} (n : Nat) (rest : α → Str) (r : Res α) : Prop := r = .throw ∨ ∃ a, r = .ok a ∧ (rest a).length < n

theorem next_cases (s : Str) : next s = .throw ∨ ∃ c r, next s = .ok (c, r) ∧ s = c :: r := by
  cases s with
  | nil => exact .inl rfl
  | cons c r => exact .inr ⟨c, r, rfl, rfl⟩

theorem parseAttribute_shorter (s : Str) : Shorter s.length (fun a => a.2.2) (parseAttribute s) := by
  rw [parseAttribute]
  have hg := getWord_length isName s
  generalize getWord isName s = kw at hg
  obtain ⟨key, s1⟩ := kw
  simp only at hg ⊢
  split
  · exact .inl rfl
  · rename_i hk
    have hk : 0 < key.length := by cases key; exact absurd rfl hk; simp
    have h1 := skipSpace_length s1
    rcases next_cases (skipSpace s1) with h | ⟨c, r, h, hr⟩
    · rw [h]; exact .inl rfl
    · rw [h]
      rw [hr] at h1
      simp only [List.length_cons] at h1
      simp only [Res.ok_bind]
      split
      · have h2 := skipSpace_length r
        rcases next_cases (skipSpace r) with h | ⟨q, r2, h, hr2⟩
        · rw [h]; exact .inl rfl
        · rw [h]
          rw [hr2] at h2
          simp only [List.length_cons] at h2
          simp only [Res.ok_bind]
          split
          · have hg := getWord_length (fun c => decide (c ≠ q)) r2
            generalize getWord (fun c => decide (c ≠ q)) r2 = vw at hg
            obtain ⟨val, s3⟩ := vw
            simp only at hg ⊢
            rcases next_cases s3 with h | ⟨c2, r3, h, hr3⟩
            · rw [h]; exact .inl rfl
            · rw [h]
              rw [hr3] at hg
              simp only [List.length_cons] at hg
              simp only [Res.ok_bind]
              split
              · exact .inr ⟨_, rfl, by simp only; omega⟩
              · exact .inl rfl
          · exact .inl rfl
      · exact .inl rfl

theorem lastChar_shorter (m : Attrs) (s : Str) (hs : s ≠ []) : Shorter s.length (fun a => a.2.2) (lastChar m s) := by
  cases s with
  | nil => exact absurd rfl hs
  | cons c s =>
    rw [lastChar, inc]
    simp only [Res.ok_bind]
    rcases next_cases s with h | ⟨c2, r3, h, hr3⟩
    · rw [h]; exact .inl rfl
    · rw [h]
      simp only [Res.ok_bind]
      split
      · exact .inl rfl
      · exact .inr ⟨_, rfl, by rw [hr3]; simp only [List.length_cons]; omega⟩

theorem parseAttributes_shorter (normal : Bool) (fuel : Nat) : ∀ (m : Attrs) (s : Str), s.length < fuel →
    Shorter s.length (fun a => a.2.2) (parseAttributes normal fuel m s) := by
  induction fuel with
  | zero => intro m s h; omega
  | succ fuel ih =>
    intro m s hf
    rw [parseAttributes]
    have hs := skipSpace_length s
    generalize skipSpace s = t at hs
    simp only
    split
    · exact .inl rfl
    · rename_i ht
      cases t with
      | nil => exact absurd rfl ht
      | cons c t =>
        simp only [query]
        rw [at?_eq_ok (by simp)]
        simp only [Res.ok_bind, List.getElem_cons_zero, inc, List.length_cons] at hs ⊢
        have hlast : Shorter s.length (fun a => a.2.2) (lastChar m (c :: t)) := by
          rcases lastChar_shorter m (c :: t) ht with h | ⟨a, h, hl⟩
          · exact .inl h
          · exact .inr ⟨a, h, by simp only [List.length_cons] at hl ⊢; omega⟩
        split
        · exact .inr ⟨_, rfl, by simp only; omega⟩
        · split
          · exact hlast
          · split
            · exact hlast
            · rcases parseAttribute_shorter (c :: t) with h | ⟨a, h, hl⟩
              · rw [h]; exact .inl rfl
              · rw [h]
                simp only [Res.ok_bind]
                simp only [List.length_cons] at hl
                rcases ih (setAttr m a.1 a.2.1) a.2.2 (by omega) with h | ⟨b, h, hl2⟩
                · exact .inl h
                · exact .inr ⟨b, h, by simp only at hl2 ⊢; omega⟩

theorem parseTag_shorter (fuel : Nat) (s : Str) (hf : s.length < fuel) : Shorter s.length (fun a => a.2.2.2) (parseTag fuel s) := by
  rw [parseTag]
  have hs := skipSpace_length s
  generalize skipSpace s = t at hs
  rcases next_cases t with h | ⟨c, r, h, hr⟩
  · simp only [h]; exact .inl rfl
  · simp only [h, Res.ok_bind]
    rw [hr] at hs
    simp only [List.length_cons] at hs
    split
    · exact .inl rfl
    · split
      · exact .inl rfl
      · rename_i hne
        cases r with
        | nil => exact absurd rfl hne
        | cons x r =>
          simp only [query]
          rw [at?_eq_ok (by simp)]
          simp only [Res.ok_bind, List.getElem_cons_zero, List.length_cons] at hs ⊢
          obtain ⟨b, s2, he, hl2⟩ : ∃ b s2, endMark x (x :: r) = .ok (b, s2) ∧ s2.length ≤ r.length + 1 := by
            rw [endMark]
            split
            · exact ⟨true, r, rfl, by omega⟩
            · exact ⟨false, x :: r, rfl, by simp⟩
          rw [he]
          simp only [Res.ok_bind]
          have hg := getWord_length isName2 s2
          generalize getWord isName2 s2 = kw at hg
          obtain ⟨name, s3⟩ := kw
          simp only at hg ⊢
          split
          · exact .inl rfl
          · split
            · rcases next_cases s3 with h | ⟨c2, r3, h, hr3⟩
              · rw [h]; exact .inl rfl
              · rw [h]
                simp only [Res.ok_bind]
                rw [hr3] at hg
                simp only [List.length_cons] at hg
                split
                · exact .inl rfl
                · exact .inr ⟨_, rfl, by simp only; omega⟩
            · rcases parseAttributes_shorter true fuel [] s3 (by omega) with h | ⟨⟨a1, a2, a3⟩, h, hl⟩
              · rw [h]; exact .inl rfl
              · rw [h]
                exact .inr ⟨_, rfl, by simp only at hl ⊢; omega⟩

theorem parseContent_cases (content s : Str) (hs : s ≠ []) : parseContent content s = .throw ∨
    ∃ c r, parseContent content s = .ok (c, r) ∧ r.length ≤ s.length := by
  cases s with
  | nil => exact absurd rfl hs
  | cons x s =>
    rw [parseContent]
    simp only [query]
    rw [at?_eq_ok (by simp)]
    simp only [Res.ok_bind, List.getElem_cons_zero]
    split
    · have hg := getWord_length (fun c => decide (c ≠ 60)) (x :: s)
      generalize getWord (fun c => decide (c ≠ 60)) (x :: s) = kw at hg
      obtain ⟨w, s3⟩ := kw
      simp only at hg ⊢
      split
      · exact .inl rfl
      · exact .inr ⟨_, _, rfl, by omega⟩
    · exact .inr ⟨_, _, rfl, by omega⟩

theorem parseNode_shorter (fuel : Nat) : ∀ (name content : Str) (child : List Node) (s : Str), s.length < fuel →
    Shorter s.length (fun a => a.2.2) (parseNode fuel name content child s) := by
  induction fuel with
  | zero => intro _ _ _ s h; omega
  | succ fuel ih =>
    intro name content child s hf
    rw [parseNode]
    have hs := skipSpace_length s
    generalize skipSpace s = t at hs
    simp only
    split
    · exact .inl rfl
    · rename_i ht
      rcases parseContent_cases content t ht with h | ⟨c, r, h, hr⟩
      · rw [h]; exact .inl rfl
      · rw [h]
        simp only [Res.ok_bind]
        rcases parseTag_shorter (fuel + 1) r (by omega) with h | ⟨⟨type, name2, attr, s2⟩, h, hl⟩
        · rw [h]; exact .inl rfl
        · rw [h]
          simp only at hl
          simp only [Res.ok_bind]
          cases type with
          | «end» =>
            simp only
            split
            · exact .inl rfl
            · exact .inr ⟨_, rfl, by simp only; omega⟩
          | begin =>
            simp only
            rcases ih name2 [] [] s2 (by omega) with h | ⟨⟨c3, ch3, s3⟩, h, hl3⟩
            · rw [h]; exact .inl rfl
            · rw [h]
              simp only at hl3
              simp only [Res.ok_bind]
              rcases ih name c (child ++ [.mk name2 attr c3 ch3]) s3 (by omega) with h | ⟨a, h, hl4⟩
              · exact .inl h
              · exact .inr ⟨a, h, by simp only at hl4 ⊢; omega⟩
          | complete =>
            simp only
            rcases ih name c (child ++ [.mk name2 attr [] []]) s2 (by omega) with h | ⟨a, h, hl4⟩
            · exact .inl h
            · exact .inr ⟨a, h, by simp only at hl4 ⊢; omega⟩

theorem parse_total (fuel : Nat) (s : Str) (hf : s.length < fuel) : parse fuel s ≠ .ub := by
  rw [parse]
  have hh : readHeader fuel s = .throw ∨ ∃ a r, readHeader fuel s = .ok (a, r) ∧ r.length ≤ s.length := by
    rw [readHeader]
    have hs := skipSpace_length s
    generalize skipSpace s = t at hs
    have hg := getWord_length isName t
    generalize getWord isName t = kw at hg
    obtain ⟨w, s3⟩ := kw
    simp only at hg ⊢
    split
    · exact .inl rfl
    · rcases parseAttributes_shorter false fuel [] s3 (by omega) with h | ⟨⟨a1, a2, a3⟩, h, hl⟩
      · rw [h]; exact .inl rfl
      · rw [h]
        exact .inr ⟨a2, a3, rfl, by simp only at hl; omega⟩
  rcases hh with h | ⟨a, r, h, hr⟩
  · rw [h]; simp
  · rw [h]
    simp only [Res.ok_bind]
    rcases parseTag_shorter fuel r (by omega) with h | ⟨⟨type, name2, attr, s2⟩, h, hl⟩
    · rw [h]; simp
    · rw [h]
      simp only at hl
      simp only [Res.ok_bind]
      cases type with
      | «end» => simp
      | begin =>
        simp only
        rcases parseNode_shorter fuel name2 [] [] s2 (by omega) with h | ⟨⟨c3, ch3, s3⟩, h, hl3⟩
        · rw [h]; simp
        · rw [h]; simp
      | complete => simp

/-! ## Search -/

mutual
/-- The nodes of a tree in document order. -/
def preorder : Node → List Node
  | .mk name attr content child => .mk name attr content child :: preorderList child
/-- The nodes of the trees in document order. -/
def preorderList : List Node → List Node
  | [] => []
  | n :: ns => preorder n ++ preorderList ns
end

mutual
theorem getFirst_eq (v : Str) : ∀ n : Node, getFirst v n = (preorder n).find? fun m => m.name = v
  | .mk name attr content child => by
    rw [getFirst, preorder, List.find?_cons]
    by_cases h : name = v
    · rw [if_pos h]
      simp [Node.name, h]
    · rw [if_neg h, getFirstList_eq v child]
      simp [Node.name, h]
theorem getFirstList_eq (v : Str) : ∀ l : List Node, getFirstList v l = (preorderList l).find? fun m => m.name = v
  | [] => by rw [getFirstList, preorderList]; rfl
  | n :: ns => by
    rw [getFirstList, preorderList, List.find?_append, getFirst_eq v n, getFirstList_eq v ns]
    cases (preorder n).find? fun m => decide (m.name = v) <;> rfl
end

/-! ## Maps stay sorted -/

theorem setAttr_sorted (m : Attrs) (k v : Str) (h : Sorted m) : Sorted (setAttr m k v) := by
  rw [setAttr]
  split
  · rw [Sorted] at h ⊢
    rw [List.pairwise_map]
    apply h.imp
    intro a b hab
    split <;> split <;> exact hab
  · rename_i hany
    apply Verif.Config.place_sorted _ _ h
    intro y hy he
    apply hany
    rw [List.any_eq_true]
    exact ⟨y, hy, by simpa using he⟩

theorem setAttr_query (m : Attrs) (k v k2 : Str) : Attrs.query (setAttr m k v) k2 = if k2 = k then some v else Attrs.query m k2 := by
  rw [setAttr]
  split
  · rename_i hany
    rw [List.any_eq_true] at hany
    induction m with
    | nil => simp at hany
    | cons y m ih =>
      rw [Attrs.query, Attrs.query, List.map_cons, List.find?_cons, List.find?_cons]
      by_cases h1 : y.1 = k
      · rw [if_pos h1]
        by_cases h2 : k2 = k
        · subst h2; simp [h1]
        · have h2' : ¬ k = k2 := fun e => h2 e.symm
          have h3 : ¬ y.1 = k2 := fun e => h2' (h1 ▸ e)
          simp only [h3, decide_false, if_neg h2]
          have : ∀ l : Attrs, (l.map fun y => if y.1 = k then (y.1, v) else y).find? (fun y => decide (y.1 = k2)) = l.find? (fun y => decide (y.1 = k2)) := by
            intro l
            induction l with
            | nil => rfl
            | cons z l ihl =>
              rw [List.map_cons, List.find?_cons, List.find?_cons, ihl]
              by_cases hz : z.1 = k
              · rw [if_pos hz]
                have : ¬ z.1 = k2 := fun e => h2' (hz ▸ e)
                simp [this]
              · rw [if_neg hz]
          rw [this]
      · rw [if_neg h1]
        have hm : ∃ x ∈ m, decide (x.1 = k) = true := by
          obtain ⟨x, hx, he⟩ := hany
          simp only [List.mem_cons] at hx
          rcases hx with rfl | hx
          · exact absurd (by simpa using he) h1
          · exact ⟨x, hx, he⟩
        have := ih hm
        rw [Attrs.query, Attrs.query] at this
        by_cases h3 : y.1 = k2
        · have : ¬ k2 = k := fun e => h1 (h3.trans e)
          simp [h3, this]
        · simp only [h3, decide_false]
          exact this
  · rename_i hany
    exact Verif.Config.mapFind_place m (k, v) k2 (fun y hy he => hany (List.any_eq_true.mpr ⟨y, hy, by simpa using he⟩))

end Verif.MiniXml
