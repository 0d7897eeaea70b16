import Verif.Proof.MiniXml

/-! # C27, C28, C59: XML -/
set_option linter.unusedSimpArgs false
namespace Verif.Props.MiniXml

open Verif.MiniXml Verif.Spec.MiniXml
open Verif.Config (Str Sorted)

/-- C27: `unescape(escape(s)) = s`. -/
theorem C27_roundtrip (s : Str) (fuel : Nat) (hf : (escape s).length < fuel) : unescape fuel (escape s) = .ok s := by
  rcases unescape_spec (escape s).length (escape s) (Nat.le_refl _) with ⟨s', h1, h2⟩ | ⟨h1, _⟩
  · have h := h2 [] fuel [] hf
    rw [List.nil_append, List.nil_append, List.length_nil] at h
    rw [unescape]
    have hs : s' = s := by
      clear h2 h hf
      have hm : Means (escape s) s := means_escape s
      generalize escape s = t at h1 hm
      induction h1 generalizing s with
      | nil =>
        generalize ht : ([] : Str) = t at hm
        cases hm with
        | nil => rfl
        | plain c t s hc hm => cases ht
        | entity e c t s he hm =>
          obtain ⟨lit, h3, _⟩ := entity_shape _ he
          simp only at h3
          rw [h3] at ht; cases ht
      | plain c t s' hc _ ih =>
        generalize ht : c :: t = t2 at hm
        cases hm with
        | nil => cases ht
        | plain c2 t2 s2 hc2 hm =>
          injection ht with e1 e2
          subst e1 e2
          rw [ih s2 hm]
        | entity e c2 t2 s2 he hm =>
          obtain ⟨lit, h3, _⟩ := entity_shape _ he
          simp only at h3
          rw [h3] at ht
          injection ht with e1 e2
          exact absurd e1 hc
      | entity e c t s' he _ ih =>
        obtain ⟨lit, h3, _⟩ := entity_shape _ he
        simp only at h3
        generalize ht : e ++ t = t2 at hm
        cases hm with
        | nil => rw [h3] at ht; cases ht
        | plain c2 t2 s2 hc2 hm =>
          rw [h3] at ht
          injection ht with e1 e2
          exact absurd e1.symm hc2
        | entity e2 c2 t2 s2 he2 hm =>
          have hee : (e, c) = (e2, c2) := by
            have hp1 : e <+: e ++ t := ⟨t, rfl⟩
            have hp2 : e2 <+: e ++ t := ⟨t2, ht.symm⟩
            clear ih hm h3
            simp only [entities, List.mem_cons, Prod.mk.injEq, List.not_mem_nil, or_false] at he he2
            rcases he with ⟨rfl, rfl⟩ | ⟨rfl, rfl⟩ | ⟨rfl, rfl⟩ | ⟨rfl, rfl⟩ | ⟨rfl, rfl⟩ <;>
            rcases he2 with ⟨rfl, rfl⟩ | ⟨rfl, rfl⟩ | ⟨rfl, rfl⟩ | ⟨rfl, rfl⟩ | ⟨rfl, rfl⟩ <;> simp at hp2 ⊢
          simp only [Prod.mk.injEq] at hee
          obtain ⟨rfl, rfl⟩ := hee
          have := List.append_cancel_left ht
          subst this
          rw [ih s2 hm]
    rw [h, hs]
  · exact absurd h1 (means_not_bad _ _ (means_escape s))

/-- C27: the escaped text contains none of `< > ' "`, and each `&` in it starts one of the five entities. -/
theorem C27_escaped_clean (s : Str) :
    (60 ∉ escape s ∧ 62 ∉ escape s ∧ 39 ∉ escape s ∧ 34 ∉ escape s) ∧
    ∀ i, (escape s)[i]? = some 38 → ∃ e ∈ entities, e.1 <+: (escape s).drop i := by
  refine ⟨?_, ?_⟩
  · rw [escape_eq]
    have : ∀ c : UInt8, 60 ∉ escapeChar c ∧ 62 ∉ escapeChar c ∧ 39 ∉ escapeChar c ∧ 34 ∉ escapeChar c := by
      intro c
      rcases escapeChar_cases c with h | ⟨h, _, h2, h3, h4, h5⟩
      · simp only [entities, List.mem_cons, Prod.mk.injEq, List.not_mem_nil, or_false] at h
        rcases h with ⟨h, _⟩ | ⟨h, _⟩ | ⟨h, _⟩ | ⟨h, _⟩ | ⟨h, _⟩ <;> rw [h] <;> decide
      · rw [h]
        simp [eq_comm, h2, h3, h4, h5]
    simp only [List.mem_flatten, List.mem_map, not_exists, not_and]
    refine ⟨?_, ?_, ?_, ?_⟩ <;> rintro l ⟨c, _, rfl⟩
    · exact (this c).1
    · exact (this c).2.1
    · exact (this c).2.2.1
    · exact (this c).2.2.2
  · intro i hi
    have := means_not_bad _ _ (means_escape s)
    apply Classical.byContradiction
    intro hn
    exact this ⟨i, hi, fun e he hp => hn ⟨e, he, hp⟩⟩

/-- C27: `unescape` returns `s` exactly on the texts that stand for `s`, and throws exactly on the texts with an `&` that starts
no entity.  It reads nothing outside the string (the result is never undefined). -/
theorem C27_unescape_exact (t : Str) (fuel : Nat) (hf : t.length < fuel) :
    (∀ s, unescape fuel t = .ok s → Means t s) ∧
    (unescape fuel t = .throw ↔ ∃ i, t[i]? = some 38 ∧ ∀ e ∈ entities, ¬ e.1 <+: t.drop i) ∧ unescape fuel t ≠ .ub := by
  rcases unescape_spec t.length t (Nat.le_refl _) with ⟨s, h1, h2⟩ | ⟨h1, h2⟩
  · have h := h2 [] fuel [] hf
    rw [List.nil_append, List.nil_append, List.length_nil] at h
    rw [unescape, h]
    refine ⟨?_, ?_, by simp⟩
    · intro s' hs
      injection hs with hs
      rw [← hs]; exact h1
    · constructor
      · intro h; cases h
      · intro hb; exact absurd hb (means_not_bad _ _ h1)
  · have h := h2 [] fuel [] hf
    rw [List.nil_append, List.length_nil] at h
    rw [unescape, h]
    refine ⟨?_, ?_, by simp⟩
    · intro s' hs; cases hs
    · exact ⟨fun _ => h1, fun _ => rfl⟩

example : escape [97, 38, 60, 39] = [97, 38, 97, 109, 112, 59, 38, 108, 116, 59, 38, 97, 112, 111, 115, 59] := by decide
example : unescape 20 [38, 97, 109, 112, 59, 108, 116, 59] = .ok [38, 108, 116, 59] := by decide
example : unescape 20 [38, 97, 109, 112] = .throw := by decide

/-- C28: parsing a printed document gives back the tree: names, attributes, and children in order.  The attributes of a
node are a `std::map`, hence sorted (`C28_attributes_sorted`).  Contents are not printed, so they come back empty. -/
theorem C28_roundtrip (n : Node) (h : NodeOk n) (fuel : Nat) (hf : (printXml n).length < fuel) :
    parse fuel (printXml n) = .ok (headerAttrs, strip n) := parse_print fuel n h hf

/-- C28: attributes stay sorted by name, and setting one attribute changes that one only. -/
theorem C28_attributes_sorted (m : Attrs) (k v : Str) (h : Sorted m) :
    Sorted (setAttr m k v) ∧ ∀ k2, Attrs.query (setAttr m k v) k2 = if k2 = k then some v else Attrs.query m k2 :=
  ⟨setAttr_sorted m k v h, setAttr_query m k v⟩

/-- C28: on any text whatever the parser ends with a tree or an exception, and never reads past the end. -/
theorem C28_parse_total (s : Str) (fuel : Nat) (hf : s.length < fuel) : parse fuel s ≠ .ub := parse_total fuel s hf

mutual
theorem print_strip : ∀ n : Node, printNode (strip n) = printNode n
  | .mk name attr content child => by rw [strip, printNode, printNode, printList_strip child]
theorem printList_strip : ∀ l : List Node, printList (stripList l) = printList l
  | [] => by rw [stripList]
  | n :: ns => by rw [stripList, printList, printList, print_strip n, printList_strip ns]
end

/-- C28: different trees (contents aside) are printed differently. -/
theorem C28_print_injective (a b : Node) (ha : NodeOk a) (hb : NodeOk b) (h : printXml a = printXml b) : strip a = strip b := by
  have h1 := C28_roundtrip a ha _ (Nat.lt_succ_self _)
  have h2 := C28_roundtrip b hb _ (Nat.lt_succ_self _)
  rw [h, h2] at h1
  injection h1 with h1
  exact (Prod.mk.inj h1).2.symm

/-- The tree `<a x="1" y="<&'"><b/ z=""></b/><c></c></a>` is legal. -/
example : NodeOk (.mk [97] [([120], [49]), ([121], [60, 38, 39])] [104, 105] [.mk [98, 47] [([122], [])] [] [], .mk [99] [] [] []]) := by
  simp [NodeOk, ListOk, ElementName, AttrsOk, AttrOk, AttrName, Sorted, Verif.Config.strLt, Separator]

/-- Whether an exception was thrown. -/
def isThrow {α : Type} : Res α → Bool
  | .throw => true
  | _ => false

theorem of_isThrow {α : Type} (r : Res α) (h : isThrow r = true) : r = .throw := by cases r <;> simp_all [isThrow]

/-- C28, necessity: an attribute value with a double quote is printed without escaping, and the text is then refused. -/
theorem C28_quote_not_escaped :
    parse 200 (printXml (.mk [97] [([120], [34])] [] [])) = .throw := of_isThrow _ (by decide +kernel)

/-- C28, finding: `<a/>` (without a space) is not an empty element: it opens an element named `a/`, so this document is refused. -/
theorem C28_empty_element_refused : parse 200 (header ++ [60, 97, 47, 62]) = .throw := of_isThrow _ (by decide +kernel)

mutual
/-- Equality of trees can be decided. -/
def eqNode : Node → Node → Bool
  | .mk n a c ch, .mk n2 a2 c2 ch2 => decide (n = n2) && decide (a = a2) && decide (c = c2) && eqList ch ch2
/-- Equality of lists of trees can be decided. -/
def eqList : List Node → List Node → Bool
  | [], [] => true
  | x :: xs, y :: ys => eqNode x y && eqList xs ys
  | _, _ => false
end

/-- C28, finding: the entities in a text are not replaced by the parser, and of several text pieces of an element only the last
is kept.  The text is `<a x="&lt;">s<b></b>t</a>`. -/
theorem C28_content_last_wins :
    (match parse 200 (header ++ [60, 97, 32, 120, 61, 34, 38, 108, 116, 59, 34, 62, 115, 60, 98, 62, 60, 47, 98, 62, 116, 60, 47, 97, 62]) with
      | .ok (_, n) => eqNode n (.mk [97] [([120], [38, 108, 116, 59])] [116] [.mk [98] [] [] []])
      | _ => false) = true := by decide +kernel

/-- C28, finding: text after the root element is ignored. -/
theorem C28_trailing_text_ignored :
    (match parse 200 (header ++ [60, 97, 62, 60, 47, 97, 62, 60, 60, 60]) with
      | .ok (_, n) => eqNode n (.mk [97] [] [] [])
      | _ => false) = true := by decide +kernel

/-- C59: `getFirstTagByName` returns the first node in document order that has the name, or nothing if there is none. -/
theorem C59_first_in_document_order (v : Str) (n : Node) : getFirst v n = (preorder n).find? fun m => m.name = v := getFirst_eq v n

/-- C59: nothing is found only if no node has the name. -/
theorem C59_none_iff (v : Str) (n : Node) : getFirst v n = none ↔ ∀ m ∈ preorder n, m.name ≠ v := by
  rw [getFirst_eq, List.find?_eq_none]
  simp

example : (preorder (.mk [97] [] [] [.mk [98] [] [] [.mk [99] [] [1] []], .mk [99] [] [] []])).map Node.name = [[97], [98], [99], [99]] := by decide

#print axioms C27_roundtrip
#print axioms C27_escaped_clean
#print axioms C27_unescape_exact
#print axioms C28_roundtrip
#print axioms C28_parse_total
#print axioms C28_print_injective
#print axioms C59_first_in_document_order
#print axioms C59_none_iff

end Verif.Props.MiniXml
