import Verif.Proof.UString
set_option linter.unusedSimpArgs false

/-! # C61, C62: reading UTF-8 text character by character; editing and comparing `String` -/
namespace Verif.Props.UString
open Verif Verif.UString Verif.Utf Verif.Spec.Utf Verif.Spec.UString

/-- Code points as the characters of a `String`. -/
def chars (cs : List Nat) : List Int := cs.map fun n : Nat => (n : Int)

/-- C61.  From well-formed text `Utf8ref` delivers its characters one by one and then `false`, in both modes. -/
theorem C61_well_formed (cs : List Nat) (hcs : ∀ c ∈ cs, Scalar c) (ignore : Bool) (fuel : Nat) (hf : (utf8s cs).length < fuel) :
    all ignore fuel (utf8s cs) = .ok (chars cs, .stop, []) := by
  induction fuel generalizing cs with
  | zero => omega
  | succ fuel ih =>
    rcases cs with _ | ⟨c, cs⟩
    · rfl
    have hc := hcs c (by simp)
    have hp : 0 < (utf8 c).length := List.length_pos_iff.mpr (utf8_ne_nil c)
    have hne : utf8 c ++ utf8s cs ≠ [] := by
      intro h; rw [List.append_eq_nil_iff] at h; exact utf8_ne_nil c h.1
    rw [utf8s_cons, List.length_append] at hf
    rw [utf8s_cons, all, next, if_neg (by simpa using fun h => absurd h (utf8_ne_nil c))]
    rcases seek8_spec (utf8 c ++ utf8s cs) hne with ⟨x, r, h1, h2⟩ | ⟨h1, _⟩
    · rw [decode_utf8 c hc] at h1
      injection h1 with h1
      injection h1 with h1
      injection h1 with h1 h3
      subst h1 h3
      rw [h2]
      simp only [Res.ok_bind, Res.pure_eq]
      rw [ih cs (fun d hd => hcs d (by simp [hd])) (by omega)]
      rfl
    · rw [decode_utf8 c hc] at h1
      simp at h1

/-- C61.  Without ignoring, exactly the characters before the first ill-formed place are delivered; there `next` throws. -/
theorem C61_strict (s : List Nat) (hb : ∀ b ∈ s, b < 256) (fuel : Nat) (hf : s.length < fuel) :
    ∃ (cs : List Nat) (t : List Nat), (∀ c ∈ cs, Scalar c) ∧ s = utf8s cs ++ t ∧
      ((t = [] ∧ all false fuel s = .ok (chars cs, .stop, [])) ∨
       (t ≠ [] ∧ ¬ StartsWell t ∧ ∃ r, all false fuel s = .ok (chars cs, .bad, r))) := by
  obtain ⟨cs, t, h1, h2, h3⟩ := all_strict fuel s hf hb
  refine ⟨cs, t, h1, h2, ?_⟩
  rcases h3 with h3 | ⟨h3, h4, p, r, _, _, _, h5⟩
  · exact .inl h3
  · exact .inr ⟨h3, h4, r, h5⟩

/-- C61.  Ignoring bad characters, reading never throws and always ends, whatever the bytes: the text falls into the delivered
characters, in order, and skipped pieces of one to four bytes. -/
theorem C61_ignoring (s : List Nat) (hb : ∀ b ∈ s, b < 256) (fuel : Nat) (hf : s.length < fuel) :
    ∃ cs, all true fuel s = .ok (chars cs, .stop, []) ∧ Pieces s cs :=
  all_ignore fuel s hf hb

/-- Finding for C61.  A skipped piece can contain whole characters: a lone lead byte takes the following letters with it. -/
theorem C61_finding_swallows :
    all true 9 [0xe3, 0x61, 0x62] = .ok ([], .stop, []) ∧
    all true 9 [0xf0, 0x61, 0x62, 0x63, 0x64] = .ok ([0x64], .stop, []) ∧
    all true 9 [0xc3, 0xc3, 0xa9] = .ok ([], .stop, []) := by decide +kernel

/-- C62.  Appending text: the string grows by the characters before the first ill-formed place; it throws exactly if there is
one. -/
theorem C62_append_text (str : List Int) (s : List Nat) (hb : ∀ b ∈ s, b < 256) (fuel : Nat) (hf : s.length < fuel) :
    ∃ (cs : List Nat) (t : List Nat), (∀ c ∈ cs, Scalar c) ∧ s = utf8s cs ++ t ∧ (t ≠ [] → ¬ StartsWell t) ∧
      append8 fuel str s = .ok (decide (t ≠ []), str ++ chars cs) :=
  append8_spec fuel str s hf hb

/-- C62.  Assigning well-formed text replaces the content. -/
theorem C62_assign_text (old : List Int) (cs : List Nat) (hcs : ∀ c ∈ cs, Scalar c) (fuel : Nat) (hf : (utf8s cs).length < fuel) :
    assign8 fuel old (utf8s cs) = .ok (false, chars cs) := by
  have hb : ∀ b ∈ utf8s cs, b < 256 := by
    intro b hb
    simp only [utf8s, List.mem_flatten, List.mem_map] at hb
    obtain ⟨l, ⟨c, hc, rfl⟩, hb⟩ := hb
    exact utf8_bytes c (hcs c hc) b hb
  obtain ⟨ds, t, h1, h2, h3, h4⟩ := append8_spec fuel [] (utf8s cs) hf hb
  rw [assign8, h4]
  have : t = [] ∧ ds = cs := by
    clear h4 hb hf
    induction ds generalizing cs with
    | nil =>
      rw [show utf8s [] = [] from rfl, List.nil_append] at h2
      rcases cs with _ | ⟨c, cs⟩
      · exact ⟨h2.symm, rfl⟩
      · exfalso
        rw [utf8s_cons] at h2
        have hne : t ≠ [] := by
          rw [← h2]; intro h; rw [List.append_eq_nil_iff] at h; exact utf8_ne_nil c h.1
        exact h3 hne ⟨c, utf8s cs, hcs c (by simp), h2.symm⟩
    | cons d ds ih =>
      rw [utf8s_cons, List.append_assoc] at h2
      rcases cs with _ | ⟨c, cs⟩
      · exfalso
        rw [show utf8s [] = [] from rfl] at h2
        have := h2.symm
        rw [List.append_eq_nil_iff] at this
        exact utf8_ne_nil d this.1
      · rw [utf8s_cons] at h2
        have e1 := decode_utf8 c (hcs c (by simp)) (utf8s cs)
        rw [h2, decode_utf8 d (h1 d (by simp))] at e1
        injection e1 with e1
        injection e1 with e1
        injection e1 with e1 e2
        have : d = c := by omega
        subst this
        obtain ⟨k1, k2⟩ := ih cs (fun x hx => hcs x (by simp [hx])) (fun x hx => h1 x (by simp [hx])) e2.symm
        exact ⟨k1, by rw [k2]⟩
  rw [this.1, this.2]
  simp [chars]

/-- Finding for C62.  An assignment of ill-formed text that throws has already destroyed the old content. -/
theorem C62_finding_failed_assign : assign8 9 [0x31, 0x32] [0x61, 0xff, 0x62] = .ok (true, [0x61]) := by decide +kernel

/-- C62.  Appending, inserting and replacing do what they say also if source and destination are the same object, and change
nothing else. -/
theorem C62_edit (st : Store) (i j : Nat) (a b : List Int) (ha : st[i]? = some a) (hb : st[j]? = some b) (off n : Nat)
    (ho : off ≤ a.length) :
    append st i j = .ok (st.set i (a ++ b)) ∧
    plus st i j = .ok (a ++ b) ∧
    insert st i off j = .ok (st.set i (a.take off ++ b ++ a.drop off)) ∧
    replace st i off n j = .ok (st.set i (a.take off ++ b ++ a.drop (off + n))) := by
  have h1 : at? st i = .ok a := by simp [at?, ha]
  have h2 : at? st j = .ok b := by simp [at?, hb]
  refine ⟨?_, ?_, ?_, ?_⟩
  · rw [append, h1, h2]; rfl
  · rw [plus, h1, h2]; rfl
  · rw [Verif.UString.insert, h1, h2]; simp [show ¬ off > a.length by omega, Store.put]
  · rw [replace, h1, h2]; simp [show ¬ off > a.length by omega, Store.put]

/-- C62.  A position behind the end is refused with an exception. -/
theorem C62_bad_position (st : Store) (i j : Nat) (a b : List Int) (ha : st[i]? = some a) (hb : st[j]? = some b)
    (off n : Nat) (ho : a.length < off) : insert st i off j = .throw ∧ replace st i off n j = .throw := by
  have h1 : at? st i = .ok a := by simp [at?, ha]
  have h2 : at? st j = .ok b := by simp [at?, hb]
  constructor
  · rw [Verif.UString.insert, h1, h2]; simp [ho]
  · rw [replace, h1, h2]; simp [ho]

example : insert [[0x61], [0x62]] 0 2 1 = .throw := (C62_bad_position _ 0 1 [0x61] [0x62] rfl rfl 2 0 (by decide)).1

/-- C62, assignment, as far as it is true: between different objects.
Missing: self-assignment (false, see `C62_finding_self_assign`). -/
theorem C62_assign_partial (st : Store) (i j : Nat) (hij : i ≠ j) (a b : List Int) (ha : st[i]? = some a) (hb : st[j]? = some b) :
    assign st i j = .ok (st.set i b) ∧
    ∀ off count, off ≤ b.length → assignSub st i j off count = .ok (st.set i ((b.drop off).take count)) := by
  have hi : i < st.length := (List.getElem?_eq_some_iff.mp ha).1
  have h1 : at? st i = .ok a := by simp [at?, ha]
  have h2 : at? (st.set i []) i = .ok [] := by simp [at?, hi]
  have h3 : at? (st.set i []) j = .ok b := by simp [at?, List.getElem?_set_ne hij, hb]
  constructor
  · rw [assign, clear, h1]
    simp only [Res.ok_bind, Res.pure_eq, Store.put]
    rw [append, h2, h3]
    simp [Store.put, List.set_set]
  · intro off count ho
    rw [assignSub, clear, h1]
    simp only [Res.ok_bind, Res.pure_eq, Store.put]
    rw [appendSub, h2, h3]
    simp [Store.put, List.set_set, show ¬ off > b.length by omega]

/-- Finding for C62.  Assigning a string to itself empties it, and `assign(s, off, count)` with itself empties it or throws. -/
theorem C62_finding_self_assign (st : Store) (i : Nat) (a : List Int) (ha : st[i]? = some a) (off count : Nat) :
    assign st i i = .ok (st.set i []) ∧ assignSub st i i 0 count = .ok (st.set i []) ∧
      (0 < off → assignSub st i i off count = .throw) := by
  have hi : i < st.length := (List.getElem?_eq_some_iff.mp ha).1
  have h1 : at? st i = .ok a := by simp [at?, ha]
  have h2 : at? (st.set i []) i = .ok [] := by simp [at?, hi]
  refine ⟨?_, ?_, fun ho => ?_⟩
  · rw [assign, clear, h1]
    simp only [Res.ok_bind, Res.pure_eq, Store.put]
    rw [append, h2]
    simp [Store.put, List.set_set]
  · rw [assignSub, clear, h1]
    simp only [Res.ok_bind, Res.pure_eq, Store.put]
    rw [appendSub, h2]
    simp [Store.put, List.set_set]
  · rw [assignSub, clear, h1]
    simp only [Res.ok_bind, Res.pure_eq, Store.put]
    rw [appendSub, h2]
    simp [ho]

/-- C62.  `pop_back` removes the last character; on an empty string it throws. -/
theorem C62_pop_back (a : List Int) (ha : a.length < 2 ^ 63) :
    (∀ c, popBack (a ++ [c]) = .ok a) ∧ popBack [] = .throw := by
  refine ⟨fun c => ?_, by decide⟩
  have : ((a ++ [c]).length + 2 ^ 64 - 1) % 2 ^ 64 = a.length := by simp only [List.length_append, List.length_singleton]; omega
  rw [popBack]
  simp only [this]
  simp

/-- C62.  The six comparison operators are those of the dictionary order of the code points, which is total. -/
theorem C62_operators (a b : List Int) :
    (eq a b = true ↔ a = b) ∧ (ne a b = true ↔ a ≠ b) ∧
    (lt a b = true ↔ Before (· < ·) a b) ∧ (gt a b = true ↔ Before (· < ·) b a) ∧
    (le a b = true ↔ Before (· < ·) a b ∨ a = b) ∧ (ge a b = true ↔ Before (· < ·) b a ∨ a = b) ∧
    (Before (· < ·) a b ∨ a = b ∨ Before (· < ·) b a) := by
  have h0 := compare_zero a b
  have h1 := compare_neg a b
  have h2 := compare_neg b a
  have h3 := compare_swap a b
  have h4 := compare_sign a b
  simp only [eq, ne, lt, gt, le, ge, decide_eq_true_eq]
  rw [← h0, ← h1, ← h2, h3]
  refine ⟨Iff.rfl, not_congr h0, ?_, ?_, ?_, ?_, ?_⟩ <;> omega

/-- C62.  The order of strings is the order of their UTF-8 forms as byte strings, so sorting `String` and sorting the
`std::string` forms give the same order. -/
theorem C62_byte_order (cs ds : List Nat) (hc : ∀ c ∈ cs, Scalar c) (hd : ∀ c ∈ ds, Scalar c) :
    (lt (chars cs) (chars ds) = true ↔ Before (· < ·) (utf8s cs) (utf8s ds)) ∧
    (eq (chars cs) (chars ds) = true ↔ utf8s cs = utf8s ds) := by
  refine ⟨?_, ?_⟩
  · rw [(C62_operators _ _).2.2.1]
    exact (before_cast cs ds).trans (utf8s_before_iff (fun c h => (hc c h).1) (fun c h => (hd c h).1))
  · rw [(C62_operators _ _).1]
    constructor
    · intro h
      have : cs = ds := by
        exact (List.map_inj_right (fun a b h => Int.ofNat.inj h)).mp h
      rw [this]
    · intro h
      rw [utf8s_inj cs ds hc hd h]

/-- C62.  Comparing with text in a `std::string`, on either side: as if both were text, if it is well-formed; for
ill-formed text see `C62_text_bad`. -/
theorem C62_text (cs ds : List Nat) (hc : ∀ c ∈ cs, Scalar c) (hd : ∀ c ∈ ds, Scalar c) (fuel : Nat)
    (hf : (utf8s ds).length < fuel) :
    onText eq fuel (chars cs) (utf8s ds) = .ok (decide (utf8s cs = utf8s ds)) ∧
    ∃ l : List Bool, textOps fuel (utf8s ds) (chars cs) = l.map Res.ok ∧ l.length = 6 ∧
      (l[0]? = some true ↔ utf8s ds = utf8s cs) ∧ (l[1]? = some true ↔ utf8s ds ≠ utf8s cs) ∧
      (l[4]? = some true ↔ Before (· < ·) (utf8s ds) (utf8s cs)) ∧ (l[5]? = some true ↔ Before (· < ·) (utf8s cs) (utf8s ds)) ∧
      (l[2]? = some true ↔ Before (· < ·) (utf8s ds) (utf8s cs) ∨ utf8s ds = utf8s cs) ∧
      (l[3]? = some true ↔ Before (· < ·) (utf8s cs) (utf8s ds) ∨ utf8s ds = utf8s cs) := by
  have ht : ∀ op, onText op fuel (chars cs) (utf8s ds) = .ok (op (chars cs) (chars ds)) := by
    intro op
    have := C62_assign_text [] ds hd fuel hf
    rw [assign8] at this
    rw [onText, this]; rfl
  obtain ⟨o1, o2, o3, o4, o5, o6, _⟩ := C62_operators (chars cs) (chars ds)
  obtain ⟨b1, b2⟩ := C62_byte_order cs ds hc hd
  obtain ⟨b3, b4⟩ := C62_byte_order ds cs hd hc
  have e1 : chars cs = chars ds ↔ utf8s cs = utf8s ds := o1.symm.trans b2
  have e2 : Before (· < ·) (chars cs) (chars ds) ↔ Before (· < ·) (utf8s cs) (utf8s ds) := o3.symm.trans b1
  have e3 : Before (· < ·) (chars ds) (chars cs) ↔ Before (· < ·) (utf8s ds) (utf8s cs) :=
    ((C62_operators (chars ds) (chars cs)).2.2.1.symm).trans b3
  rw [e1] at o1 o5 o6
  rw [ne_eq, e1] at o2
  rw [e2] at o3 o5
  rw [e3] at o4 o6
  refine ⟨?_, [eq (chars cs) (chars ds), ne (chars cs) (chars ds), ge (chars cs) (chars ds), le (chars cs) (chars ds),
    gt (chars cs) (chars ds), lt (chars cs) (chars ds)], by simp only [textOps, ht]; rfl, rfl, ?_⟩
  · rw [ht]
    congr 1
    rw [Bool.eq_iff_iff, o1]; simp
  · simp only [List.map_cons, List.map_nil, List.getElem?_cons_succ, List.getElem?_cons_zero, Option.some.injEq]
    refine ⟨o1.trans eq_comm, o2.trans ne_comm, o4, o3, o6.trans (or_congr Iff.rfl eq_comm), o5.trans (or_congr Iff.rfl eq_comm)⟩

/-- C62.  Comparing with ill-formed text is an exception, for every operator on either side. -/
theorem C62_text_bad (a : List Int) (s : List Nat) (hb : ∀ b ∈ s, b < 256) (hbad : ∀ ds : List Nat, (∀ c ∈ ds, Scalar c) → s ≠ utf8s ds)
    (fuel : Nat) (hf : s.length < fuel) :
    (∀ op, onText op fuel a s = .throw) ∧ textOps fuel s a = List.replicate 6 .throw := by
  have ht : ∀ op, onText op fuel a s = .throw := by
    intro op
    obtain ⟨cs, t, h1, h2, -, h4⟩ := C62_append_text [] s hb fuel hf
    have hne : t ≠ [] := by
      rintro rfl
      exact hbad cs h1 (by simpa using h2)
    rw [onText, h4, decide_eq_true hne]
    rfl
  refine ⟨ht, ?_⟩
  simp only [textOps, ht]
  rfl

example : onText eq 9 [0x61] [0x61, 0xff] = .throw := by decide +kernel

/-- C62.  The UTF-16 forms are ordered differently. -/
theorem C62_utf16_order_differs : ∃ a b, Scalar a ∧ Scalar b ∧ lt (chars [a]) (chars [b]) = true ∧
    Before (· < ·) (utf16s [b]) (utf16s [a]) := by
  refine ⟨0xe000, 0x10000, ⟨by omega, by omega⟩, ⟨by omega, by omega⟩, by decide, ?_⟩
  exact .head _ _ _ _ (by decide)

/-! ## Cases meeting the hypotheses -/

example : ∀ c ∈ [0x61, 0xe9, 0x3042, 0x1f600], Scalar c := by
  simp [Scalar]

example : Pieces [0x61, 0xff, 0x62] [0x61, 0x62] := by
  refine .good 0x61 _ _ (by simp [Scalar]) (.skip [0xff] [0x62] _ (by simp) (by simp) ?_ (.good 0x62 [] [] (by simp [Scalar]) .nil))
  rintro ⟨n, r, hn, h⟩
  have := decode_utf8 n hn r
  rw [← h] at this
  simp [getCharFromUtf8, within, Verif.StringOp.toUnsigned] at this

example : assign [[1, 2], [3]] 0 1 = .ok [[3], [3]] := by decide

#print axioms C62_text_bad
#print axioms C61_well_formed
#print axioms C61_strict
#print axioms C61_ignoring
#print axioms C61_finding_swallows
#print axioms C62_append_text
#print axioms C62_assign_text
#print axioms C62_finding_failed_assign
#print axioms C62_edit
#print axioms C62_assign_partial
#print axioms C62_finding_self_assign
#print axioms C62_pop_back
#print axioms C62_operators
#print axioms C62_byte_order
#print axioms C62_text
#print axioms C62_utf16_order_differs

end Verif.Props.UString
