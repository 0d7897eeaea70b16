import Verif.Proof.Config

/-! # C25, C26: configuration files -/
set_option linter.unusedSimpArgs false
namespace Verif.Props.Config

open Verif.Config Verif.Spec.Config

/-- Sections as the public API builds them: `append` on an empty section. -/
inductive SecBuilt : Section → Prop where
  | empty : SecBuilt []
  | append (s s' : Section) (k v : Str) : SecBuilt s → Section.append s k v = .ok s' → SecBuilt s'

/-- Configurations as the public API builds them. -/
inductive Built : Conf → Prop where
  | empty : Built []
  | appendSection (c c' : Conf) (n : Str) : Built c → appendSection c n = .ok c' → Built c'
  | appendTo (c c' : Conf) (n k v : Str) : Built c → appendTo c n k v = .ok c' → Built c'
  | appendSection2 (c c' : Conf) (n : Str) (s : Section) : Built c → SecBuilt s → appendSection2 c n s = .ok c' → Built c'
  | load (c c' : Conf) (text : Str) : Built c → load c text = .ok c' → Built c'

theorem SecBuilt.valid {s : Section} (h : SecBuilt s) : SecValid s := by
  induction h with
  | empty => simp [SecValid, Sorted]
  | append s s' k v _ h ih => exact append_valid s s' k v ih h

theorem Built.valid {c : Conf} (h : Built c) : Valid c := by
  induction h with
  | empty => simp [Valid, Sorted]
  | appendSection c c' n _ h ih => exact appendSection_valid c c' n ih h
  | appendTo c c' n k v _ h ih => exact appendTo_valid c c' n k v ih h
  | appendSection2 c c' n s _ hs h ih =>
    rw [Verif.Config.appendSection2, Res.bind_eq_ok] at h
    obtain ⟨c1, h1, h2⟩ := h
    simp only [Res.pure_eq] at h2
    injection h2 with h2
    subst h2
    exact assign_valid c1 n s (appendSection_valid c c1 n ih h1) hs.valid
  | load c c' text _ h ih => exact load_valid c c' text ih h

/-- C25: printing a configuration made by the API and loading the text gives the same configuration; only the global section
`""`, which `load` always makes, is added when it was absent. -/
theorem C25_roundtrip (c : Conf) (hb : Built c) (hval : ∀ p ∈ c, ∀ q ∈ p.2, 10 ∉ q.2 ∧ q.2.getLast? ≠ some 13) :
    load [] (toString c) = .ok (if (querySection c []).isSome then c else ([], []) :: c) := load_print c hb.valid hval

/-- C25: seen through the queries: every key of every section has the same value, and the sections other than the global one
are the same. -/
theorem C25_roundtrip_queries (c : Conf) (hb : Built c) (hval : ∀ p ∈ c, ∀ q ∈ p.2, 10 ∉ q.2 ∧ q.2.getLast? ≠ some 13) :
    ∃ c', load [] (toString c) = .ok c' ∧ (∀ s, s ≠ [] → querySection c' s = querySection c s) ∧
      ∀ s k, ((querySection c' s).bind fun m => Section.queryValue m k) = ((querySection c s).bind fun m => Section.queryValue m k) := by
  refine ⟨_, C25_roundtrip c hb hval, ?_, ?_⟩
  · intro s hs
    split
    · rfl
    · simp [querySection, mapFind, show ¬ ([] : Str) = s from fun h => hs h.symm]
  · intro s k
    split
    · rfl
    · rename_i h
      by_cases hs : s = []
      · subst hs
        have : querySection c [] = none := by simpa using h
        rw [this]
        simp [querySection, mapFind, Section.queryValue]
      · simp [querySection, mapFind, show ¬ ([] : Str) = s from fun h => hs h.symm]

theorem mapFind_place {β : Type} (m : List (Str × β)) (x : Str × β) (h : m.any (fun y => y.1 = x.1) = false) (k : Str) :
    mapFind (place m x) k = if k = x.1 then some x.2 else mapFind m k := by
  induction m with
  | nil =>
    by_cases e : x.1 = k
    · simp [place, mapFind, e]
    · simp [place, mapFind, e, show ¬ k = x.1 from fun g => e g.symm]
  | cons y ys ih =>
    simp only [List.any_cons, Bool.or_eq_false_iff, decide_eq_false_iff_not] at h
    rw [place]
    split
    · by_cases e : x.1 = k
      · simp [mapFind, e]
      · simp [mapFind, e, show ¬ k = x.1 from fun g => e g.symm]
    · have ih := ih h.2
      simp only [mapFind] at ih ⊢
      rw [List.find?_cons, List.find?_cons]
      by_cases e : y.1 = k
      · simp [e, show ¬ k = x.1 from fun g => h.1 (e.trans g)]
      · simp only [e, decide_false]; exact ih

/-- C25: `append` throws exactly if the key has a character that names do not have or is there already; otherwise the key has the value
afterwards and the other keys are as before.  It never is undefined. -/
theorem C25_append (s : Section) (key value : Str) :
    (¬ Name key ∨ (Section.queryValue s key).isSome → Section.append s key value = .throw) ∧
    (Name key → Section.queryValue s key = none → ∃ s', Section.append s key value = .ok s' ∧
      ∀ k, Section.queryValue s' k = if k = key then some value else Section.queryValue s k) := by
  have hq : (Section.queryValue s key).isSome = s.any (fun y => y.1 = key) := by
    rw [Section.queryValue, mapFind, Option.isSome_map, Bool.eq_iff_iff, List.find?_isSome, List.any_eq_true]
  constructor
  · rintro (h | h)
    · have : isName key = false := by
        cases hn : isName key with
        | false => rfl
        | true => exact absurd ((isName_iff key).mp hn) h
      simp [Section.append, this]
    · rw [hq] at h
      rw [Section.append, mapInsert, if_pos h]
      split <;> rfl
  · intro h1 h2
    rw [h2] at hq
    have hq' : s.any (fun y => y.1 = key) = false := hq.symm
    refine ⟨place s (key, value), ?_, fun k => mapFind_place s (key, value) hq' k⟩
    simp only [Section.append, mapInsert, (isName_iff key).mpr h1, hq', Bool.not_true, Bool.false_eq_true, if_false]

/-- C25: `appendSection` throws exactly if the name has a character that names do not have. -/
theorem C25_append_section (c : Conf) (name : Str) :
    (¬ Name name → appendSection c name = .throw) ∧ (Name name → ∃ c', appendSection c name = .ok c' ∧
      ∀ n, querySection c' n = if n = name ∧ querySection c name = none then some [] else querySection c n) := by
  constructor
  · intro h
    have : isName name = false := by
      cases hn : isName name with
      | false => rfl
      | true => exact absurd ((isName_iff name).mp hn) h
    simp [appendSection, this]
  · intro h
    have hq : (querySection c name).isSome = c.any (fun y => y.1 = name) := by
      rw [querySection, mapFind, Option.isSome_map, Bool.eq_iff_iff, List.find?_isSome, List.any_eq_true]
    rw [appendSection, if_neg (by simp [(isName_iff name).mpr h])]
    refine ⟨_, rfl, fun n => ?_⟩
    rw [mapInsert]
    cases ha : c.any (fun y => y.1 = name) with
    | true =>
      rw [ha] at hq
      have : querySection c name ≠ none := by intro g; rw [g] at hq; cases hq
      rw [if_pos rfl, if_neg (by simp [this])]
    | false =>
      rw [ha] at hq
      have : querySection c name = none := by simpa using hq
      rw [if_neg (by simp)]
      rw [show querySection (place c (name, [])) n = _ from mapFind_place c (name, []) ha n]
      simp only [this, and_true]
      rfl

/-- C25: equal texts mean equal configurations. -/
theorem C25_text_injective (c d : Conf) (hc : Built c) (hd : Built d) (hvc : ∀ p ∈ c, ∀ q ∈ p.2, 10 ∉ q.2 ∧ q.2.getLast? ≠ some 13)
    (hvd : ∀ p ∈ d, ∀ q ∈ p.2, 10 ∉ q.2 ∧ q.2.getLast? ≠ some 13) (h : Config.toString c = Config.toString d)
    (hg : (querySection c []).isSome = (querySection d []).isSome) : c = d := by
  have h1 := C25_roundtrip c hc hvc
  have h2 := C25_roundtrip d hd hvd
  rw [h, h2, hg] at h1
  injection h1 with h1
  split at h1
  · exact h1.symm
  · exact (List.cons.inj h1).2.symm

/-- C25: a configuration with a global entry, a section, and values containing '=', ';' and '['. -/
example : ∃ c, Built c ∧ c = [([], [([97], [61, 59, 91])]), ([98], [([99], []), ([100], [35])])] ∧
    ∀ p ∈ c, ∀ q ∈ p.2, 10 ∉ q.2 ∧ q.2.getLast? ≠ some 13 := by
  refine ⟨[([], [([97], [61, 59, 91])]), ([98], [([99], []), ([100], [35])])], ?_, rfl, by decide⟩
  refine .load [] _ [97, 61, 61, 59, 91, 10, 91, 98, 93, 10, 100, 61, 35, 10, 99, 61, 10] .empty ?_
  decide +kernel

/-- C25, necessity: a value with LF does not survive, nor does one that ends in CR. -/
theorem C25_value_limits :
    (do let c ← appendSection [] []; let c ← appendTo c [] [97] [49, 13]; load [] (toString c)) = .ok [([], [([97], [49])])] ∧
    (do let c ← appendSection [] []; let c ← appendTo c [] [97] [49, 10, 50]; load [] (toString c)) = .throw := ⟨by decide +kernel, by decide +kernel⟩

/-- C26: the lines of the text are read as the grammar of the comment says (with possibly empty names), and the configuration
then has exactly the entries and sections of the text.  Missing from the full claim: names need not be non-empty (see
`C26_empty_names_accepted`). -/
theorem C26_load_iff_partial (text : Str) :
    ((∃ c, load [] text = .ok c) ↔ ∃ items, Says (linesFrom [] text) items ∧ NoRepeat (entries [] items)) ∧
    (∀ c items, load [] text = .ok c → Says (linesFrom [] text) items →
      (∀ s k v, ((querySection c s).bind fun m => Section.queryValue m k) = some v ↔ (s, k, v) ∈ entries [] items) ∧
      (∀ s, (querySection c s).isSome = true ↔ s ∈ sections items)) := by
  have hl : load [] text = loadLines (mapInsert ([] : Conf) ([], [])).1 [] (linesFrom [] text) := by
    rw [load, appendSection, if_neg (by simp [isName]), getlines_eq]; rfl
  have key : ∀ items, Says (linesFrom [] text) items →
      (NoRepeat (entries [] items) ∧ ∃ c', load [] text = .ok c' ∧ Rep c' (entries [] items) ([[]] ++ names items)) ∨
      (¬ NoRepeat (entries [] items) ∧ load [] text = .throw) := by
    intro items h
    have := loadItems_spec items _ [] [] [[]] rep_empty (by simp [NoRepeat]) (by simp) (says_ok _ _ h)
    rw [← loadLines_says _ _ h, ← hl] at this
    simpa using this
  refine ⟨⟨?_, ?_⟩, ?_⟩
  · rintro ⟨c, hc⟩
    obtain ⟨items, hi⟩ := loadLines_ok _ _ _ _ (hl ▸ hc)
    refine ⟨items, hi, ?_⟩
    rcases key items hi with ⟨h, _⟩ | ⟨_, h⟩
    · exact h
    · rw [h] at hc; cases hc
  · rintro ⟨items, hi, hn⟩
    rcases key items hi with ⟨_, c', h, _⟩ | ⟨h, _⟩
    · exact ⟨c', h⟩
    · exact absurd hn h
  · intro c items hc hi
    rcases key items hi with ⟨_, c', h, hr⟩ | ⟨_, h⟩
    · rw [h] at hc
      injection hc with hc
      subst hc
      exact ⟨hr.entries, hr.secs⟩
    · rw [h] at hc; cases hc

/-- C26: a text that is not accepted makes `load` throw; nothing is undefined. -/
theorem C26_refusal_throws (text : Str) : load [] text ≠ .ub := by
  have hl : load [] text = loadLines (mapInsert ([] : Conf) ([], [])).1 [] (linesFrom [] text) := by
    rw [load, appendSection, if_neg (by simp [isName]), getlines_eq]; rfl
  have aux : ∀ (ls : List Str) (c : Conf) (sec : Str) (E : List (Str × Str × Str)) (S : List Str), Rep c E S → sec ∈ S →
      loadLines c sec ls ≠ .ub := by
    intro ls
    induction ls with
    | nil => intro c sec E S _ _; simp [loadLines]
    | cons l ls ih =>
      intro c sec E S hr hs
      by_cases hi : ∃ i, Line (chomp l) i
      · obtain ⟨i, hi⟩ := hi
        rw [loadLines, loadLine_line c sec l i hi]
        have hok := line_ok _ _ hi
        cases i with
        | skip => exact ih c sec E S hr hs
        | «section» n =>
          simp only [applyItem, appendSection]
          rw [if_neg (by simp [(isName_iff n).mpr hok])]
          exact ih _ n E (S ++ [n]) (hr.section n) (by simp)
        | entry k v =>
          simp only [applyItem]
          rcases appendTo_ok hr sec k v hs hok with ⟨_, ht⟩ | ⟨_, c', h1, h2⟩
          · rw [ht]; simp
          · rw [h1]; exact ih c' sec _ S h2 hs
      · rw [loadLines, loadLine_bad c sec l hi]; simp
  rw [hl]
  exact aux _ _ _ [] [[]] rep_empty (by simp)

/-- The names of an item are not empty. -/
def NonEmpty : Item → Prop
  | .skip => True
  | .section n => n ≠ []
  | .entry k _ => k ≠ []

/-- C26: every text of the documented grammar (non-empty names) without repeated keys is accepted, and has the documented
meaning. -/
theorem C26_documented_accepted (text : Str) (items : List Item) (h : Says (linesFrom [] text) items) (_hne : ∀ i ∈ items, NonEmpty i)
    (hn : NoRepeat (entries [] items)) :
    ∃ c, load [] text = .ok c ∧ ∀ s k v, ((querySection c s).bind fun m => Section.queryValue m k) = some v ↔ (s, k, v) ∈ entries [] items := by
  obtain ⟨c, hc⟩ := (C26_load_iff_partial text).1.mpr ⟨items, h, hn⟩
  exact ⟨c, hc, ((C26_load_iff_partial text).2 c items hc h).1⟩

/-- C26: the value of a key is exactly what follows the first '=': a text of one entry. -/
theorem C26_single_entry (key sp value : Str) (hk : ∀ c ∈ key, NameChar c) (hs : ∀ c ∈ sp, c = 32 ∨ c = 9) (hv : 10 ∉ value)
    (hcr : value.getLast? ≠ some 13) :
    load [] (key ++ sp ++ [61] ++ value ++ [10]) = .ok [([], [(key, value)])] := by
  have h10 : 10 ∉ key ++ sp ++ [61] ++ value := by
    have h1 : 10 ∉ key := name_not key hk 10 (by simp [NameChar])
    have h2 : 10 ∉ sp := fun h => by simpa using hs _ h
    simp [h1, h2, hv]
  rw [load, appendSection, if_neg (by simp [isName])]
  simp only [Res.ok_bind]
  rw [getlines_line _ _ h10, loadLines, List.nil_append, loadLine_line _ _ _ (.entry key value)]
  · simp only [applyItem]
    rw [appendTo]
    simp [mapInsert, place, querySection, mapFind, Section.append, (isName_iff key).mpr hk, assign, loadLines, getlines]
  · rw [chomp_of]
    · exact .entry key sp value hk hs
    · by_cases hq2 : value = []
      · rw [hq2]; simp
      · rw [List.getLast?_append, List.getLast?_eq_some_getLast hq2]
        rw [List.getLast?_eq_some_getLast hq2] at hcr
        simpa using hcr

example : load [] [97, 32, 61, 32, 61, 10] = .ok [([], [([97], [32, 61])])] := by decide +kernel

/-- The hypotheses of C26 hold for "; x\r\n[a]\nb \t=1\n". -/
example : ∃ items, Says (linesFrom [] [59, 32, 120, 13, 10, 91, 97, 93, 10, 98, 32, 9, 61, 49, 10]) items ∧ NoRepeat (entries [] items) ∧
    entries [] items = [([97], [98], [49])] ∧ ∀ i ∈ items, NonEmpty i := by
  refine ⟨[.skip, .section [97], .entry [98] [49]], ?_, by simp [NoRepeat, entries], rfl, by simp [NonEmpty]⟩
  refine .cons _ _ _ _ (.comment 59 [32, 120] (by simp)) (.cons _ _ _ _ (.section [97] (by simp [Name, NameChar])) (.cons _ _ _ _
    (.entry [98] [32, 9] [49] (by simp [Name, NameChar]) (by simp)) .nil))

/-- C26, finding: the grammar of the comment has non-empty names, but `load` accepts "[]" (which is then the global section)
and "=v". -/
theorem C26_empty_names_accepted :
    load [] [91, 93, 10, 97, 61, 49, 10] = .ok [([], [([97], [49])])] ∧ load [] [61, 118, 10] = .ok [([], [([], [118])])] := ⟨by decide +kernel, by decide +kernel⟩

/-- C26, finding: a CR inside a value is kept, only the one before the line end is removed. -/
theorem C26_cr_inside_value : load [] [97, 61, 49, 13, 50, 13, 13, 10] = .ok [([], [([97], [49, 13, 50, 13])])] := by decide +kernel

/-- C26: a repeated key is refused, a repeated section continues the earlier one. -/
theorem C26_repeats :
    load [] [97, 61, 49, 10, 97, 61, 50, 10] = .throw ∧
    load [] [91, 97, 93, 10, 98, 61, 49, 10, 91, 99, 93, 10, 91, 97, 93, 10, 100, 61, 50, 10] =
      .ok [([], []), ([97], [([98], [49]), ([100], [50])]), ([99], [])] := ⟨by decide +kernel, by decide +kernel⟩

/-- Both cases of `C25_append` occur. -/
example : Section.append [([97], [49])] [98] [50] = .ok [([97], [49]), ([98], [50])] ∧ Section.append [([97], [49])] [97] [50] = .throw ∧
    Section.append [] [45] [50] = .throw := by decide

#print axioms C25_append
#print axioms C25_append_section
#print axioms C25_roundtrip
#print axioms C25_roundtrip_queries
#print axioms C25_text_injective
#print axioms C26_load_iff_partial
#print axioms C26_refusal_throws
#print axioms C26_documented_accepted
#print axioms C26_single_entry

end Verif.Props.Config
