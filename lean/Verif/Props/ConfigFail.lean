import Verif.Model.ConfigFail
import Verif.Props.Config

/-!
# C165: a configuration after a `load` that threw
-/
set_option linter.unusedSimpArgs false

namespace Verif.Props.ConfigFail
open Verif.ConfigFail
open Verif.Config Verif.Spec.Config

/-- The outcome as in C26, where an exception ends everything. -/
def plain : Kept → Res Conf
  | .ok c => .ok c
  | .threw .. => .throw
  | .ub => .ub

theorem lines_same (ls : List Str) : ∀ c sec, plain (keepLines c sec ls) = loadLines c sec ls := by
  induction ls with
  | nil => intro c sec; rfl
  | cons l ls ih =>
    intro c sec
    rw [keepLines, loadLines]
    cases h : loadLine c sec l with
    | ok p => exact ih p.1 p.2
    | throw => rfl
    | ub => rfl

/-- C165: this is the `load` of C26, with what is left after an exception added. -/
theorem C165_same (c : Conf) (text : Str) : plain (loadKeep c (getlines [] text)) = load c text := by
  rw [loadKeep, load]
  cases h : appendSection c [] with
  | ok c => exact lines_same _ _ _
  | throw => rfl
  | ub => rfl

theorem keep_prefix (ls : List Str) : ∀ c sec c' rest, keepLines c sec ls = .threw c' rest →
    ∃ pre bad, ls = pre ++ bad :: rest ∧ loadLines c sec pre = .ok c' ∧ loadLines c sec (pre ++ [bad]) = .throw := by
  induction ls with
  | nil => intro c sec c' rest h; simp [keepLines] at h
  | cons l ls ih =>
    intro c sec c' rest h
    rw [keepLines] at h
    cases hl : loadLine c sec l with
    | ok p =>
      rw [hl] at h
      obtain ⟨pre, bad, h1, h2, h3⟩ := ih p.1 p.2 c' rest h
      refine ⟨l :: pre, bad, by rw [h1]; rfl, ?_, ?_⟩
      · rw [loadLines, hl]; exact h2
      · rw [List.cons_append, loadLines, hl]; exact h3
    | throw =>
      rw [hl] at h
      simp only [Kept.threw.injEq] at h
      obtain ⟨rfl, rfl⟩ := h
      exact ⟨[], l, rfl, rfl, by rw [List.nil_append, loadLines, hl]; rfl⟩
    | ub => rw [hl] at h; simp at h

/-- C165: after an exception a new object has exactly the entries of the lines before the line that was refused, and the stream is behind that line. -/
theorem C165_prefix (lines : List Str) (c' : Conf) (rest : List Str) (h : loadKeep [] lines = .threw c' rest) :
    ∃ pre bad items, lines = pre ++ bad :: rest ∧ Says pre items ∧ (∀ s k v, query c' s k = some v ↔ (s, k, v) ∈ entries [] items) ∧
      ¬ ∃ more, Says (pre ++ [bad]) more ∧ NoRepeat (entries [] more) := by
  have h0 : appendSection [] [] = .ok (mapInsert ([] : Conf) ([], [])).1 := rfl
  rw [loadKeep, h0] at h
  obtain ⟨pre, bad, h1, h2, h3⟩ := keep_prefix _ _ _ _ _ h
  obtain ⟨items, hi⟩ := loadLines_ok _ _ _ _ h2
  refine ⟨pre, bad, items, h1, hi, ?_, ?_⟩
  · rw [loadLines_says _ _ hi] at h2
    rcases loadItems_spec items _ [] [] [[]] rep_empty .nil (by simp) (says_ok _ _ hi) with ⟨_, c2, h4, h5⟩ | ⟨_, h4⟩
    · rw [h4] at h2
      cases h2
      exact h5.entries
    · rw [h4] at h2; simp at h2
  · rintro ⟨more, hm, hn⟩
    rw [loadLines_says _ _ hm] at h3
    rcases loadItems_spec more _ [] [] [[]] rep_empty .nil (by simp) (says_ok _ _ hm) with ⟨_, c2, h4, _⟩ | ⟨h4, _⟩
    · rw [h4] at h3; simp at h3
    · exact h4 hn

/-- A line throws, or goes on with a section that is there and everything found that was found before. -/
theorem line_keeps (c : Conf) (sec line : Str) (hs : (querySection c sec).isSome = true) :
    loadLine c sec line = .throw ∨
    ∃ c' sec', loadLine c sec line = .ok (c', sec') ∧ (querySection c' sec').isSome = true ∧ ∀ s k v, query c s k = some v → query c' s k = some v := by
  by_cases hl : ∃ i, Line (chomp line) i
  · obtain ⟨i, hi⟩ := hl
    rw [loadLine_line c sec line i hi]
    cases i with
    | skip => exact .inr ⟨c, sec, rfl, hs, fun _ _ _ h => h⟩
    | «section» n =>
      rw [applyItem, appendSection]
      by_cases hn : isName n = true
      · right
        rw [if_neg (by simp [hn])]
        refine ⟨_, n, rfl, ?_, ?_⟩
        · rw [appendSection_find]
          split
          · assumption
          · simp
        · intro s k v h
          rw [query, appendSection_find]
          rw [query] at h
          split
          · exact h
          · rename_i hq
            split
            · rename_i he
              subst he
              rw [Option.not_isSome_iff_eq_none.mp hq] at h
              simp at h
            · exact h
      · left
        rw [if_pos (by simp [hn])]
        rfl
    | entry k v =>
      obtain ⟨m, hm⟩ := Option.isSome_iff_exists.mp hs
      rw [applyItem, appendTo, hm]
      simp only [Section.append]
      by_cases hk : isName k = true
      · rw [if_neg (by simp [hk])]
        have hfi := fun k' => mapFind_insert m (k, v) k'
        by_cases hex : (mapFind m k).isSome = true
        · left
          rw [mapInsert, if_pos ((any_iff m k).mpr hex)]
          rfl
        · right
          simp only [hex, Bool.false_eq_true, if_false] at hfi
          rw [mapInsert, if_neg (fun h' => hex ((any_iff m k).mp h'))] at hfi ⊢
          refine ⟨_, sec, rfl, ?_, ?_⟩
          · rw [querySection, mapFind_assign, if_pos rfl, show mapFind c sec = some m from hm]; rfl
          · intro s k' v' h
            rw [query, querySection, mapFind_assign]
            by_cases hss : s = sec
            · subst hss
              rw [query, hm] at h
              rw [if_pos rfl, show mapFind c s = some m from hm]
              simp only [Option.map_some, Option.bind_some, Section.queryValue] at h ⊢
              rw [hfi k']
              by_cases hkk : k' = k
              · subst hkk
                rw [h] at hex
                exact absurd rfl hex
              · rw [if_neg hkk]; exact h
            · rw [if_neg hss]; exact h
      · left
        rw [if_pos (by simp [hk])]
        rfl
  · exact .inl (loadLine_bad c sec line hl)

theorem lines_keeps (ls : List Str) : ∀ c sec, (querySection c sec).isSome = true →
    (∃ c', keepLines c sec ls = .ok c' ∧ ∀ s k v, query c s k = some v → query c' s k = some v) ∨
    ∃ c' rest, keepLines c sec ls = .threw c' rest ∧ rest.length < ls.length ∧ ∀ s k v, query c s k = some v → query c' s k = some v := by
  induction ls with
  | nil => intro c sec _; exact .inl ⟨c, rfl, fun _ _ _ h => h⟩
  | cons l ls ih =>
    intro c sec hs
    rw [keepLines]
    rcases line_keeps c sec l hs with h | ⟨c1, sec1, h, hs1, hk⟩
    · rw [h]
      exact .inr ⟨c, ls, rfl, by simp, fun _ _ _ h => h⟩
    · rw [h]
      rcases ih c1 sec1 hs1 with ⟨c', h1, h2⟩ | ⟨c', rest, h1, h2, h3⟩
      · exact .inl ⟨c', h1, fun s k v h => h2 s k v (hk s k v h)⟩
      · exact .inr ⟨c', rest, h1, by rw [List.length_cons]; omega, fun s k v h => h3 s k v (hk s k v h)⟩

/-- C165: whatever was in the object, `load` ends normally or with an exception behind a line it took, and either way every value that could be
queried before is still the answer to the same query. -/
theorem C165_kept (c : Conf) (lines : List Str) :
    (∃ c', loadKeep c lines = .ok c' ∧ ∀ s k v, query c s k = some v → query c' s k = some v) ∨
    ∃ c' rest, loadKeep c lines = .threw c' rest ∧ rest.length < lines.length ∧ ∀ s k v, query c s k = some v → query c' s k = some v := by
  have h0 : appendSection c [] = .ok (mapInsert c ([], [])).1 := rfl
  have hs : (querySection (mapInsert c ([], [])).1 []).isSome = true := by
    rw [appendSection_find]
    split
    · assumption
    · simp
  have hk : ∀ s k v, query c s k = some v → query (mapInsert c ([], [])).1 s k = some v := by
    intro s k v h
    rw [query] at h ⊢
    rw [appendSection_find]
    split
    · exact h
    · rename_i hq
      split
      · rename_i he
        subst he
        rw [Option.not_isSome_iff_eq_none.mp hq] at h
        simp at h
      · exact h
  rw [loadKeep, h0]
  rcases lines_keeps lines _ [] hs with ⟨c', h1, h2⟩ | ⟨c', rest, h1, h2, h3⟩
  · exact .inl ⟨c', h1, fun s k v h => h2 s k v (hk s k v h)⟩
  · exact .inr ⟨c', rest, h1, h2, fun s k v h => h3 s k v (hk s k v h)⟩

/-- C165: a program that catches the exceptions and loads on from the same stream comes to its end, after at most one exception per line, with
everything kept that it had. -/
theorem C165_ends (n : Nat) : ∀ (c : Conf) (lines : List Str), lines.length < n →
    ∃ c' m, goOn n c lines = some (c', m) ∧ m ≤ lines.length ∧ ∀ s k v, query c s k = some v → query c' s k = some v := by
  induction n with
  | zero => intro c lines h; omega
  | succ n ih =>
    intro c lines h
    rw [goOn]
    rcases C165_kept c lines with ⟨c', h1, h2⟩ | ⟨c1, rest, h1, h2, h3⟩
    · rw [h1]
      exact ⟨c', 0, rfl, by omega, h2⟩
    · rw [h1]
      obtain ⟨c', m, h4, h5, h6⟩ := ih c1 rest (by omega)
      exact ⟨c', m + 1, by simp only [h4, Option.map_some], by omega, fun s k v h => h6 s k v (h3 s k v h)⟩

/-- C165 (finding): the section is forgotten.  For every name `n` of a section, key and value, a bad line between `[n]` and `key=value` lets the load
that goes on put the entry into the global section: the section has no entry, and a query without section finds it. -/
theorem C165_finding_section (n key value : Str) (hn : Name n) (hne : n ≠ []) (hk : Name key) (hv : value.getLast? ≠ some 13) :
    ∃ c, goOn 2 [] [[0x5b] ++ n ++ [0x5d], [0x3f], key ++ [0x3d] ++ value] = some (c, 1) ∧ query c n key = none ∧ query c [] key = some value := by
  have l1 (c : Conf) (sec : Str) : loadLine c sec ([0x5b] ++ n ++ [0x5d]) = applyItem c sec (.section n) := by
    apply loadLine_line
    have : chomp ([0x5b] ++ n ++ [0x5d]) = [0x5b] ++ n ++ [0x5d] := by
      rw [chomp, if_neg]
      rw [List.getLast?_append]
      simp
    rw [this]
    exact .section n hn
  have l2 (c : Conf) (sec : Str) : loadLine c sec [0x3f] = .throw := by rfl
  have l3 (c : Conf) (sec : Str) : loadLine c sec (key ++ [0x3d] ++ value) = applyItem c sec (.entry key value) := by
    apply loadLine_line
    have : chomp (key ++ [0x3d] ++ value) = key ++ [0x3d] ++ value := by
      rw [chomp, if_neg]
      intro h
      cases value with
      | nil => simp at h
      | cons a v =>
        rw [List.getLast?_append] at h
        cases hg : (a :: v).getLast? with
        | none => simp at hg
        | some y => rw [hg] at h; rw [hg] at hv; exact hv (by simpa using h)
    rw [this]
    have := Line.entry key [] value hk (by simp)
    simpa using this
  have a0 (c : Conf) : appendSection c [] = .ok (mapInsert c ([], [])).1 := rfl
  have an (c : Conf) : appendSection c n = .ok (mapInsert c (n, [])).1 := by
    rw [appendSection, if_neg (by simp [(isName_iff n).mpr hn])]
  have r1 := (rep_empty.section n).section []
  rcases appendTo_ok r1 [] key value (by simp) hk with ⟨⟨v', h⟩, _⟩ | ⟨_, c', h1, h2⟩
  · simp at h
  · refine ⟨c', ?_, ?_, ?_⟩
    · simp only [goOn, loadKeep, a0, keepLines, l1, l2, l3, applyItem, an, Res.ok_bind, Res.pure_eq, h1, Option.map_some]
    · cases hq : query c' n key with
      | none => rfl
      | some v =>
        have := (h2.entries n key v).mp hq
        simp [hne] at this
    · exact (h2.entries [] key value).mpr (by simp)

/-- `x=1`, `[a]`, `?`, `y=2`: the first load leaves `x=1` and the empty section `a`, with `y=2` not read. -/
example : loadKeep [] [[120, 61, 49], [91, 97, 93], [63], [121, 61, 50]] =
    .threw [([], [([120], [49])]), ([97], [])] [[121, 61, 50]] := by decide +kernel
/-- A key that is there already: the first value stays. -/
example : loadKeep [] [[120, 61, 49], [120, 61, 50], [121, 61, 50]] = .threw [([], [([120], [49])])] [[121, 61, 50]] := by decide +kernel
example : Name [97] ∧ ([97] : Str) ≠ [] ∧ Name [121] ∧ ([50] : Str).getLast? ≠ some 13 :=
  ⟨(isName_iff _).mp (by decide), by decide, (isName_iff _).mp (by decide), by decide⟩

end Verif.Props.ConfigFail

#print axioms Verif.Props.ConfigFail.C165_same
#print axioms Verif.Props.ConfigFail.C165_prefix
#print axioms Verif.Props.ConfigFail.C165_kept
#print axioms Verif.Props.ConfigFail.C165_ends
#print axioms Verif.Props.ConfigFail.C165_finding_section
