import Verif.Model.FileName

/-!
# C56: file name helpers

`46` is `'.'`, `92` is `'\\'`, `47` is `'/'`.
-/
namespace Verif.Props.FileName

open Verif.FileName

theorem memEq_eq (name ext : List UInt8) (b : Nat) : ∀ (n i : Nat), b + i + n ≤ name.length → i + n ≤ ext.length →
    ∃ r, memEq name ext b n i = .ok r ∧ (r = true ↔ (name.drop (b + i)).take n = (ext.drop i).take n) := by
  intro n
  induction n with
  | zero => intro i _ _; exact ⟨true, rfl, by simp⟩
  | succ n ih =>
    intro i h1 h2
    rw [memEq, at?_eq_ok (by omega), Res.ok_bind, at?_eq_ok (by omega), Res.ok_bind]
    rw [List.drop_eq_getElem_cons (show b + i < name.length by omega),
      List.drop_eq_getElem_cons (show i < ext.length by omega), List.take_succ_cons, List.take_succ_cons]
    by_cases h : name[b + i] = ext[i]
    · rw [if_pos h]
      obtain ⟨r, e, hr⟩ := ih (i + 1) (by omega) (by omega)
      refine ⟨r, e, ?_⟩
      rw [hr, List.cons.injEq, show b + (i + 1) = b + i + 1 by omega]
      simp [h]
    · rw [if_neg h]
      exact ⟨false, rfl, by simp [h]⟩

/-- `HasExtension(name, e)` never reads outside and holds iff `e` is empty or the name ends with
`'.' + e`. -/
theorem C56_has_extension (name ext : List UInt8) :
    ∃ r, hasExtension name ext = .ok r ∧ (r = true ↔ ext = [] ∨ ∃ pre, name = pre ++ 46 :: ext) := by
  rw [hasExtension]
  by_cases h0 : ext.length = 0
  · rw [if_pos h0]
    exact ⟨true, rfl, by simp [List.eq_nil_of_length_eq_zero h0]⟩
  · rw [if_neg h0]
    have hne : ext ≠ [] := by rintro rfl; simp at h0
    by_cases h1 : name.length < ext.length + 1
    · rw [if_pos h1]
      refine ⟨false, rfl, ?_⟩
      simp only [Bool.false_eq_true, false_iff, not_or]
      refine ⟨hne, ?_⟩
      rintro ⟨pre, rfl⟩
      simp at h1; omega
    · rw [if_neg h1, dotAndExt]
      generalize hb : name.length - ext.length - 1 = b
      have hbl : b < name.length := by omega
      rw [at?_eq_ok hbl, Res.ok_bind]
      have hsplit : ∀ pre, name = pre ++ 46 :: ext ↔ pre = name.take b ∧ name[b] = 46 ∧ name.drop (b + 1) = ext := by
        intro pre
        constructor
        · intro h
          have hpl : pre.length = b := by rw [h] at hb; simp at hb; omega
          subst hpl
          refine ⟨by rw [h, List.take_left], ?_, ?_⟩
          · simp only [h]; rw [List.getElem_append_right (Nat.le_refl _)]; simp
          · rw [h, List.drop_append, List.drop_eq_nil_of_le (by omega)]; simp
        · rintro ⟨rfl, h2, h3⟩
          rw [← h3, ← h2, ← List.drop_eq_getElem_cons hbl, List.take_append_drop]
      by_cases hdot : name[b] = 46
      · rw [if_pos hdot]
        obtain ⟨r, e, hr⟩ := memEq_eq name ext (b + 1) ext.length 0 (by omega) (by omega)
        refine ⟨r, e, ?_⟩
        rw [hr, Nat.add_zero, List.drop_zero, List.take_length, List.take_of_length_le (by simp; omega)]
        constructor
        · intro h; exact Or.inr ⟨name.take b, (hsplit _).mpr ⟨rfl, hdot, h⟩⟩
        · rintro (h | ⟨pre, h⟩)
          · exact absurd h hne
          · exact ((hsplit _).mp h).2.2
      · rw [if_neg hdot]
        refine ⟨false, rfl, ?_⟩
        simp only [Bool.false_eq_true, false_iff, not_or]
        refine ⟨hne, ?_⟩
        rintro ⟨pre, h⟩
        exact hdot ((hsplit _).mp h).2.1

theorem findLast_eq (c : UInt8) (name : List UInt8) : ∀ n, n ≤ name.length →
    (findLast c name n = none ∧ c ∉ name.take n) ∨
    ∃ pos, findLast c name n = some pos ∧ pos < n ∧ name[pos]? = some c ∧ c ∉ (name.take n).drop (pos + 1) := by
  intro n
  induction n with
  | zero => intro _; left; exact ⟨rfl, by simp⟩
  | succ n ih =>
    intro h
    have ht : name.take (n + 1) = name.take n ++ [name[n]] := by
      rw [List.take_succ, List.getElem?_eq_getElem (by omega)]; rfl
    rw [findLast]
    by_cases hc : name[n]? = some c
    · rw [if_pos hc]
      right
      refine ⟨n, rfl, by omega, hc, ?_⟩
      rw [List.drop_eq_nil_of_le (by simp; omega)]
      simp
    · rw [if_neg hc]
      rw [List.getElem?_eq_getElem (by omega)] at hc
      have hc' : c ≠ name[n] := by rintro rfl; exact hc rfl
      rcases ih (by omega) with ⟨h1, h2⟩ | ⟨pos, h1, h2, h3, h4⟩
      · left
        exact ⟨h1, by rw [ht, List.mem_append, List.mem_singleton, not_or]; exact ⟨h2, hc'⟩⟩
      · right
        refine ⟨pos, h1, by omega, h3, ?_⟩
        rw [ht, List.drop_append_of_le_length (by simp; omega)]
        simp [h4, hc']

/-- `GetBaseName` never throws; without a dot it returns the whole name and an empty suffix, otherwise
`base + '.' + suffix` is the name and the suffix contains no dot. -/
theorem C56_base_name (name : List UInt8) :
    ∃ base suffix, getBaseName name = .ok (base, suffix) ∧
      ((46 ∉ name ∧ base = name ∧ suffix = []) ∨ (name = base ++ 46 :: suffix ∧ 46 ∉ suffix)) := by
  rw [getBaseName]
  rcases findLast_eq 46 name name.length (Nat.le_refl _) with ⟨h1, h2⟩ | ⟨pos, h1, h2, h3, h4⟩
  · rw [h1]
    rw [List.take_length] at h2
    exact ⟨name, [], rfl, Or.inl ⟨h2, rfl, rfl⟩⟩
  · rw [h1]
    simp only
    rw [if_pos (by omega)]
    rw [List.take_length] at h4
    refine ⟨_, _, rfl, Or.inr ⟨?_, h4⟩⟩
    rw [List.getElem?_eq_getElem h2] at h3
    simp only [Option.some.injEq] at h3
    rw [← h3, ← List.drop_eq_getElem_cons h2, List.take_append_drop]

theorem append_dot_inj {a b x y : List UInt8} (h : a ++ 46 :: x = b ++ 46 :: y) (hx : 46 ∉ x) (hy : 46 ∉ y) :
    a = b ∧ x = y := by
  rcases List.append_eq_append_iff.mp h with ⟨c, h1, h2⟩ | ⟨c, h1, h2⟩
  · cases c with
    | nil => simp at h1 h2; exact ⟨h1.symm, h2⟩
    | cons d c => simp at h2; exact absurd (h2.2 ▸ List.mem_append_right c (List.mem_cons_self ..)) hx
  · cases c with
    | nil => simp at h1 h2; exact ⟨h1, h2.symm⟩
    | cons d c => simp at h2; exact absurd (h2.2 ▸ List.mem_append_right c (List.mem_cons_self ..)) hy

/-- For a non-empty extension without dots, the test agrees with the split: `HasExtension(name, e)` iff
the suffix found by `GetBaseName` is `e`. -/
theorem C56_agree (name ext : List UInt8) (hne : ext ≠ []) (hdot : 46 ∉ ext) :
    ∃ r base suffix, hasExtension name ext = .ok r ∧ getBaseName name = .ok (base, suffix) ∧
      (r = true ↔ suffix = ext) := by
  obtain ⟨r, e1, h1⟩ := C56_has_extension name ext
  obtain ⟨base, suffix, e2, h2⟩ := C56_base_name name
  refine ⟨r, base, suffix, e1, e2, ?_⟩
  rw [h1]
  constructor
  · rintro (h | ⟨pre, h⟩)
    · exact absurd h hne
    · rcases h2 with ⟨h3, -, -⟩ | ⟨h3, h4⟩
      · rw [h] at h3; simp at h3
      · exact (append_dot_inj (h3.symm.trans h) h4 hdot).2
  · rintro rfl
    rcases h2 with ⟨-, -, h3⟩ | ⟨h3, h4⟩
    · exact absurd h3 hne
    · exact Or.inr ⟨base, h3⟩

theorem replaceLoop_eq : ∀ (n : Nat) (a b : List UInt8), b.length = n →
    replaceLoop n a.length (a ++ b) = .ok (a ++ b.map fun c => if c = 92 then 47 else c) := by
  intro n
  induction n with
  | zero => intro a b h; rw [List.eq_nil_of_length_eq_zero h]; rfl
  | succ n ih =>
    intro a b h
    cases b with
    | nil => simp at h
    | cons c b =>
      rw [replaceLoop, at?_eq_ok (by simp), Res.ok_bind]
      have hc : (a ++ c :: b)[a.length]'(by simp) = c := by simp
      rw [hc]
      have : (if c = 92 then (a ++ c :: b).set a.length 47 else a ++ c :: b)
          = (a ++ [if c = 92 then 47 else c]) ++ b := by
        split
        · simp
        · simp
      rw [this]
      have := ih (a ++ [if c = 92 then 47 else c]) b (by simpa using h)
      simp only [List.length_append, List.length_singleton] at this
      rw [this]
      simp

/-- `ReplaceBackSlash` replaces every backslash by a slash and nothing else. -/
theorem C56_replace_back_slash (s : List UInt8) :
    replaceBackSlash s = .ok (s.map fun c => if c = 92 then 47 else c) := by
  have := replaceLoop_eq s.length [] s rfl
  rw [replaceBackSlash]
  simpa using this

/-- "a.tar.gz" -/
example : getBaseName [97, 46, 116, 97, 114, 46, 103, 122] = .ok ([97, 46, 116, 97, 114], [103, 122]) ∧
    hasExtension [97, 46, 116, 97, 114, 46, 103, 122] [103, 122] = .ok true ∧
    hasExtension [97, 46, 116, 97, 114, 46, 103, 122] [116, 97, 114, 46, 103, 122] = .ok true ∧
    hasExtension [103, 122] [103, 122] = .ok false := by decide

/-- The split does not know directories: the base name of "a.d/b" is "a". -/
theorem C56_finding_directory : getBaseName [97, 46, 100, 47, 98] = .ok ([97], [100, 47, 98]) := by decide

end Verif.Props.FileName

#print axioms Verif.Props.FileName.C56_has_extension
#print axioms Verif.Props.FileName.C56_base_name
#print axioms Verif.Props.FileName.C56_agree
#print axioms Verif.Props.FileName.C56_replace_back_slash
