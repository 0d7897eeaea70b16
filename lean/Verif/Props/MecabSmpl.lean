import Verif.Model.MecabSmpl
import Verif.Props.Mecab
import Verif.Props.Mmap
set_option linter.unusedSimpArgs false

/-!
# C124: the program `mecab_smpl`
-/
namespace Verif.Props.MecabSmpl
open Verif.MecabSmpl Verif.Mmap Verif.Spec.Mecab

/-- C124: the words that MeCab separates in the file are printed in order, each followed by a blank, and a line feed; the status is 0. -/
theorem C124_words (argc : Nat) (fd a : Nat) (content : List UInt8) (t : Nat) (tagger : List UInt8 → Option (List UInt8)) (ws : List (List UInt8))
    (h0 : 0 < argc) (hn : content ≠ []) (hl : content.length ≤ 2 ^ 30) (hws : ∀ w ∈ ws, 32 ∉ w) (hne : ∀ w ∈ ws, ∃ b r, w = b :: r ∧ ¬White b)
    (ht : tagger content = some ((ws.flatMap fun w => w ++ [32]) ++ [10])) :
    main argc ⟨some fd, some content.length, some a⟩ content (some t) tagger =
      .ok (0, (ws.flatMap fun w => w ++ [32]) ++ [10],
        [.open fd, .map a fd content.length, .close fd, .unmap a content.length]) := by
  have hp : 0 < content.length := List.length_pos_iff.mpr hn
  have e := Props.Mecab.C93_wakati tagger [] content content.length ws hp (Nat.le_refl _) hws hne (by rw [List.take_length]; exact ht)
  have ec : construct ⟨some fd, some content.length, some a⟩ =
      (.ok ⟨.addr a, content.length⟩, [.open fd, .map a fd content.length, .close fd]) := by
    simp only [construct]
    rw [if_neg (by omega)]
  unfold main
  rw [if_neg (by omega), ec]
  dsimp only
  rw [if_neg (by omega)]
  unfold tag Mecab.create
  dsimp only [mapped]
  rw [e, Res.ok_bind]
  rfl

/-- C124: the status is 1 and nothing is printed without an argument, if the file cannot be mapped, if it has more than 2^30 bytes, or if MeCab
cannot be started. -/
theorem C124_errors (argc : Nat) (os : Unix) (content : List UInt8) (made : Option Nat) (tagger : List UInt8 → Option (List UInt8))
    (h : argc = 0 ∨ os.open? = none ∨ os.size? = none ∨ (∃ n, os.size? = some n ∧ 0 < n ∧ os.map? = none) ∨
      (∃ n, os.size? = some n ∧ 2 ^ 30 < n) ∨ made = none) : ∃ evs, main argc os content made tagger = .ok (1, [], evs) := by
  unfold main
  by_cases ha : argc = 0
  · rw [if_pos ha]; exact ⟨_, rfl⟩
  · rw [if_neg ha]
    unfold construct
    cases h1 : os.open? with
    | none => exact ⟨_, rfl⟩
    | some fd =>
      cases h2 : os.size? with
      | none => exact ⟨_, rfl⟩
      | some n =>
        simp only [ha, h1, h2, reduceCtorEq, false_or, Option.some.injEq, exists_eq_left'] at h
        dsimp only
        by_cases hz : n = 0
        · have hm : made = none := by
            rcases h with h | h | h
            · omega
            · omega
            · exact h
          rw [if_pos hz]
          dsimp only
          rw [if_neg (by omega), hm]
          exact ⟨_, rfl⟩
        · rw [if_neg hz]
          cases h3 : os.map? with
          | none => exact ⟨_, rfl⟩
          | some a =>
            dsimp only
            by_cases hb : n > 2 ^ 30
            · rw [if_pos hb]; exact ⟨_, rfl⟩
            · rw [if_neg hb]
              have hm : made = none := by
                rcases h with h | h | h
                · rw [h3] at h; exact absurd h.2 (by simp)
                · omega
                · exact h
              rw [hm]
              exact ⟨_, rfl⟩

/-- C124: whatever happens, unless the behaviour is undefined, the file is closed and the mapping is removed. -/
theorem C124_released (argc : Nat) (os : Unix) (content : List UInt8) (made : Option Nat) (tagger : List UInt8 → Option (List UInt8))
    (st : Nat) (text : List UInt8) (evs : List Ev) (h : main argc os content made tagger = .ok (st, text, evs)) (r : MmapSpec.Held)
    (hf : ∀ fd, os.open? = some fd → fd ∉ r.handles) : MmapSpec.AcceptsAll r evs r := by
  have hlife := Props.Mmap.C76_life os r hf
  unfold main at h
  by_cases ha : argc = 0
  · rw [if_pos ha] at h
    cases h
    exact .nil _
  · rw [if_neg ha] at h
    cases hc : construct os with
    | mk x evs0 =>
      rw [hc] at h hlife
      cases x with
      | error e =>
        cases h
        simpa using hlife
      | ok o =>
        dsimp only at h hlife
        split at h
        · cases h
          exact hlife
        · obtain ⟨v, -, h⟩ := Res.bind_eq_ok.1 h
          cases h
          exact hlife

/-- C124 (finding): for an empty file the program reads behind `MAP_FAILED`: the size 0 makes `parse` look for a NUL. -/
theorem C124_finding_empty (argc : Nat) (h0 : 0 < argc) (fd t : Nat) (map : Option Nat) (tagger : List UInt8 → Option (List UInt8)) :
    main argc ⟨some fd, some 0, map⟩ [] (some t) tagger = .ub := by
  unfold main
  rw [if_neg (by omega)]
  rfl

/-- C124 (finding): when MeCab fails on the text nothing is printed, no message either, and the status is 0. -/
theorem C124_finding_status (argc : Nat) (fd a : Nat) (content : List UInt8) (t : Nat) (tagger : List UInt8 → Option (List UInt8))
    (h0 : 0 < argc) (hn : content ≠ []) (hl : content.length ≤ 2 ^ 30) (ht : tagger content = none) :
    ∃ evs, main argc ⟨some fd, some content.length, some a⟩ content (some t) tagger = .ok (0, [], evs) := by
  have hp : 0 < content.length := List.length_pos_iff.mpr hn
  have e := Props.Mecab.C93_failure tagger [] content content.length hp (Nat.le_refl _) (by rw [List.take_length]; exact ht)
  have ec : construct ⟨some fd, some content.length, some a⟩ =
      (.ok ⟨.addr a, content.length⟩, [.open fd, .map a fd content.length, .close fd]) := by
    simp only [construct]
    rw [if_neg (by omega)]
  unfold main
  rw [if_neg (by omega), ec]
  dsimp only
  rw [if_neg (by omega)]
  unfold tag Mecab.create
  dsimp only [mapped]
  rw [e, Res.ok_bind]
  exact ⟨_, rfl⟩

/-- The words of a small file. -/
example : main 1 ⟨some 3, some 5, some 7⟩ [97, 98, 99, 100, 10] (some 1) (fun _ => some [97, 98, 32, 99, 100, 32, 10]) =
    .ok (0, [97, 98, 32, 99, 100, 32, 10], [.open 3, .map 7 3 5, .close 3, .unmap 7 5]) :=
  C124_words 1 3 7 [97, 98, 99, 100, 10] 1 _ [[97, 98], [99, 100]] (by decide) (by simp) (by decide) (by decide)
    (by
      intro w hw
      rcases List.mem_cons.1 hw with rfl | hw
      · exact ⟨97, [98], rfl, by decide⟩
      · rw [List.mem_singleton] at hw
        subst hw
        exact ⟨99, [100], rfl, by decide⟩) rfl

#print axioms C124_words
#print axioms C124_errors
#print axioms C124_released
#print axioms C124_finding_empty
#print axioms C124_finding_status

end Verif.Props.MecabSmpl
