import Verif.Model.Appenders

/-!
# C156: several objects append to one file
-/
set_option linter.unusedSimpArgs false

namespace Verif.Props.Appenders
open Verif.Appenders

/-- The entries of object `i` in a history. -/
def only {α : Type} (l : List (Nat × α)) (i : Nat) : List α := (l.filter (fun e => e.1 == i)).map (·.2)

theorem only_snoc {α : Type} (l : List (Nat × α)) (j : Nat) (b : α) (i : Nat) : only (l ++ [(j, b)]) i = only l i ++ if i = j then [b] else [] := by
  by_cases h : i = j
  · subst h; simp [only]
  · simp [only, h, show ¬ j = i from fun g => h g.symm]

/-- What is left of the call an object is in. -/
def left (r : Option Bytes) : Bytes := r.getD []

/-- C156: if all objects append, the file is what it was and then, in the order of the system calls, everything they accepted; for each object this
is, with what is left of its current call, exactly what it was asked to write, in order: nothing is lost, overwritten, repeated or invented. -/
theorem C156_nothing_lost {full : Bool} {old : Bytes} {s : St} (h : Steps (fun _ => true) full (St.start old fun _ => true) s) :
    s.file = old ++ (s.pieces.map (·.2)).flatten ∧ ∀ i, (only s.pieces i).flatten ++ left (s.rest i) = (s.asked i).flatten := by
  induction h with
  | refl => simp [St.start, only, left]
  | tail _ st ih =>
    obtain ⟨i1, i2⟩ := ih
    cases st with
    | call g =>
      rename_i j text
      refine ⟨i1, fun i => ?_⟩
      have := i2 i
      by_cases e : i = j
      · subst e
        rw [g] at this
        simp only [upd, if_true, List.flatten_append, ← this]
        simp [left]
      · simp only [upd, e, if_false]; exact this
    | append g1 g2 g3 g4 g5 =>
      rename_i j r n
      refine ⟨by simp [i1], fun i => ?_⟩
      have := i2 i
      rw [only_snoc]
      by_cases e : i = j
      · subst e
        rw [g2] at this
        simp only [upd, if_true, ← this]
        simp [left]
      · simp only [upd, e, if_false, List.append_nil]; exact this
    | over g1 => cases g1
    | ret g =>
      rename_i j
      refine ⟨i1, fun i => ?_⟩
      have := i2 i
      by_cases e : i = j
      · subst e
        rw [g] at this
        simp only [upd, if_true, ← this]
        simp [left]
      · simp only [upd, e, if_false]; exact this

/-- C156: if moreover every `::write` accepts all it is given and no text is longer than 2^31 - 1 bytes, the file consists of whole texts: those of
each object that are not empty, each once and in order, only a text whose call has not come to the system yet is missing. -/
theorem C156_whole {old : Bytes} {s : St} (h : Steps (fun _ => true) true (St.start old fun _ => true) s)
    (hl : ∀ i, ∀ x ∈ s.asked i, x.length ≤ 0x7fffffff) :
    s.file = old ++ (s.pieces.map (·.2)).flatten ∧
    ∀ i, only s.pieces i ++ (if left (s.rest i) = [] then [] else [left (s.rest i)]) = (s.asked i).filter (fun x => decide (x ≠ [])) := by
  refine ⟨(C156_nothing_lost h).1, ?_⟩
  have key : ∀ i, only s.pieces i ++ (if left (s.rest i) = [] then [] else [left (s.rest i)]) = (s.asked i).filter (fun x => decide (x ≠ [])) ∧
      (left (s.rest i)).length ≤ 0x7fffffff := by
    induction h with
    | refl => simp [St.start, only, left]
    | tail _ st ih =>
      cases st with
      | call g =>
        rename_i s1 _ j text
        have hl1 : ∀ i, ∀ x ∈ s1.asked i, x.length ≤ 0x7fffffff := by
          intro i x hx
          refine hl i x ?_
          by_cases e : i = j
          · subst e; simp [upd, hx]
          · simpa [upd, e] using hx
        intro i
        obtain ⟨i1, i2⟩ := ih hl1 i
        by_cases e : i = j
        · subst e
          rw [g] at i1
          have := hl i text (by simp [upd])
          simp only [upd, if_true, List.filter_append, ← i1]
          by_cases ht : text = []
          · subst ht; simp [left]
          · simp [left, ht]; exact this
        · simp only [upd, e, if_false]; exact ⟨i1, i2⟩
      | append g1 g2 g3 g4 g5 =>
        rename_i j r n
        intro i
        obtain ⟨i1, i2⟩ := ih hl i
        rw [only_snoc]
        by_cases e : i = j
        · subst e
          rw [g2] at i1 i2
          simp only [left, Option.getD_some] at i1 i2
          have hn : n = r.length := by rw [g5 rfl]; omega
          subst hn
          simp only [upd, if_true, ← i1]
          simp [left, g3]
        · simp only [upd, e, if_false, List.append_nil]; exact ⟨i1, i2⟩
      | over g1 => cases g1
      | ret g =>
        rename_i j
        intro i
        obtain ⟨i1, i2⟩ := ih hl i
        by_cases e : i = j
        · subst e
          rw [g] at i1
          simp only [upd, if_true, ← i1]
          simp [left]
        · simp only [upd, e, if_false]; exact ⟨i1, i2⟩
  exact fun i => (key i).1

/-- Writing at the end of a file is appending. -/
theorem place_end (file b : Bytes) : place file file.length b = file ++ b := by simp [place]

/-- C156: whichever objects append, no object stands behind the end of the file (so no gap is ever filled with zeros), and if all append, the object
that wrote last stands at the end. -/
theorem C156_position {app : Nat → Bool} {full : Bool} {old : Bytes} {s : St} (h : Steps app full (St.start old app) s) :
    (∀ i, s.pos i ≤ s.file.length) ∧ old.length ≤ s.file.length ∧
    ((∀ i, app i = true) → ∀ i b l, s.pieces = l ++ [(i, b)] → s.pos i = s.file.length) := by
  induction h with
  | refl =>
    refine ⟨fun i => ?_, Nat.le_refl _, fun _ i b l hl => by simp [St.start] at hl⟩
    simp only [St.start]; split <;> simp
  | tail _ st ih =>
    obtain ⟨i1, i2, i3⟩ := ih
    cases st with
    | call g => exact ⟨i1, i2, i3⟩
    | append g1 g2 g3 g4 g5 =>
      rename_i j r n
      have hn : min n r.length = n := by omega
      refine ⟨fun i => ?_, by simp; omega, fun _ i b l hl => ?_⟩
      · have := i1 i
        simp only [upd, List.length_append, List.length_take, hn]
        split <;> omega
      · have e : i = j := by
          have := List.append_inj_right' hl rfl
          simp at this; exact this.1.symm
        simp [upd, e, hn]
    | over g1 g2 g3 g4 g5 =>
      rename_i s1 _ j r n
      have hn : min n r.length = n := by omega
      have hj := i1 j
      have hlen : (place s1.file (s1.pos j) (r.take n)).length = max s1.file.length (s1.pos j + n) := by
        simp [place, hn]; omega
      refine ⟨fun i => ?_, by simp only [hlen]; omega, fun ha => absurd (ha j) (by simp [g1])⟩
      have := i1 i
      simp only [upd, hlen]
      split <;> omega
    | ret g => exact ⟨i1, i2, i3⟩

/-- C156: an object that does not append and is the only one to write fills the file with exactly what it was asked to write, and if every `::write`
accepts everything, in whole texts. -/
theorem C156_alone {full : Bool} {i : Nat} {s : St} (h : Steps (fun _ => false) full (St.start [] fun _ => false) s) (ha : ∀ j, j ≠ i → s.asked j = []) :
    s.file = (s.pieces.map (·.2)).flatten ∧ s.pos i = s.file.length ∧ s.file ++ left (s.rest i) = (s.asked i).flatten ∧
    (full = true → (∀ x ∈ s.asked i, x.length ≤ 0x7fffffff) →
      s.pieces.map (·.2) ++ (if left (s.rest i) = [] then [] else [left (s.rest i)]) = (s.asked i).filter (fun x => decide (x ≠ []))) := by
  have key : s.file = (s.pieces.map (·.2)).flatten ∧ s.pos i = s.file.length ∧ s.file ++ left (s.rest i) = (s.asked i).flatten ∧
      (full = true → (∀ x ∈ s.asked i, x.length ≤ 0x7fffffff) →
        s.pieces.map (·.2) ++ (if left (s.rest i) = [] then [] else [left (s.rest i)]) = (s.asked i).filter (fun x => decide (x ≠ [])) ∧
        (left (s.rest i)).length ≤ 0x7fffffff) ∧ ∀ j, j ≠ i → s.rest j = none := by
    induction h with
    | refl => simp [St.start, left]
    | tail _ st ih =>
      cases st with
      | call g =>
        rename_i s1 _ j text
        have e : j = i := by
          refine Decidable.byContradiction fun e => ?_
          have := ha j e
          simp [upd] at this
        subst e
        obtain ⟨i1, i2, i3, i4, i5⟩ := ih (fun k hk => by simpa [upd, hk] using ha k hk)
        rw [g] at i3 i4
        refine ⟨i1, i2, ?_, fun hf hl => ?_, fun k hk => by simp [upd, hk, i5 k hk]⟩
        · simp only [upd, if_true, List.flatten_append, ← i3]; simp [left]
        · have hx := hl text (by simp [upd])
          obtain ⟨k1, _⟩ := i4 hf (fun x hx => hl x (by simp [upd, hx]))
          simp only [upd, if_true, List.filter_append, ← k1]
          by_cases ht : text = []
          · subst ht; simp [left]
          · simp [left, ht]; exact hx
      | append g1 => cases g1
      | over g1 g2 g3 g4 g5 =>
        rename_i s1 j r n
        obtain ⟨i1, i2, i3, i4, i5⟩ := ih ha
        have e : j = i := by
          refine Decidable.byContradiction fun e => ?_
          rw [i5 j e] at g2; cases g2
        subst e
        have hn : min n r.length = n := by omega
        rw [g2] at i3 i4
        simp only [i2, place_end]
        refine ⟨by simp [← i1], by simp [upd, hn], ?_, fun hf hl => ?_, fun k hk => by simp [upd, hk, i5 k hk]⟩
        · simp only [upd, if_true, ← i3]; simp [left]
        · obtain ⟨k1, k2⟩ := i4 hf hl
          simp only [left, Option.getD_some] at k1 k2
          have hr : n = r.length := by rw [g5 hf]; omega
          subst hr
          simp only [upd, if_true, ← k1]
          simp [left, g3]
      | ret g =>
        rename_i s1 j
        obtain ⟨i1, i2, i3, i4, i5⟩ := ih ha
        have e : j = i := by
          refine Decidable.byContradiction fun e => ?_
          rw [i5 j e] at g; cases g
        subst e
        rw [g] at i3 i4
        refine ⟨i1, i2, ?_, fun hf hl => ?_, fun k hk => by simp [upd, hk, i5 k hk]⟩
        · simp only [upd, if_true, ← i3]; simp [left]
        · obtain ⟨k1, _⟩ := i4 hf hl
          simp only [upd, if_true, ← k1]; simp [left]
  exact ⟨key.1, key.2.1, key.2.2.1, fun hf hl => (key.2.2.2.1 hf hl).1⟩

/-- The hypotheses of `C156_alone` are met by an object that writes twice. -/
example : ∃ s, Steps (fun _ => false) true (St.start [] fun _ => false) s ∧ (∀ j, j ≠ 0 → s.asked j = []) ∧ s.asked 0 = [[97, 98], [99]] ∧ s.file = [97, 98, 99] :=
  ⟨_, .tail (.tail (.tail (.tail (.tail .refl (.call (i := 0) (text := [97, 98]) rfl))
    (.over (i := 0) (n := 2) rfl rfl (by simp [upd]) (by decide) (by simp [upd]))) (.ret (i := 0) rfl)) (.call (i := 0) (text := [99]) rfl))
    (.over (i := 0) (n := 1) rfl rfl (by simp [upd]) (by decide) (by simp [upd])), fun j hj => by simp [upd, St.start, hj], rfl, rfl⟩

/-- C156, finding: a `::write` that accepts only a part of its bytes lets another object write in the middle of a text. -/
theorem C156_finding_torn : ∃ s, Steps (fun _ => true) false (St.start [] fun _ => true) s ∧ s.asked 0 = [[97, 98]] ∧ s.asked 1 = [[120]] ∧
    s.rest 0 = none ∧ s.rest 1 = none ∧ s.file = [97, 120, 98] :=
  ⟨_, .tail (.tail (.tail (.tail (.tail (.tail (.tail .refl (.call (i := 0) (text := [97, 98]) rfl))
    (.append (i := 0) (n := 1) rfl rfl (by simp [upd]) (by decide) (by simp))) (.call (i := 1) (text := [120]) rfl))
    (.append (i := 1) (n := 1) rfl rfl (by simp [upd]) (by decide) (by simp))) (.append (i := 0) (n := 1) rfl rfl (by simp [upd]) (by decide) (by simp)))
    (.ret (i := 0) rfl)) (.ret (i := 1) rfl), rfl, rfl, rfl, rfl, rfl⟩

/-- C156, finding: two objects that do not append (or that append on Windows) overwrite each other even if every `::write` accepts everything. -/
theorem C156_finding_overwritten : ∃ s, Steps (fun _ => false) true (St.start [] fun _ => false) s ∧ s.asked 0 = [[97, 98]] ∧ s.asked 1 = [[120]] ∧
    s.rest 0 = none ∧ s.rest 1 = none ∧ s.file = [120, 98] :=
  ⟨_, .tail (.tail (.tail (.tail (.tail (.tail .refl (.call (i := 0) (text := [97, 98]) rfl))
    (.over (i := 0) (n := 2) rfl rfl (by simp [upd]) (by decide) (by simp [upd]))) (.call (i := 1) (text := [120]) rfl))
    (.over (i := 1) (n := 1) rfl rfl (by simp [upd]) (by decide) (by simp [upd])))
    (.ret (i := 0) rfl)) (.ret (i := 1) rfl), rfl, rfl, rfl, rfl, rfl⟩

/-- The hypotheses of `C156_whole` are met by two objects whose texts are in the file in turn. -/
example : ∃ s, Steps (fun _ => true) true (St.start [48] fun _ => true) s ∧ s.file = [48, 97, 98, 120, 99] ∧ s.asked 0 = [[97, 98], [99]] ∧ s.asked 1 = [[120]] :=
  ⟨_, .tail (.tail (.tail (.tail (.tail (.tail (.tail .refl (.call (i := 0) (text := [97, 98]) rfl)) (.call (i := 1) (text := [120]) rfl))
    (.append (i := 0) (n := 2) rfl rfl (by simp [upd]) (by decide) (by simp))) (.ret (i := 0) rfl))
    (.call (i := 0) (text := [99]) rfl)) (.append (i := 1) (n := 1) rfl rfl (by simp [upd]) (by decide) (by simp)))
    (.append (i := 0) (n := 1) rfl rfl (by simp [upd]) (by decide) (by simp)), rfl, rfl, rfl⟩

#print axioms C156_nothing_lost
#print axioms C156_whole
#print axioms C156_position
#print axioms C156_alone
#print axioms C156_finding_torn
#print axioms C156_finding_overwritten

end Verif.Props.Appenders
