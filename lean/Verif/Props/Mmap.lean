import Verif.Spec.Mmap
set_option linter.unusedSimpArgs false
/-!
# C76: a memory mapped file gives back what it took
-/
namespace Verif.Props.Mmap
open Verif.Mmap Verif.MmapSpec

/-- Linux: whatever the system answers, after the constructor the descriptor is closed, after an
exception nothing is left, after success exactly the mapping of the whole file, and `size()` is the
size of the file. -/
theorem C76_construct (os : Unix) (r : Held) (hf : ∀ fd, os.open? = some fd → fd ∉ r.handles) :
    ∃ r', AcceptsAll r (construct os).2 r' ∧
      match (construct os).1 with
      | .error _ => r' = r
      | .ok o => ∃ n, os.size? = some n ∧ o.size = n ∧
          ((n = 0 ∧ r' = r) ∨ ∃ a, 0 < n ∧ os.map? = some a ∧ o.map = .addr a ∧ r' = ⟨r.handles, (a, n) :: r.maps⟩) := by
  unfold construct
  cases h1 : os.open? with
  | none => exact ⟨r, .cons .errno (.nil _), rfl⟩
  | some fd =>
    have hn := hf fd h1
    have er : (fd :: r.handles).erase fd = r.handles := by simp
    cases h2 : os.size? with
    | none =>
      refine ⟨r, .cons (.open fd hn) (.cons .errno (.cons (.close fd (by simp)) ?_)), rfl⟩
      rw [er]; exact .nil _
    | some n =>
      by_cases h0 : n = 0
      · simp only [h0, if_true]
        refine ⟨r, .cons (.open fd hn) (.cons (.close fd (by simp)) ?_), 0, by simp, rfl, by simp⟩
        rw [er]; exact .nil _
      · simp only [if_neg h0]
        cases h3 : os.map? with
        | none =>
          refine ⟨r, .cons (.open fd hn) (.cons .errno (.cons (.close fd (by simp)) ?_)), rfl⟩
          rw [er]; exact .nil _
        | some a =>
          refine ⟨⟨r.handles, (a, n) :: r.maps⟩, .cons (.open fd hn)
            (.cons (.map a fd n (by simp) (by omega)) (.cons (.close fd (by simp)) ?_)),
            n, by simp, rfl, .inr ⟨a, by omega, rfl, rfl, rfl⟩⟩
          rw [er]; exact .nil _

/-- Linux: construction and destruction together leave everything as it was, whatever happens. -/
theorem C76_life (os : Unix) (r : Held) (hf : ∀ fd, os.open? = some fd → fd ∉ r.handles) :
    AcceptsAll r ((construct os).2 ++
      match (construct os).1 with
      | .error _ => []
      | .ok o => destruct o) r := by
  unfold construct destruct
  cases h1 : os.open? with
  | none => exact .cons .errno (.nil _)
  | some fd =>
    have hn := hf fd h1
    have er : (fd :: r.handles).erase fd = r.handles := by simp
    cases h2 : os.size? with
    | none =>
      refine .cons (.open fd hn) (.cons .errno (.cons (.close fd (by simp)) ?_))
      rw [er]; exact .nil _
    | some n =>
      by_cases h0 : n = 0
      · simp only [h0, if_true]
        refine .cons (.open fd hn) (.cons (.close fd (by simp)) ?_)
        rw [er]; exact .nil _
      · simp only [if_neg h0]
        cases h3 : os.map? with
        | none =>
          refine .cons (.open fd hn) (.cons .errno (.cons (.close fd (by simp)) ?_))
          rw [er]; exact .nil _
        | some a =>
          refine .cons (.open fd hn) (.cons (.map a fd n (by simp) (by omega))
            (.cons (.close fd (by simp)) (.cons (.unmap a n (by simp)) ?_)))
          simp only [er, List.erase_cons_head]
          exact .nil _

/-- Windows: the same. -/
theorem C76_life_windows (os : Win) (r : Held) (hf : ∀ fd, os.open? = some fd → fd ∉ r.handles)
    (hm : ∀ m, os.mapping? = some m → m ∉ r.handles ∧ os.open? ≠ some m) :
    AcceptsAll r ((wconstruct os).2 ++
      match (wconstruct os).1 with
      | .error _ => []
      | .ok o => wdestruct o) r := by
  unfold wconstruct wdestruct errExit
  cases h1 : os.open? with
  | none => exact .cons .errno (.nil _)
  | some fd =>
    have hn := hf fd h1
    have er : (fd :: r.handles).erase fd = r.handles := by simp
    cases h2 : os.size? with
    | none =>
      refine .cons (.open fd hn) (.cons .errno (.cons (.close fd (by simp)) ?_))
      rw [er]; exact .nil _
    | some n =>
      by_cases h0 : n = 0
      · simp only [h0, if_true]
        refine .cons (.open fd hn) (.cons (.close fd (by simp)) ?_)
        rw [er]; exact .nil _
      · simp only [if_neg h0]
        cases h3 : os.mapping? with
        | none =>
          refine .cons (.open fd hn) (.cons .errno (.cons (.close fd (by simp)) ?_))
          rw [er]; exact .nil _
        | some m =>
          have hmn := hm m h3
          have hne : m ≠ fd := fun h => hmn.2 (by rw [h1, h])
          cases h4 : os.map? with
          | none =>
            refine .cons (.open fd hn) (.cons (.mapping m fd (by simp) (by simp [hne, hmn.1]))
              (.cons .errno (.cons (.close m (by simp)) (.cons (.close fd (by simp)) ?_))))
            simp only [List.erase_cons_head]
            exact .nil _
          | some a =>
            refine .cons (.open fd hn) (.cons (.mapping m fd (by simp) (by simp [hne, hmn.1]))
              (.cons (.map a m n (by simp) (by omega)) (.cons (.unmap a n (by simp))
                (.cons (.close m (by simp)) (.cons (.close fd (by simp)) ?_)))))
            simp only [List.erase_cons_head]
            exact .nil _

/-- The failure is asked for before anything is closed, so that closing cannot overwrite it, on
both systems. -/
theorem C76_reason_first (os : Unix) (w : Win) :
    (∀ m, (construct os).1 = .error m →
      ∃ l l', (construct os).2 = l ++ .errno :: l' ∧ ∀ fd, Ev.close fd ∉ l) ∧
    (∀ m, (wconstruct w).1 = .error m →
      ∃ l l', (wconstruct w).2 = l ++ .errno :: l' ∧ ∀ fd, Ev.close fd ∉ l) := by
  constructor
  · intro m
    unfold construct
    repeat' split
    all_goals intro h
    all_goals first
      | cases h; done
      | exact ⟨[], _, rfl, by simp⟩
      | exact ⟨[.open _], _, rfl, by simp⟩
  · intro m
    unfold wconstruct errExit
    repeat' split
    all_goals intro h
    all_goals first
      | cases h; done
      | exact ⟨[], _, rfl, by simp⟩
      | exact ⟨[.open _], _, rfl, by simp⟩
      | exact ⟨[.open _, .mapping _ _], _, rfl, by simp⟩

/-- Windows: `size()` is the size of the file, and the view is there exactly if it is not empty. -/
theorem C76_windows (os : Win) (o : WObj) (h : (wconstruct os).1 = .ok o) :
    os.size? = some o.size ∧ (o.size = 0 ↔ o.map = .null) ∧
      (o.size ≠ 0 → ∃ a, o.map = .addr a ∧ os.map? = some a) := by
  unfold wconstruct errExit at h
  cases h1 : os.open? with
  | none => simp [h1] at h
  | some fd =>
    cases h2 : os.size? with
    | none => simp [h1, h2] at h
    | some n =>
      by_cases h0 : n = 0
      · simp [h1, h2, h0] at h
        subst h
        simp [h0]
      · cases h3 : os.mapping? with
        | none => simp [h1, h2, h0, h3] at h
        | some m =>
          cases h4 : os.map? with
          | none => simp [h1, h2, h0, h3, h4] at h
          | some a =>
            simp [h1, h2, h0, h3, h4] at h
            subst h
            simp [h0]

/-- Finding: for an empty file `get()` is `MAP_FAILED` on Linux, not the null pointer as on
Windows; a test `if (m.get())` takes it for a mapping. -/
theorem C76_finding_empty (fd : Nat) (map mapping : Option Nat) :
    (construct ⟨some fd, some 0, map⟩).1 = .ok ⟨.failed, 0⟩ ∧
      (wconstruct ⟨some fd, some 0, mapping, map⟩).1 = .ok ⟨.null, none, none, 0⟩ := ⟨rfl, rfl⟩

example : construct ⟨some 3, some 4096, some 7⟩ =
    (.ok ⟨.addr 7, 4096⟩, [.open 3, .map 7 3 4096, .close 3]) := rfl

end Verif.Props.Mmap

#print axioms Verif.Props.Mmap.C76_construct
#print axioms Verif.Props.Mmap.C76_life_windows
