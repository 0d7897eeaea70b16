import Mathlib.Algebra.BigOperators.Group.Finset.Basic
import Mathlib.Algebra.Order.BigOperators.Group.Finset
import Mathlib.Algebra.Order.Group.Multiset
import Mathlib.Data.Finset.Max
import Mathlib.Data.List.Perm.Basic
import Verif.Spec.AutoLock

set_option linter.unusedSimpArgs false
set_option linter.unusedVariables false
namespace Verif.AutoLock
open Verif.Spec.AutoLock Verif.Spec.AutoLock.inside

theorem put_same {α : Type} (f : Nat → α) (i : Nat) (x : α) : put f i x i = x := by simp [put]
theorem put_other {α : Type} (f : Nat → α) {i j : Nat} (x : α) (h : j ≠ i) : put f i x j = f j := by simp [put, h]

/-- How often thread `t` has locked mutex `m`. -/
def holds (own : Own) (m t : Nat) : Nat :=
  match own m with
  | some (u, c) => if u = t then c else 0
  | none => 0

theorem unlock_spec {own o : Own} {m t : Nat} (h : unlock own m t = some o) :
    ∃ c, own m = some (t, c + 1) ∧ o = put own m (if c = 0 then none else some (t, c)) := by
  unfold unlock at h
  split at h
  · rename_i u c heq
    split at h
    · rename_i hu; subst hu
      exact ⟨c, heq, by injection h with h; exact h.symm⟩
    · cases h
  · cases h

theorem lock_spec {rec : Bool} {own o : Own} {m t : Nat} (h : lock rec own m t = some o) :
    (own m = none ∧ o = put own m (some (t, 1))) ∨
      (rec = true ∧ ∃ c, own m = some (t, c) ∧ o = put own m (some (t, c + 1))) := by
  unfold lock at h
  split at h
  · rename_i heq
    exact .inl ⟨heq, by injection h with h; exact h.symm⟩
  · rename_i u c heq
    split at h
    · rename_i hu
      simp only [Bool.and_eq_true, beq_iff_eq] at hu
      obtain ⟨h1, rfl⟩ := hu
      exact .inr ⟨h1, c, heq, by injection h with h; exact h.symm⟩
    · cases h

theorem holds_unlock {own o : Own} {m t : Nat} (h : unlock own m t = some o) (m' t' : Nat) :
    holds own m' t' = holds o m' t' + if m' = m ∧ t' = t then 1 else 0 := by
  obtain ⟨c, h1, rfl⟩ := unlock_spec h
  by_cases hm : m' = m
  · subst hm
    simp only [holds, h1, put_same]
    by_cases hc : c = 0
    · subst hc
      by_cases ht : t = t' <;> simp [ht, eq_comm]
    · by_cases ht : t = t'
      · simp [ht, hc]
      · simp [ht, hc, Ne.symm ht]
  · simp [holds, put_other _ _ hm, hm]

theorem holds_lock {rec : Bool} {own o : Own} {m t : Nat} (h : lock rec own m t = some o) (m' t' : Nat) :
    holds o m' t' = holds own m' t' + if m' = m ∧ t' = t then 1 else 0 := by
  rcases lock_spec h with ⟨h1, rfl⟩ | ⟨_, c, h1, rfl⟩
  · by_cases hm : m' = m
    · subst hm
      by_cases ht : t = t'
      · simp [holds, h1, put_same, ht]
      · simp [holds, h1, put_same, ht, Ne.symm ht]
    · simp [holds, put_other _ _ hm, hm]
  · by_cases hm : m' = m
    · subst hm
      by_cases ht : t = t'
      · simp [holds, h1, put_same, ht]
      · simp [holds, h1, put_same, ht, Ne.symm ht]
    · simp [holds, put_other _ _ hm, hm]

/-- Every owner has locked its mutex at least once. -/
def Pos (own : Own) : Prop := ∀ m u c, own m = some (u, c) → 0 < c

theorem pos_unlock {own o : Own} {m t : Nat} (h : unlock own m t = some o) (hp : Pos own) : Pos o := by
  obtain ⟨c, h1, rfl⟩ := unlock_spec h
  intro m' u c' hh
  by_cases hm : m' = m
  · subst hm
    rw [put_same] at hh
    split at hh
    · cases hh
    · injection hh with hh; injection hh with _ hh; omega
  · rw [put_other _ _ hm] at hh; exact hp _ _ _ hh

theorem pos_lock {rec : Bool} {own o : Own} {m t : Nat} (h : lock rec own m t = some o) (hp : Pos own) : Pos o := by
  rcases lock_spec h with ⟨h1, rfl⟩ | ⟨_, c, h1, rfl⟩ <;> intro m' u c' hh <;> by_cases hm : m' = m
  · subst hm; rw [put_same] at hh; injection hh with hh; injection hh with _ hh; omega
  · rw [put_other _ _ hm] at hh; exact hp _ _ _ hh
  · subst hm; rw [put_same] at hh; injection hh with hh; injection hh with _ hh; omega
  · rw [put_other _ _ hm] at hh; exact hp _ _ _ hh

/-- The waiting code of a stack satisfies a predicate on (guards around it, code). -/
def StOk (P : List Nat → Prog → Prop) : List Frame → Prop
  | [] => True
  | .guard _ k :: st => P (frames st) k ∧ StOk P st
  | .tried k :: st => P (frames st) k ∧ StOk P st

def ThOk (P : List Nat → Prog → Prop) : Th → Prop
  | .run p st => P (frames st) p ∧ StOk P st
  | .store m _ _ p st => m ∈ frames st ∧ P (frames st) p ∧ StOk P st
  | .unwind st => StOk P st

/-- The invariant of disciplined programs. -/
structure Inv (init : Nat → Int) (s : St) : Prop where
  ok : ∀ t, ThOk Disciplined (s.th t)
  cnt : ∀ m t, (inside (s.th t)).count m = holds s.own m t
  pos : Pos s.own
  reg : ∀ t m x f p st, s.th t = .store m x f p st → s.val m = x
  val : ∀ m, s.val m = (s.log m).foldl (fun v f => f v) (init m)

theorem holds_unique {own : Own} {m t u : Nat} (ht : 0 < holds own m t) (hu : 0 < holds own m u) : t = u := by
  unfold holds at ht hu
  split at ht
  · rename_i v c heq
    simp only [heq] at hu
    split at ht
    · split at hu
      · omega
      · omega
    · omega
  · omega

theorem Inv.excl {init : Nat → Int} {s : St} (h : Inv init s) {m t u : Nat} (ht : m ∈ inside (s.th t))
    (hu : m ∈ inside (s.th u)) : t = u := by
  refine holds_unique (own := s.own) (m := m) ?_ ?_
  · rw [← h.cnt]; exact List.count_pos_iff.2 ht
  · rw [← h.cnt]; exact List.count_pos_iff.2 hu

theorem frames_guard (m : Nat) (k : Prog) (st : List Frame) : frames (.guard m k :: st) = m :: frames st := rfl
theorem frames_tried (k : Prog) (st : List Frame) : frames (.tried k :: st) = frames st := rfl

/-- A step that changes only the place of thread `t`. -/
theorem Inv.move {init : Nat → Int} {s : St} (h : Inv init s) {t : Nat} {th' : Th} (h1 : ThOk Disciplined th')
    (h2 : inside th' = inside (s.th t)) (h3 : ∀ m x f p st, th' = .store m x f p st → s.val m = x) :
    Inv init { s with th := put s.th t th' } := by
  refine ⟨fun u => ?_, fun m u => ?_, h.pos, fun u m x f p st hh => ?_, h.val⟩
  · by_cases hu : u = t
    · subst hu; simpa only [put_same] using h1
    · simpa only [put_other _ _ hu] using h.ok u
  · by_cases hu : u = t
    · subst hu; simp only [put_same, h2]; exact h.cnt m u
    · simpa only [put_other _ _ hu] using h.cnt m u
  · by_cases hu : u = t
    · subst hu; simp only [put_same] at hh; exact h3 _ _ _ _ _ hh
    · simp only [put_other _ _ hu] at hh; exact h.reg _ _ _ _ _ _ hh

theorem Inv.rel {init : Nat → Int} {s : St} (h : Inv init s) {t m : Nat} {th' : Th} {o : Own}
    (ho : unlock s.own m t = some o) (h1 : ThOk Disciplined th') (h2 : inside (s.th t) = m :: inside th')
    (h3 : ∀ m x f p st, th' ≠ .store m x f p st) :
    Inv init { s with own := o, th := put s.th t th' } := by
  refine ⟨fun u => ?_, fun m' u => ?_, pos_unlock ho h.pos, fun u m x f p st hh => ?_, h.val⟩
  · by_cases hu : u = t
    · subst hu; simpa only [put_same] using h1
    · simpa only [put_other _ _ hu] using h.ok u
  · have e := holds_unlock ho m' u
    have c := h.cnt m' u
    by_cases hu : u = t
    · subst hu
      rw [h2, List.count_cons] at c
      simp only [put_same, and_true] at e ⊢
      by_cases hm : m' = m
      · subst hm; simp at c e; omega
      · simp [hm, Ne.symm hm] at c e; omega
    · simp only [put_other _ _ hu, hu, and_false, if_false, Nat.add_zero] at e ⊢
      omega
  · by_cases hu : u = t
    · subst hu; simp only [put_same] at hh; exact absurd hh (h3 _ _ _ _ _)
    · simp only [put_other _ _ hu] at hh; exact h.reg _ _ _ _ _ _ hh

theorem Inv.acq {init : Nat → Int} {s : St} (h : Inv init s) {rec : Bool} {t m : Nat} {th' : Th} {o : Own}
    (ho : lock rec s.own m t = some o) (h1 : ThOk Disciplined th') (h2 : inside th' = m :: inside (s.th t))
    (h3 : ∀ m x f p st, th' ≠ .store m x f p st) :
    Inv init { s with own := o, th := put s.th t th' } := by
  refine ⟨fun u => ?_, fun m' u => ?_, pos_lock ho h.pos, fun u m x f p st hh => ?_, h.val⟩
  · by_cases hu : u = t
    · subst hu; simpa only [put_same] using h1
    · simpa only [put_other _ _ hu] using h.ok u
  · have e := holds_lock ho m' u
    have c := h.cnt m' u
    by_cases hu : u = t
    · subst hu
      simp only [put_same, and_true] at e ⊢
      rw [h2, List.count_cons]
      by_cases hm : m' = m
      · subst hm; simp at c e ⊢; omega
      · simp [hm, Ne.symm hm] at c e ⊢; omega
    · simp only [put_other _ _ hu, hu, and_false, if_false, Nat.add_zero] at e ⊢
      omega
  · by_cases hu : u = t
    · subst hu; simp only [put_same] at hh; exact absurd hh (h3 _ _ _ _ _)
    · simp only [put_other _ _ hu] at hh; exact h.reg _ _ _ _ _ _ hh

theorem Inv.step {init : Nat → Int} {s s' : St} {rec : Bool} {t : Nat} (h : Inv init s) (hs : step rec t s = some s') :
    Inv init s' := by
  have hok := h.ok t
  unfold AutoLock.step at hs
  split at hs
  · cases hs
  · rename_i m k st heq
    rw [Option.map_eq_some_iff] at hs
    obtain ⟨o, ho, rfl⟩ := hs
    rw [heq] at hok
    exact h.rel ho hok.2 (by rw [heq]; rfl) (by intros; simp)
  · rename_i k st heq
    injection hs with hs; subst hs
    rw [heq] at hok
    exact h.move hok.2 (by rw [heq]; rfl) (by intros; simp_all)
  · rename_i m f k st heq
    injection hs with hs; subst hs
    rw [heq] at hok
    refine h.move ⟨hok.1.1, hok.1.2, hok.2⟩ (by rw [heq]; rfl) ?_
    intro m' x f' p' st' e
    injection e with e1 e2; subst e1; exact e2
  · rename_i m p k st heq
    injection hs with hs; subst hs
    rw [heq] at hok
    split
    · exact h.move hok.2 (by rw [heq]; rfl) (by intros; simp_all)
    · exact h.move ⟨hok.1.2, hok.2⟩ (by rw [heq]; rfl) (by intros; simp_all)
  · rename_i m b k st heq
    rw [Option.map_eq_some_iff] at hs
    obtain ⟨o, ho, rfl⟩ := hs
    rw [heq] at hok
    exact h.acq ho ⟨hok.1.1, hok.1.2, hok.2⟩ (by rw [heq]; rfl) (by intros; simp)
  · rename_i b k st heq
    injection hs with hs; subst hs
    rw [heq] at hok
    exact h.move ⟨hok.1.1, hok.1.2, hok.2⟩ (by rw [heq]; rfl) (by intros; simp_all)
  · rename_i m b k st heq
    rw [heq] at hok
    exact hok.1.elim
  · rename_i m x f k st heq
    injection hs with hs; subst hs
    rw [heq] at hok
    have hm : m ∈ inside (s.th t) := by rw [heq]; exact hok.1
    have hx : s.val m = x := h.reg _ _ _ _ _ _ heq
    refine ⟨fun u => ?_, fun m' u => ?_, h.pos, fun u m' x' f' p' st' hh => ?_, fun m' => ?_⟩
    · by_cases hu : u = t
      · subst hu; simp only [put_same]; exact hok.2
      · simpa only [put_other _ _ hu] using h.ok u
    · by_cases hu : u = t
      · subst hu
        simp only [put_same]
        have := h.cnt m' u
        rw [heq] at this
        exact this
      · simpa only [put_other _ _ hu] using h.cnt m' u
    · by_cases hu : u = t
      · subst hu; simp only [put_same] at hh; cases hh
      · simp only [put_other _ _ hu] at hh
        have hu' := h.ok u
        rw [hh] at hu'
        have hm' : m' ∈ inside (s.th u) := by rw [hh]; exact hu'.1
        have : m' ≠ m := fun e => hu (h.excl (e ▸ hm') hm)
        simp only [put_other _ _ this]
        exact h.reg _ _ _ _ _ _ hh
    · by_cases hm' : m' = m
      · subst hm'
        simp only [put_same, List.foldl_append, ← h.val, hx]; rfl
      · simp only [put_other _ _ hm']; exact h.val m'
  · cases hs
  · rename_i m k st heq
    rw [Option.map_eq_some_iff] at hs
    obtain ⟨o, ho, rfl⟩ := hs
    rw [heq] at hok
    exact h.rel ho hok.2 (by rw [heq]; rfl) (by intros; simp)
  · rename_i k st heq
    injection hs with hs; subst hs
    rw [heq] at hok
    exact h.move hok (by rw [heq]; rfl) (by intros; simp_all)

theorem inv_start {val : Nat → Int} {prog : Nat → Prog} (hd : ∀ t, Disciplined [] (prog t)) :
    Inv val (start val prog) :=
  ⟨fun t => ⟨hd t, trivial⟩, fun _ _ => rfl, fun _ _ _ h => by simp [start] at h,
    fun _ _ _ _ _ _ h => by simp [start] at h, fun _ => rfl⟩

theorem inv_steps {rec : Bool} {n : Nat} {val : Nat → Int} {prog : Nat → Prog} {s : St} (hd : ∀ t, Disciplined [] (prog t))
    (h : Steps rec n (start val prog) s) : Inv val s := by
  generalize hs0 : start val prog = s0 at h
  induction h with
  | refl => subst hs0; exact inv_start hd
  | step _ h2 ih => exact (ih hs0).step h2

/-! Order -/

def WOrd (rec : Bool) : Th → Prop
  | .run p st => Ordered rec (frames st) p ∧ StOk (Ordered rec) st
  | .store _ _ _ p st => Ordered rec (frames st) p ∧ StOk (Ordered rec) st
  | .unwind st => StOk (Ordered rec) st

theorem word_step {rec : Bool} {s s' : St} {t : Nat} (hs : step rec t s = some s') (hd : ∀ t, ThOk Disciplined (s.th t))
    (h : ∀ t, WOrd rec (s.th t)) : ∀ t, WOrd rec (s'.th t) := by
  have key : ∃ th', s'.th = put s.th t th' ∧ WOrd rec th' := by
    have hok := h t
    have hd := hd t
    unfold AutoLock.step at hs
    split at hs
    · cases hs
    · rename_i m k st heq
      rw [Option.map_eq_some_iff] at hs
      obtain ⟨o, ho, rfl⟩ := hs
      rw [heq] at hok
      exact ⟨_, rfl, hok.2⟩
    · rename_i k st heq
      injection hs with hs; subst hs
      rw [heq] at hok
      exact ⟨_, rfl, hok.2⟩
    · rename_i m f k st heq
      injection hs with hs; subst hs
      rw [heq] at hok
      exact ⟨_, rfl, hok⟩
    · rename_i m p k st heq
      injection hs with hs; subst hs
      rw [heq] at hok
      refine ⟨_, rfl, ?_⟩
      split
      · exact hok.2
      · exact hok
    · rename_i m b k st heq
      rw [Option.map_eq_some_iff] at hs
      obtain ⟨o, ho, rfl⟩ := hs
      rw [heq] at hok
      exact ⟨_, rfl, hok.1.2.1, hok.1.2.2, hok.2⟩
    · rename_i b k st heq
      injection hs with hs; subst hs
      rw [heq] at hok
      exact ⟨_, rfl, hok.1.1, hok.1.2, hok.2⟩
    · rename_i m b k st heq
      rw [heq] at hd
      exact hd.1.elim
    · rename_i m x f k st heq
      injection hs with hs; subst hs
      rw [heq] at hok
      exact ⟨_, rfl, hok⟩
    · cases hs
    · rename_i m k st heq
      rw [Option.map_eq_some_iff] at hs
      obtain ⟨o, ho, rfl⟩ := hs
      rw [heq] at hok
      exact ⟨_, rfl, hok.2⟩
    · rename_i k st heq
      injection hs with hs; subst hs
      rw [heq] at hok
      exact ⟨_, rfl, hok⟩
  obtain ⟨th', e, hth⟩ := key
  intro u
  rw [e]
  by_cases hu : u = t
  · subst hu; rw [put_same]; exact hth
  · rw [put_other _ _ hu]; exact h u

theorem word_steps {rec : Bool} {n : Nat} {val : Nat → Int} {prog : Nat → Prog} {s : St} (hd : ∀ t, Disciplined [] (prog t))
    (ho : ∀ t, Ordered rec [] (prog t)) (h : Steps rec n (start val prog) s) : ∀ t, WOrd rec (s.th t) := by
  generalize hs0 : start val prog = s0 at h
  induction h with
  | refl => subst hs0; exact fun t => ⟨ho t, trivial⟩
  | step h1 h2 ih => subst hs0; exact word_step h2 (inv_steps hd h1).ok (ih rfl)

/-- A thread with guards on its stack is not finished. -/
theorem finished_inside {th : Th} (h : th.Finished) : inside th = [] := by
  unfold Th.Finished at h
  split at h
  · rfl
  · rfl
  · exact h.elim

/-- An unfinished thread that cannot step waits for a mutex owned by another thread or, without recursion, by itself. -/
theorem blocked {rec : Bool} {s : St} {t : Nat} {init : Nat → Int} (h : Inv init s) (hf : ¬ (s.th t).Finished)
    (hs : step rec t s = none) :
    ∃ m b k st u c, s.th t = .run (.guarded m b k) st ∧ s.own m = some (u, c) ∧ ¬ (rec = true ∧ u = t) := by
  have hok := h.ok t
  have hcnt := h.cnt
  have unl : ∀ {m st}, inside (s.th t) = m :: st → unlock s.own m t ≠ none := by
    intro m st e hn
    have c := h.cnt m t
    rw [e, List.count_cons_self] at c
    unfold unlock at hn
    unfold holds at c
    split at hn
    · rename_i u c' heq
      simp only [heq] at c
      split at hn
      · cases hn
      · rename_i hu; simp [hu] at c
    · rename_i hne
      split at c
      · rename_i u c' heq
        split at c
        · rcases c' with _ | c'
          · omega
          · exact hne _ _ heq
        · omega
      · omega
  unfold AutoLock.step at hs
  split at hs
  · rename_i heq; rw [heq] at hf; exact absurd trivial hf
  · rename_i m k st heq
    rw [Option.map_eq_none_iff] at hs
    exact absurd hs (unl (st := frames st) (by rw [heq]; rfl))
  · cases hs
  · cases hs
  · cases hs
  · rename_i m b k st heq
    rw [Option.map_eq_none_iff] at hs
    unfold lock at hs
    split at hs
    · cases hs
    · rename_i u c hown
      split at hs
      · cases hs
      · rename_i hn
        exact ⟨m, b, k, st, u, c, heq, hown, fun hh => hn (by simp [hh.1, hh.2])⟩
  · cases hs
  · cases hs
  · cases hs
  · rename_i heq; rw [heq] at hf; exact absurd trivial hf
  · rename_i m k st heq
    rw [Option.map_eq_none_iff] at hs
    exact absurd hs (unl (st := frames st) (by rw [heq]; rfl))
  · cases hs

/-- The mutex that a thread at a guard wants. -/
def want : Th → Nat
  | .run (.guarded m _ _) _ => m
  | _ => 0

theorem progress {rec : Bool} {s : St} {init : Nat → Int} (h : Inv init s) (ho : ∀ t, WOrd rec (s.th t)) {n : Nat}
    (hn : ∀ t, n ≤ t → (s.th t).Finished) (hu : ∃ t, ¬ (s.th t).Finished) : ∃ t s', step rec t s = some s' := by
  by_contra hno
  have hstuck : ∀ t, step rec t s = none := fun t => by
    cases e : step rec t s with
    | none => rfl
    | some s' => exact absurd ⟨t, s', e⟩ hno
  classical
  obtain ⟨t0, ht0⟩ := hu
  have hne : ((Finset.range n).filter fun t => ¬ (s.th t).Finished).Nonempty :=
    ⟨t0, by simp only [Finset.mem_filter, Finset.mem_range]; exact ⟨by by_contra hh; exact ht0 (hn t0 (by omega)), ht0⟩⟩
  obtain ⟨t, ht, hmax⟩ := Finset.exists_max_image _ (fun t => want (s.th t)) hne
  simp only [Finset.mem_filter, Finset.mem_range] at ht hmax
  obtain ⟨m, b, k, st, u, c, heq, hown, hrec⟩ := blocked h ht.2 (hstuck t)
  have hhold : m ∈ inside (s.th u) := by
    rw [← List.count_pos_iff, h.cnt, holds, hown]
    simpa using h.pos _ _ _ hown
  have hut : ¬ (s.th u).Finished := fun hf => by rw [finished_inside hf] at hhold; cases hhold
  have hun : u < n := by by_contra hh; exact hut (hn u (by omega))
  obtain ⟨m', b', k', st', u', c', heq', hown', hrec'⟩ := blocked h hut (hstuck u)
  have hw := ho u
  rw [heq'] at hw hhold
  have hord := hw.1.1
  rcases hord with hlt | ⟨hr, hmem⟩
  · have h1 : m < m' := hlt m hhold
    have h2 := hmax u ⟨hun, hut⟩
    rw [heq, heq'] at h2
    simp only [want] at h2
    omega
  · -- `u` wants a mutex that it already holds: it can take it
    have : m' ∈ inside (s.th u) := by rw [heq']; exact hmem
    rw [← List.count_pos_iff, h.cnt, holds, hown'] at this
    simp only at this
    split at this
    · rename_i e; exact hrec' ⟨hr, e⟩
    · omega

/-! Termination -/

def stSize : List Frame → Nat
  | [] => 0
  | .guard _ k :: st => 1 + size k + stSize st
  | .tried k :: st => 1 + size k + stSize st

def thSize : Th → Nat
  | .run p st => size p + stSize st
  | .store _ _ _ p st => 1 + size p + stSize st
  | .unwind st => stSize st

theorem step_local {rec : Bool} {s s' : St} {t : Nat} (hs : step rec t s = some s') :
    ∃ th', s'.th = put s.th t th' ∧ thSize th' < thSize (s.th t) := by
  unfold AutoLock.step at hs
  split at hs
  · cases hs
  · rename_i m k st heq
    rw [Option.map_eq_some_iff] at hs
    obtain ⟨o, ho, rfl⟩ := hs
    exact ⟨_, rfl, by rw [heq]; simp only [thSize, stSize, size]; omega⟩
  · rename_i k st heq
    injection hs with hs; subst hs
    exact ⟨_, rfl, by rw [heq]; simp only [thSize, stSize, size]; omega⟩
  · rename_i m f k st heq
    injection hs with hs; subst hs
    exact ⟨_, rfl, by rw [heq]; simp only [thSize, stSize, size]; omega⟩
  · rename_i m p k st heq
    injection hs with hs; subst hs
    refine ⟨_, rfl, ?_⟩
    rw [heq]
    split <;> simp only [thSize, stSize, size] <;> omega
  · rename_i m b k st heq
    rw [Option.map_eq_some_iff] at hs
    obtain ⟨o, ho, rfl⟩ := hs
    exact ⟨_, rfl, by rw [heq]; simp only [thSize, stSize, size]; omega⟩
  · rename_i b k st heq
    injection hs with hs; subst hs
    exact ⟨_, rfl, by rw [heq]; simp only [thSize, stSize, size]; omega⟩
  · rename_i m b k st heq
    injection hs with hs; subst hs
    exact ⟨_, rfl, by rw [heq]; simp only [thSize, stSize, size]; omega⟩
  · rename_i m x f k st heq
    injection hs with hs; subst hs
    exact ⟨_, rfl, by rw [heq]; simp only [thSize, stSize, size]; omega⟩
  · cases hs
  · rename_i m k st heq
    rw [Option.map_eq_some_iff] at hs
    obtain ⟨o, ho, rfl⟩ := hs
    exact ⟨_, rfl, by rw [heq]; simp only [thSize, stSize, size]; omega⟩
  · rename_i k st heq
    injection hs with hs; subst hs
    exact ⟨_, rfl, by rw [heq]; simp only [thSize, stSize, size]; omega⟩

theorem finished_none {rec : Bool} {s : St} {t : Nat} (h : (s.th t).Finished) : step rec t s = none := by
  unfold Th.Finished at h
  unfold AutoLock.step
  split at h
  · rename_i heq; simp only [heq]
  · rename_i heq; simp only [heq]
  · exact h.elim

theorem steps_size {rec : Bool} {n k : Nat} {s0 s : St} (h : Steps rec k s0 s) (hn : ∀ t, n ≤ t → (s0.th t).Finished) :
    (∀ t, n ≤ t → (s.th t).Finished) ∧
      k + ∑ t ∈ Finset.range n, thSize (s.th t) ≤ ∑ t ∈ Finset.range n, thSize (s0.th t) := by
  induction h with
  | refl => exact ⟨hn, by omega⟩
  | @step k s0 s1 s2 t h1 h2 ih =>
    obtain ⟨i1, i2⟩ := ih hn
    obtain ⟨th', e, hlt⟩ := step_local h2
    have htn : t < n := by
      by_contra hh
      rw [finished_none (i1 t (by omega))] at h2
      cases h2
    refine ⟨fun u hu => ?_, ?_⟩
    · rw [e, put_other _ _ (by omega)]; exact i1 u hu
    · have hmem : t ∈ Finset.range n := Finset.mem_range.2 htn
      rw [← Finset.add_sum_erase _ (fun t => thSize (s1.th t)) hmem] at i2
      rw [← Finset.add_sum_erase _ (fun t => thSize (s2.th t)) hmem]
      have : ∑ x ∈ (Finset.range n).erase t, thSize (s2.th x) = ∑ x ∈ (Finset.range n).erase t, thSize (s1.th x) :=
        Finset.sum_congr rfl fun x hx => by rw [e, put_other _ _ (Finset.ne_of_mem_erase hx)]
      rw [this]
      have e2 : s2.th t = th' := by rw [e, put_same]
      rw [e2]
      omega

/-! No update is lost -/

def StNo : List Frame → Prop
  | [] => True
  | .guard _ k :: st => NoThrow k ∧ StNo st
  | .tried k :: st => NoThrow k ∧ StNo st

def ThNo : Th → Prop
  | .run p st => NoThrow p ∧ StNo st
  | .store _ _ _ p st => NoThrow p ∧ StNo st
  | .unwind _ => False

def stRem (m : Nat) : List Frame → List (Int → Int)
  | [] => []
  | .guard _ k :: st => updates m k ++ stRem m st
  | .tried k :: st => updates m k ++ stRem m st

def thRem (m : Nat) : Th → List (Int → Int)
  | .run p st => updates m p ++ stRem m st
  | .store m' _ f p st => if m' = m then f :: (updates m p ++ stRem m st) else updates m p ++ stRem m st
  | .unwind _ => []

theorem step_rem {rec : Bool} {s s' : St} {t : Nat} (hs : step rec t s = some s') (hno : ThNo (s.th t)) :
    ∃ th', s'.th = put s.th t th' ∧ ThNo th' ∧ ∀ m, s'.log m ++ thRem m th' = s.log m ++ thRem m (s.th t) := by
  unfold AutoLock.step at hs
  split at hs
  · cases hs
  · rename_i m k st heq
    rw [Option.map_eq_some_iff] at hs
    obtain ⟨o, ho, rfl⟩ := hs
    rw [heq] at hno ⊢
    exact ⟨_, rfl, hno.2, fun m => rfl⟩
  · rename_i k st heq
    injection hs with hs; subst hs
    rw [heq] at hno ⊢
    exact ⟨_, rfl, hno.2, fun m => rfl⟩
  · rename_i m f k st heq
    injection hs with hs; subst hs
    rw [heq] at hno ⊢
    refine ⟨_, rfl, hno, fun m' => ?_⟩
    simp only [thRem, updates]
    split <;> simp
  · rename_i m p k st heq
    rw [heq] at hno
    exact hno.1.elim
  · rename_i m b k st heq
    rw [Option.map_eq_some_iff] at hs
    obtain ⟨o, ho, rfl⟩ := hs
    rw [heq] at hno ⊢
    exact ⟨_, rfl, ⟨hno.1.1, hno.1.2, hno.2⟩, fun m => by simp [thRem, updates, stRem]⟩
  · rename_i b k st heq
    injection hs with hs; subst hs
    rw [heq] at hno ⊢
    exact ⟨_, rfl, ⟨hno.1.1, hno.1.2, hno.2⟩, fun m => by simp [thRem, updates, stRem]⟩
  · rename_i m b k st heq
    injection hs with hs; subst hs
    rw [heq] at hno ⊢
    exact ⟨_, rfl, ⟨hno.1.1, hno.1.2, hno.2⟩, fun m => by simp [thRem, updates, stRem]⟩
  · rename_i m x f k st heq
    injection hs with hs; subst hs
    rw [heq] at hno ⊢
    refine ⟨_, rfl, hno, fun m' => ?_⟩
    by_cases hm : m' = m
    · subst hm; simp [thRem, put_same]
    · simp [thRem, put_other _ _ hm, Ne.symm hm]
  · cases hs
  · rename_i m k st heq
    rw [heq] at hno
    exact hno.elim
  · rename_i k st heq
    rw [heq] at hno
    exact hno.elim

theorem steps_rem {rec : Bool} {n k : Nat} {val : Nat → Int} {prog : Nat → Prog} {s : St}
    (h : Steps rec k (start val prog) s) (hn : ∀ t, n ≤ t → prog t = .done) (hno : ∀ t, NoThrow (prog t)) (m : Nat) :
    (∀ t, ThNo (s.th t)) ∧
      (s.log m : Multiset (Int → Int)) + ∑ t ∈ Finset.range n, (thRem m (s.th t) : Multiset (Int → Int)) =
        ∑ t ∈ Finset.range n, (updates m (prog t) : Multiset (Int → Int)) := by
  generalize hs0 : start val prog = s0 at h
  induction h with
  | refl =>
    subst hs0
    refine ⟨fun t => ⟨hno t, trivial⟩, ?_⟩
    simp [start, thRem, stRem]
  | @step k s0 s1 s2 t h1 h2 ih =>
    subst hs0
    obtain ⟨i1, i2⟩ := ih rfl
    obtain ⟨th', e, hth, hlog⟩ := step_rem h2 (i1 t)
    have hfin := (steps_size (n := n) h1 (fun t ht => by simp [start, hn t ht, Th.Finished])).1
    have htn : t < n := by
      by_contra hh
      rw [finished_none (hfin t (by omega))] at h2
      cases h2
    refine ⟨fun u => ?_, ?_⟩
    · rw [e]
      by_cases hu : u = t
      · subst hu; rw [put_same]; exact hth
      · rw [put_other _ _ hu]; exact i1 u
    · have hmem : t ∈ Finset.range n := Finset.mem_range.2 htn
      rw [← i2, ← Finset.add_sum_erase _ (fun t => (thRem m (s1.th t) : Multiset (Int → Int))) hmem,
        ← Finset.add_sum_erase _ (fun t => (thRem m (s2.th t) : Multiset (Int → Int))) hmem]
      have : ∑ x ∈ (Finset.range n).erase t, (thRem m (s2.th x) : Multiset (Int → Int)) =
          ∑ x ∈ (Finset.range n).erase t, (thRem m (s1.th x) : Multiset (Int → Int)) :=
        Finset.sum_congr rfl fun x hx => by rw [e, put_other _ _ (Finset.ne_of_mem_erase hx)]
      rw [this]
      have e2 : s2.th t = th' := by rw [e, put_same]
      rw [e2, ← add_assoc, ← add_assoc, Multiset.coe_add, Multiset.coe_add, hlog m]

end Verif.AutoLock
