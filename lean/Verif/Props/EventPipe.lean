import Verif.Model.EventPipe
import Verif.Spec.EventPipe
import Verif.Props.Event

set_option linter.unusedSimpArgs false

/-!
# C102: the pipe version of `Event` is a counting semaphore, the Windows version an auto-reset event
-/
namespace Verif.Props.EventPipe

open Verif.EventPipe Verif.Spec.Event Verif.Spec.EventPipe

/-- The events of a schedule. -/
def events (l : List Act) : List Ev :=
  l.filterMap (fun
    | .put => some .signal
    | .take => some .consume
    | _ => none)

theorem count_append (l l' : List Ev) : ∀ n, count n (l ++ l') = (count n l).bind (fun n => count n l') := by
  induction l with
  | nil => intro n; rfl
  | cons a l ih =>
    intro n
    cases a with
    | signal => exact ih (n + 1)
    | consume => cases n with
      | zero => rfl
      | succ n => exact ih n

/-- C102: with the pipe, in every schedule of any number of threads, with signals or not, the bytes written and read are those of a counting
semaphore whose value is the number of bytes in the pipe. -/
theorem C102_pipe_refines (cap : Nat) (l : List Act) (s : St) (h : Steps cap St.init l s) : count 0 (events l) = some s.bytes ∧ s.bytes ≤ cap := by
  generalize hi : St.init = s0 at h
  induction h with
  | nil => subst hi; exact ⟨rfl, by simp [St.init]⟩
  | @snoc l' s' t a s'' h hs ih =>
    obtain ⟨i1, i2⟩ := ih
    rw [events, List.filterMap_append, show List.filterMap _ l' = events l' from rfl, count_append, i1]
    cases hs with
    | write hp hb => exact ⟨rfl, hb⟩
    | read hp hb =>
      obtain ⟨b, pc⟩ := s'
      cases b with
      | zero => simp at hb
      | succ b => exact ⟨rfl, by simp only at i2 ⊢; omega⟩
    | callWakeup hp => exact ⟨rfl, i2⟩
    | callWait hp => exact ⟨rfl, i2⟩
    | writeIntr hp hb => exact ⟨rfl, i2⟩
    | readIntr hp hb => exact ⟨rfl, i2⟩

theorem count_sum (l : List Ev) : ∀ n m, count n l = some m → n + l.countP (· = .signal) = m + l.countP (· = .consume) := by
  induction l with
  | nil => intro n m h; simp [count] at h; simp [h]
  | cons a l ih =>
    intro n m h
    cases a with
    | signal =>
      have := ih (n + 1) m h
      simp; omega
    | consume => cases n with
      | zero => simp [count] at h
      | succ n =>
        have := ih n m h
        simp; omega

theorem countP_events (l : List Act) : (events l).countP (· = .signal) = l.countP (· = .put) ∧ (events l).countP (· = .consume) = l.countP (· = .take) := by
  induction l with
  | nil => exact ⟨rfl, rfl⟩
  | cons a l ih =>
    have e : ∀ a, events (a :: l) = events [a] ++ events l := fun a => by cases a <;> rfl
    cases a <;> rw [e] <;> simp [List.countP_append, ih.1, ih.2, events, List.countP_cons] <;> simp [events] at ih <;> omega

/-- C102: without signals every call that returns has written or read, so the waits that have returned and the bytes left make up the wake-ups
that have returned; in particular no wait returns without a wake-up of its own. -/
theorem C102_pipe_balance (cap : Nat) (l : List Act) (s : St) (h : Steps cap St.init l s) :
    l.countP (· = .put) = l.countP (· = .take) + s.bytes := by
  have := count_sum _ _ _ (C102_pipe_refines cap l s h).1
  rw [(countP_events l).1, (countP_events l).2] at this
  omega

/-- C102: a wake-up that found nobody waiting is not lost, and several of them are not merged: as long as bytes are left a `wait` returns at once. -/
theorem C102_pipe_no_wait (cap : Nat) (l : List Act) (s : St) (h : Steps cap St.init l s) (t : Nat) (ht : s.pc t = .reading)
    (hn : l.countP (· = .take) < l.countP (· = .put)) : ∃ s', Step cap s t .take s' ∧ s'.pc t = .idle := by
  have := C102_pipe_balance cap l s h
  exact ⟨_, .read ht (by omega), by simp [upd]⟩

theorem stay {cap : Nat} (e : Exec cap) {t : Nat} {p : Pc} : ∀ (k n : Nat), (e.st n).pc t = p → (∀ m, n ≤ m → m < n + k → e.who m ≠ some t) → (e.st (n + k)).pc t = p := by
  intro k
  induction k with
  | zero => intro n h _; exact h
  | succ k ih =>
    intro n h hw
    have h1 := ih n h (fun m h1 h2 => hw m h1 (by omega))
    have h2 := hw (n + k) (by omega) (by omega)
    have hs := e.step (n + k)
    rw [show n + (k + 1) = n + k + 1 from rfl]
    cases hq : e.who (n + k) with
    | none => rw [hq] at hs; rw [hs.1]; exact h1
    | some u =>
      rw [hq] at hs h2
      have hne : t ≠ u := fun h => h2 (by rw [h])
      generalize e.act (n + k) = a at hs
      generalize e.st (n + k) = s at hs h1
      generalize e.st (n + k + 1) = s' at hs
      cases hs <;> simpa [upd, hne] using h1

/-- C102: under a fair scheduler a wait returns when wake-ups keep coming. -/
theorem C102_pipe_live (cap : Nat) (e : Exec cap) (hf : e.Fair) (hput : ∀ n, ∃ m, n ≤ m ∧ e.act m = .put) (n t : Nat) (ht : (e.st n).pc t = .reading) :
    ∃ m, n ≤ m ∧ (e.st m).pc t = .idle := by
  by_cases hstep : ∃ m, n ≤ m ∧ e.who m = some t
  · obtain ⟨m, hm⟩ : ∃ m, (n ≤ m ∧ e.who m = some t) ∧ ∀ k, n ≤ k → k < m → e.who k ≠ some t := by
      obtain ⟨m, hm⟩ := hstep
      induction m using Nat.strongRecOn with
      | ind m ih =>
        by_cases hc : ∃ k, n ≤ k ∧ k < m ∧ e.who k = some t
        · obtain ⟨k, k1, k2, k3⟩ := hc
          exact ih k k2 ⟨k1, k3⟩
        · exact ⟨m, hm, fun k k1 k2 k3 => hc ⟨k, k1, k2, k3⟩⟩
    obtain ⟨⟨m1, m2⟩, m3⟩ := hm
    have hr := stay e (m - n) n ht (fun k k1 k2 => m3 k k1 (by omega))
    rw [show n + (m - n) = m by omega] at hr
    refine ⟨m + 1, by omega, ?_⟩
    have hs := e.step m
    rw [m2] at hs
    simp only at hs
    generalize e.act m = a at hs
    generalize e.st m = s at hs hr
    generalize e.st (m + 1) = s' at hs
    cases hs with
    | callWakeup h => rw [hr] at h; cases h
    | write h _ => rw [hr] at h; cases h
    | writeIntr h _ => rw [hr] at h; cases h
    | callWait h => rw [hr] at h; cases h
    | read _ _ => simp [upd]
    | readIntr _ _ => simp [upd]
  · exfalso
    have hno : ∀ m, n ≤ m → e.who m ≠ some t := fun m hm hw => hstep ⟨m, hm, hw⟩
    refine hstep (hf t ?_ n)
    intro k
    obtain ⟨m, hm, ha⟩ := hput (max n k)
    refine ⟨m + 1, by omega, ?_⟩
    have hr := stay e (m + 1 - n) n ht (fun j j1 j2 => hno j j1)
    rw [show n + (m + 1 - n) = m + 1 by omega] at hr
    rw [Enabled, hr]
    have hs := e.step m
    rw [ha] at hs
    cases hq : e.who m with
    | none => rw [hq] at hs; exact absurd hs.2 (by decide)
    | some u =>
      rw [hq] at hs
      simp only at hs
      generalize e.st m = s at hs
      generalize e.st (m + 1) = s' at hs
      cases hs
      simp

/-- C102: the Windows version is an auto-reset event, as the version with a mutex (C48). -/
theorem C102_windows_refines (l : List Act) (s : WSt) (h : WSteps WSt.init l s) : flag false (events l) = some s.flag := by
  generalize hi : WSt.init = s0 at h
  induction h with
  | nil => subst hi; rfl
  | @snoc l' s' t a s'' h hs ih =>
    have i1 := ih
    rw [events, List.filterMap_append, show List.filterMap _ l' = events l' from rfl, Verif.Props.Event.flag_append, i1]
    cases hs with
    | set hp => simp [flag]
    | wait hp hf => simp [flag, hf]
    | callWakeup hp => simp [flag]
    | callWait hp => simp [flag]

/-- Thread 0 wakes twice, thread 1 waits twice. -/
def twice : List Act := [.call, .put, .call, .put, .call, .take, .call, .take]

theorem twice_pipe (cap : Nat) (hc : 2 ≤ cap) : ∃ s, Steps cap St.init twice s ∧ s.bytes = 0 := by
  have h1 := (Steps.nil (cap := cap) (s := St.init)).snoc (.callWakeup (t := 0) rfl)
  have h2 := h1.snoc (.write (t := 0) (by simp [upd]) (by simp [St.init]; omega))
  have h3 := h2.snoc (.callWakeup (t := 0) (by simp [upd]))
  have h4 := h3.snoc (.write (t := 0) (by simp [upd]) (by simp [St.init]; omega))
  have h5 := h4.snoc (.callWait (t := 1) (by simp [upd, St.init]))
  have h6 := h5.snoc (.read (t := 1) (by simp [upd]) (by simp))
  have h7 := h6.snoc (.callWait (t := 1) (by simp [upd]))
  have h8 := h7.snoc (.read (t := 1) (by simp [upd]) (by simp [St.init]))
  exact ⟨_, h8, by simp [St.init]⟩

example : ∃ s, Steps 65536 St.init twice s ∧ s.bytes = 0 := twice_pipe _ (by decide)

/-- C102 finding: the versions differ.  After two wake-ups two waits return with the pipe; in the others the second has to wait for a third wake-up. -/
theorem C102_finding_versions : (∀ cap, 2 ≤ cap → ∃ s, Steps cap St.init twice s) ∧ (¬ ∃ s, WSteps WSt.init twice s) ∧
    (∀ (l : List Event.Act) (s : Event.St), Event.Steps Event.St.init l s → Verif.Props.Event.events l ≠ events twice) := by
  refine ⟨fun cap hc => ?_, ?_, ?_⟩
  · obtain ⟨s, h, -⟩ := twice_pipe cap hc
    exact ⟨s, h⟩
  · rintro ⟨s, h⟩
    have := C102_windows_refines _ _ h
    exact absurd this (by simp [twice, events, flag])
  · intro l s h he
    have := Verif.Props.Event.C48_refines l s h
    rw [he] at this
    exact absurd this (by simp [twice, events, flag])

/-- C102 finding: a signal makes `wait` return although nobody has called `wakeup`. -/
theorem C102_finding_signal (cap : Nat) : ∃ s1 s2, Steps cap St.init [.call] s1 ∧ s1.pc 0 = .reading ∧ Steps cap St.init [.call, .intr] s2 ∧ s2.pc 0 = .idle := by
  have h1 := (Steps.nil (cap := cap) (s := St.init)).snoc (.callWait (t := 0) rfl)
  have h2 := h1.snoc (.readIntr (t := 0) (by simp [upd]) rfl)
  exact ⟨_, _, h1, by simp [upd], h2, by simp [upd]⟩

/-- C102 finding: `wakeup` blocks when as many wake-ups as the pipe holds bytes have not been waited for. -/
theorem C102_finding_blocks (cap : Nat) : ∃ l s, Steps cap St.init l s ∧ s.pc 0 = .writing ∧ l.countP (· = .put) = cap ∧ ∀ t, ¬ Enabled cap s t := by
  have key : ∀ k, k ≤ cap → ∃ l s, Steps cap St.init l s ∧ s.bytes = k ∧ (∀ t, s.pc t = .idle) ∧ l.countP (· = .put) = k := by
    intro k
    induction k with
    | zero => intro _; exact ⟨[], _, .nil, rfl, fun _ => rfl, rfl⟩
    | succ k ih =>
      intro hk
      obtain ⟨l, s, h, hb, hi, hc⟩ := ih (by omega)
      have h1 := h.snoc (.callWakeup (t := 0) (hi 0))
      have h2 := h1.snoc (.write (t := 0) (by simp [upd]) (by simp; omega))
      refine ⟨_, _, h2, by simp [hb], ?_, by simp [hc]⟩
      intro t
      by_cases ht : t = 0
      · simp [upd, ht]
      · simp [upd, ht, hi t]
  obtain ⟨l, s, h, hb, hi, hc⟩ := key cap (Nat.le_refl _)
  refine ⟨_, _, h.snoc (.callWakeup (t := 0) (hi 0)), by simp [upd], by simp [hc], ?_⟩
  intro t
  by_cases ht : t = 0
  · simp [Enabled, upd, ht, hb]
  · simp [Enabled, upd, ht, hi t]

#print axioms C102_pipe_refines
#print axioms C102_pipe_balance
#print axioms C102_pipe_no_wait
#print axioms C102_pipe_live
#print axioms C102_windows_refines
#print axioms C102_finding_versions
#print axioms C102_finding_signal
#print axioms C102_finding_blocks

end Verif.Props.EventPipe
