import Verif.Proof.Event
set_option linter.unusedSimpArgs false

/-!
# C48: `Event` never loses a wake-up
-/
namespace Verif.Props.Event
open Verif.Event Verif.Spec.Event

/-- The events of a schedule. -/
def events (l : List Act) : List Ev :=
  l.filterMap (fun
    | .set => some .signal
    | .clear => some .consume
    | .other => none)

theorem flag_append (l l' : List Ev) : ∀ b, flag b (l ++ l') = (flag b l).bind (fun b => flag b l') := by
  induction l with
  | nil => intro b; rfl
  | cons a l ih =>
    intro b
    cases a with
    | signal => exact ih true
    | consume => cases b <;> simp [flag, ih]

/-- C48: in every schedule of any number of threads, the assignments to the flag are those of an auto-reset event: a `wait`
gets past its loop only when a `wakeup` signaled and no other `wait` consumed the signal since. -/
theorem C48_refines (l : List Act) (s : St) (h : Steps St.init l s) : flag false (events l) = some s.signaled := by
  generalize hi : St.init = s0 at h
  induction h with
  | nil => subst hi; rfl
  | @snoc l' _ t a s'' h hs ih =>
    have hinv := inv_steps h (hi ▸ inv_init)
    rw [events, List.filterMap_append]
    rw [show List.filterMap _ l' = events l' from rfl, flag_append, ih]
    cases hs with
    | aClear hp =>
      have := hinv.clear _ hp
      simp [flag, this]
    | wSet hp => simp [flag]
    | _ => simp [flag]

theorem flag_two (l l' : List Ev) (b b' : Bool) (h : flag b (l ++ Ev.consume :: l') = some b') (hn : ∀ e ∈ l', e ≠ .signal) :
    Ev.consume ∉ l' := by
  rw [flag_append] at h
  cases hf : flag b l with
  | none => rw [hf] at h; simp at h
  | some c =>
    rw [hf] at h
    cases c with
    | false => simp [flag] at h
    | true =>
      simp only [Option.bind_some, flag, if_true] at h
      cases l' with
      | nil => simp
      | cons a l' =>
        cases a with
        | signal => exact absurd rfl (hn _ (by simp))
        | consume => simp [flag] at h

/-- C48: between two `wait`s that consume there is a `wakeup` that signals, and before the first as well: every completed `wait`
has a `wakeup` of its own. -/
theorem C48_wait_matched (l1 l2 l3 : List Act) (s : St) :
    (Steps St.init (l1 ++ Act.clear :: l2) s → Act.set ∈ l1) ∧
    (Steps St.init (l1 ++ Act.clear :: l2 ++ Act.clear :: l3) s → Act.set ∈ l2) := by
  constructor
  · intro h
    apply Classical.byContradiction
    intro hn
    have hf := C48_refines _ _ h
    rw [events, List.filterMap_append, List.filterMap_cons] at hf
    simp only at hf
    rw [flag_append] at hf
    have : flag false (List.filterMap (fun | .set => some Ev.signal | .clear => some .consume | .other => none) l1) ≠ some true := by
      generalize hb : false = b
      have hb' : b = false := hb.symm
      clear h hf hb
      induction l1 generalizing b with
      | nil => simp [flag, hb']
      | cons a l1 ih =>
        cases a with
        | set => simp at hn
        | clear => simp [flag, hb']
        | other => simpa using ih (by simpa using hn) b hb'
    generalize List.filterMap (fun | .set => some Ev.signal | .clear => some .consume | .other => none) l1 = m at *
    cases hfm : flag false m with
    | none => rw [hfm] at hf; simp at hf
    | some c => cases c <;> simp_all [flag]
  · intro h
    apply Classical.byContradiction
    intro hn
    have hf := C48_refines _ _ h
    rw [events, List.filterMap_append, List.filterMap_append, List.filterMap_cons, List.filterMap_cons] at hf
    simp only [List.append_assoc, List.cons_append] at hf
    have := flag_append (List.filterMap (fun | .set => some Ev.signal | .clear => some .consume | .other => none) l1 ++
      Ev.consume :: List.filterMap (fun | .set => some Ev.signal | .clear => some .consume | .other => none) l2) 
      (Ev.consume :: List.filterMap (fun | .set => some Ev.signal | .clear => some .consume | .other => none) l3) false
    simp only [List.append_assoc, List.cons_append] at this
    rw [this] at hf
    have h2 : flag false (List.filterMap (fun | .set => some Ev.signal | .clear => some .consume | .other => none) l1 ++
      Ev.consume :: List.filterMap (fun | .set => some Ev.signal | .clear => some .consume | .other => none) l2) ≠ some true := by
      rw [flag_append]
      generalize List.filterMap (fun | .set => some Ev.signal | .clear => some .consume | .other => none) l1 = m
      cases flag false m with
      | none => simp
      | some c =>
        cases c with
        | false => simp [flag]
        | true =>
          simp only [Option.bind_some, flag, if_true]
          clear h hf this
          induction l2 with
          | nil => simp [flag]
          | cons a l2 ih =>
            cases a with
            | set => simp at hn
            | clear => simp [flag]
            | other => simpa using ih (by simpa using hn)
    generalize (List.filterMap (fun | .set => some Ev.signal | .clear => some .consume | .other => none) l1 ++
      Ev.consume :: List.filterMap (fun | .set => some Ev.signal | .clear => some .consume | .other => none) l2) = m at *
    cases hfm : flag false m with
    | none => rw [hfm] at hf; simp at hf
    | some c => cases c <;> simp_all [flag]

/-- The thread is about to read or write `isSignaled_`. -/
def Accesses (p : Pc) : Prop := p = .wSet ∨ p = .aCheck ∨ p = .aClear

/-- C48: no two threads are about to access the flag at the same time (no data race), and never more than one thread holds the
mutex. -/
theorem C48_mutex (l : List Act) (s : St) (h : Steps St.init l s) (t u : Nat) (ht : Accesses (s.pc t)) (hu : Accesses (s.pc u)) :
    t = u := by
  have hi := inv_steps h inv_init
  have h1 : ∀ v, Accesses (s.pc v) → s.lock = some v := fun v hv => (hi.holder v).1 (by
    obtain h | h | h := hv <;> rw [h] <;> rfl)
  have := h1 t ht
  rw [h1 u hu] at this
  simpa using this.symm

/-- C48: while the flag is set and a thread sleeps in `wait`, some thread is about to call `notify_one`, or is awake in `wait`
and will look at the flag; and some thread can go on. So there is no lost wake-up and no deadlock. -/
theorem C48_no_lost_wakeup (l : List Act) (s : St) (h : Steps St.init l s) (hs : s.signaled = true) (u : Nat)
    (hu : s.pc u = .asleep) :
    (∃ t, s.pc t = .wNotify ∨ s.pc t = .woken ∨ s.pc t = .aCheck ∨ s.pc t = .aClear) ∧ ∃ t, Enabled s t := by
  have hi := inv_steps h inv_init
  obtain ⟨t, ht⟩ := hi.nolost hs ⟨u, hu⟩
  have h1 : s.pc t = .wNotify ∨ s.pc t = .woken ∨ s.pc t = .aCheck ∨ s.pc t = .aClear := by
    cases hp : s.pc t <;> rw [hp] at ht <;> simp_all [Pc.flying]
  refine ⟨⟨t, h1⟩, ?_⟩
  cases hl : s.lock with
  | none =>
    refine ⟨t, ?_⟩
    obtain h | h | h | h := h1 <;> simp [Enabled, h, hl]
  | some v =>
    refine ⟨v, ?_⟩
    have := (hi.holder v).2 hl
    cases hp : s.pc v <;> rw [hp] at this <;> simp_all [Enabled, Pc.holds]

/-- The thread is inside `wait` and has not consumed yet. -/
def Waiting (p : Pc) : Prop := p = .aLock ∨ p = .aCheck ∨ p = .asleep ∨ p = .woken ∨ p = .aClear

/-- C48: in every fair execution, when the flag is set and some thread is inside `wait`, then some `wait` consumes the flag
later and returns: no waiter sleeps while the event stays signaled. -/
theorem C48_live (e : Exec) (hf : e.Fair) (n u : Nat) (hs : (e.st n).signaled = true) (hu : Waiting ((e.st n).pc u)) :
    ∃ m t k, n ≤ m ∧ m < k ∧ e.who m = some t ∧ e.act m = .clear ∧ (e.st k).pc t = .idle := by
  have hu' : (e.st n).pc u = .asleep ∨ (e.st n).pc u = .aLock ∨ (e.st n).pc u = .woken ∨ (e.st n).pc u = .aCheck ∨
      (e.st n).pc u = .aClear := by
    obtain h | h | h | h | h := hu <;> simp [h]
  obtain ⟨m, hm, ha⟩ := consumed e hf hs hu'
  obtain ⟨t, hw, -, hp⟩ := clear_by e ha
  obtain ⟨k, hk, hi⟩ := unlock_idle e hf (.inr hp)
  exact ⟨m, t, k, hm, by omega, hw, ha, hi⟩

/-- The thread is inside `wakeup`. -/
def Waking (p : Pc) : Prop := p = .wLock ∨ p = .wSet ∨ p = .wNotify ∨ p = .wUnlock

/-- C48: in every fair execution every `wakeup` returns. -/
theorem C48_wakeup_returns (e : Exec) (hf : e.Fair) (n t : Nat) (h : Waking ((e.st n).pc t)) :
    ∃ m, n ≤ m ∧ (e.st m).pc t = .idle := by
  obtain h | h | h | h := h
  · obtain ⟨j, hj, h⟩ := lock_move_wakeup e hf h
    obtain ⟨m, hm, hi⟩ := set_idle e hf h
    exact ⟨m, by omega, hi⟩
  · exact set_idle e hf h
  · exact notify_idle e hf h
  · exact unlock_idle e hf (.inl h)

/-- C48 finding (by design of the flag, unlike the pipe version in the same header): two `wakeup`s without a `wait` in between
count as one; the second of two `wait`s sleeps. -/
theorem C48_finding_coalesced : ∃ l s, Steps St.init l s ∧ (l.filter (· == .set)).length = 2 ∧ (l.filter (· == .clear)).length = 1 ∧
    s.pc 1 = .asleep ∧ ∀ t, ¬ Enabled s t := by
  have h0 : Steps St.init [] _ := .nil
  have h1 := h0.snoc (.callWakeup (t := 0) rfl)
  have h2 := h1.snoc (.wLock (t := 0) rfl rfl)
  have h3 := h2.snoc (.wSet (t := 0) rfl)
  have h4 := h3.snoc (.wNotifyNone (t := 0) rfl (by intro u; simp only [upd, St.init]; split <;> simp))
  have h5 := h4.snoc (.wUnlock (t := 0) rfl)
  have h6 := h5.snoc (.callWakeup (t := 0) rfl)
  have h7 := h6.snoc (.wLock (t := 0) rfl rfl)
  have h8 := h7.snoc (.wSet (t := 0) rfl)
  have h9 := h8.snoc (.wNotifyNone (t := 0) rfl (by intro u; simp only [upd, St.init]; split <;> simp))
  have h10 := h9.snoc (.wUnlock (t := 0) rfl)
  have h11 := h10.snoc (.callWait (t := 1) rfl)
  have h12 := h11.snoc (.aLock (t := 1) rfl rfl)
  have h13 := h12.snoc (.aTrue (t := 1) rfl rfl)
  have h14 := h13.snoc (.aClear (t := 1) rfl)
  have h15 := h14.snoc (.aUnlock (t := 1) rfl)
  have h16 := h15.snoc (.callWait (t := 1) rfl)
  have h17 := h16.snoc (.aLock (t := 1) rfl rfl)
  refine ⟨_, _, h17.snoc (.aSleep (t := 1) rfl rfl), by decide, by decide, rfl, ?_⟩
  intro t
  simp only [Enabled, upd, St.init]
  by_cases h1 : t = 1
  · simp [h1]
  · by_cases h0 : t = 0 <;> simp [h1, h0]

/-! ### A fair execution in which a sleeping waiter is woken -/

/-- The states: thread 0 waits, thread 1 wakes it. -/
def d0 : St := St.init
def d1 : St := { d0 with pc := upd d0.pc 0 .aLock }
def d2 : St := { d1 with pc := upd d1.pc 0 .aCheck, lock := some 0 }
def d3 : St := { d2 with pc := upd d2.pc 0 .asleep, lock := none }
def d4 : St := { d3 with pc := upd d3.pc 1 .wLock }
def d5 : St := { d4 with pc := upd d4.pc 1 .wSet, lock := some 1 }
def d6 : St := { d5 with pc := upd d5.pc 1 .wNotify, signaled := true }
def d7 : St := { d6 with pc := upd (upd d6.pc 1 .wUnlock) 0 .woken }
def d8 : St := { d7 with pc := upd d7.pc 1 .idle, lock := none }
def d9 : St := { d8 with pc := upd d8.pc 0 .aCheck, lock := some 0 }
def d10 : St := { d9 with pc := upd d9.pc 0 .aClear }
def d11 : St := { d10 with pc := upd d10.pc 0 .aUnlock, signaled := false }
def d12 : St := { d11 with pc := upd d11.pc 0 .idle, lock := none }
@[inherit_doc d0]
def demo : Nat → St
  | 0 => d0
  | 1 => d1
  | 2 => d2
  | 3 => d3
  | 4 => d4
  | 5 => d5
  | 6 => d6
  | 7 => d7
  | 8 => d8
  | 9 => d9
  | 10 => d10
  | 11 => d11
  | 12 => d12
  | _ => d12

def demoWho : Nat → Option Nat
  | 0 | 1 | 2 => some 0
  | 3 | 4 | 5 | 6 | 7 => some 1
  | 8 | 9 | 10 | 11 => some 0
  | _ => none

def demoExec : Exec where
  st := demo
  who := demoWho
  act n := if n = 5 then .set else if n = 10 then .clear else .other
  init := rfl
  step n := by
    match n with
    | 0 => exact Step.callWait (s := d0) (t := 0) rfl
    | 1 => exact Step.aLock (s := d1) (t := 0) rfl rfl
    | 2 => exact Step.aSleep (s := d2) (t := 0) rfl rfl
    | 3 => exact Step.callWakeup (s := d3) (t := 1) rfl
    | 4 => exact Step.wLock (s := d4) (t := 1) rfl rfl
    | 5 => exact Step.wSet (s := d5) (t := 1) rfl
    | 6 => exact Step.wNotify (s := d6) (t := 1) (u := 0) rfl rfl
    | 7 => exact Step.wUnlock (s := d7) (t := 1) rfl
    | 8 => exact Step.aRelock (s := d8) (t := 0) rfl rfl
    | 9 => exact Step.aTrue (s := d9) (t := 0) rfl rfl
    | 10 => exact Step.aClear (s := d10) (t := 0) rfl
    | 11 => exact Step.aUnlock (s := d11) (t := 0) rfl
    | 12 => exact ⟨rfl, rfl⟩
    | n + 13 => exact ⟨rfl, by simp⟩

theorem demo_idle (t : Nat) : (demo 12).pc t = .idle := by
  simp only [demo, d0, d1, d2, d3, d4, d5, d6, d7, d8, d9, d10, d11, d12, St.init, upd]
  by_cases h0 : t = 0 <;> by_cases h1 : t = 1 <;> simp [h0, h1]

/-- The hypotheses of `C48_live` are met: the execution is fair, at time 6 the flag is set and thread 0 sleeps. -/
example : demoExec.Fair ∧ (demoExec.st 6).signaled = true ∧ Waiting ((demoExec.st 6).pc 0) ∧ Waking ((demoExec.st 6).pc 1) := by
  refine ⟨fun t h => ?_, rfl, .inr (.inr (.inl rfl)), .inr (.inr (.inl rfl))⟩
  obtain ⟨m, hm, he⟩ := h 13
  exfalso
  obtain ⟨k, rfl⟩ : ∃ k, m = k + 13 := ⟨m - 13, by omega⟩
  rw [Enabled] at he
  have : (demoExec.st (k + 13)).pc t = .idle := demo_idle t
  rw [this] at he
  exact he

#print axioms C48_refines
#print axioms C48_wait_matched
#print axioms C48_mutex
#print axioms C48_no_lost_wakeup
#print axioms C48_live
#print axioms C48_wakeup_returns
#print axioms C48_finding_coalesced

end Verif.Props.Event
