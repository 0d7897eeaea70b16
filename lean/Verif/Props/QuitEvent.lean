import Verif.Model.QuitEvent

/-!
# C154: leaving the main loop from a quit signal

`quit` of the application wakes up the `Event` on which the program waits.  With the `std::mutex` version of `Event` this works if and only
if no signal reaches the thread that is inside the critical section of the same `Event` at that moment; otherwise nobody gets out ever again.
With the pipe version the handler of a signal ends whatever the threads are doing, as long as the pipe has room.
-/
set_option linter.unusedSimpArgs false

namespace Verif.Props.QuitEvent
open Verif.QuitEvent
open Verif.Event (Pc Act upd)

/-- Where a thread is inside the critical section of `wakeup` or `wait`. -/
def Holds : Pc → Bool
  | .wSet | .wNotify | .wUnlock | .aCheck | .aClear | .aUnlock => true
  | _ => false

/-- Where a call is about to notify a sleeping thread, or to take the signal. -/
def Way : Pc → Bool
  | .wNotify | .woken | .aCheck | .aClear => true
  | _ => false

theorem upd_same {f : Nat → Pc} {t : Nat} {p : Pc} : upd f t p t = p := by simp [upd]
theorem upd_ne (f : Nat → Pc) {t u : Nat} (p : Pc) (h : u ≠ t) : upd f t p u = f u := by simp [upd, h]

/-- Who is in the critical section, in every execution. -/
structure Inv (s : St) : Prop where
  own : ∀ t, Holds (s.e.pc t) = true → s.e.lock = some t
  hand : ∀ t, Holds (s.h t) = true → s.e.lock = some t
  one : ∀ t, Holds (s.h t) = true → Holds (s.e.pc t) = false
  in_ : ∀ t, s.e.lock = some t → Holds (s.e.pc t) = true ∨ Holds (s.h t) = true
  calls : ∀ t, s.h t = .idle ∨ s.h t = .wLock ∨ s.h t = .wSet ∨ s.h t = .wNotify ∨ s.h t = .wUnlock
  lost : ∀ t, s.e.signaled = true → s.e.pc t = .asleep → ∃ u, Way (s.e.pc u) = true ∨ s.h u = .wNotify

theorem Inv.init : Inv St.init := by
  constructor <;> simp [St.init, Event.St.init, Holds]

theorem Inv.step {at_ : St → Nat → Prop} {s s' : St} {t : Nat} (I : Inv s) (st : Step at_ s t s') : Inv s' := by
  have L : ∀ t', s'.e.signaled = true → s'.e.pc t' = .asleep → ∃ u, Way (s'.e.pc u) = true ∨ s'.h u = .wNotify := by
    intro t' h1 h2
    have i6 := I.lost t'
    cases st with
    | own h0 h =>
      cases h with
      | wSet h => exact ⟨t, .inl (by grind [upd, Way])⟩
      | aTrue h => exact ⟨t, .inl (by grind [upd, Way])⟩
      | spurious h => exact ⟨t, .inl (by grind [upd, Way])⟩
      | aRelock h => exact ⟨t, .inl (by grind [upd, Way])⟩
      | aLock h => exact ⟨t, .inl (by grind [upd, Way])⟩
      | wNotify h g =>
        rename_i u
        exact ⟨u, .inl (by grind [upd, Way])⟩
      | wNotifyNone h g => grind [upd]
      | aSleep h => grind
      | aClear h => grind
      | _ =>
        obtain ⟨u, hu⟩ := i6 (by grind) (by grind [upd])
        exact ⟨u, by grind [upd, Way]⟩
    | hSet h => exact ⟨t, .inr (by grind [upd])⟩
    | hNotify h g =>
      rename_i u
      exact ⟨u, .inl (by grind [upd, Way])⟩
    | hNotifyNone h g => grind
    | _ =>
      obtain ⟨u, hu⟩ := i6 (by grind) (by grind [upd])
      exact ⟨u, by grind [upd, Way]⟩
  obtain ⟨i1, i2, i3, i4, i5, _⟩ := I
  cases st with
  | own h0 h =>
    cases h <;> refine ⟨?_, ?_, ?_, ?_, ?_, L⟩ <;> clear L <;> grind [upd, Holds]
  | _ => refine ⟨?_, ?_, ?_, ?_, ?_, L⟩ <;> clear L <;> grind [upd, Holds]

theorem inv {at_ : St → Nat → Prop} {s : St} (h : Steps at_ St.init s) : Inv s := by
  induction h with
  | refl => exact Inv.init
  | tail _ st ih => exact ih.step st

/-- C154: in every execution, wherever signals come, at most one call or handler is in the critical section. -/
theorem C154_mutex {at_ : St → Nat → Prop} {s : St} (h : Steps at_ St.init s) :
    (∀ t u, Holds (s.e.pc t) = true ∨ Holds (s.h t) = true → Holds (s.e.pc u) = true ∨ Holds (s.h u) = true → t = u) ∧
    ∀ t, ¬ (Holds (s.e.pc t) = true ∧ Holds (s.h t) = true) := by
  have I := inv h
  constructor
  · intro t u ht hu
    have h1 : s.e.lock = some t := ht.elim (I.own t) (I.hand t)
    have h2 : s.e.lock = some u := hu.elim (I.own u) (I.hand u)
    rw [h1] at h2; simpa using h2
  · rintro t ⟨h1, h2⟩
    rw [I.one t h2] at h1; cases h1

/-- C154: no wakeup is lost, neither one of the program nor one of a handler: if the event is signaled, no handler runs and every thread is
outside of the calls or asleep, then nobody is asleep. -/
theorem C154_not_lost {at_ : St → Nat → Prop} {s : St} (h : Steps at_ St.init s) (hs : s.e.signaled = true) (hh : ∀ t, s.h t = .idle)
    (hp : ∀ t, s.e.pc t = .idle ∨ s.e.pc t = .asleep) (t : Nat) : s.e.pc t = .idle := by
  rcases hp t with ht | ht
  · exact ht
  · obtain ⟨u, hu | hu⟩ := (inv h).lost t hs ht
    · rcases hp u with g | g <;> rw [g] at hu <;> cases hu
    · rw [hh u] at hu; cases hu

/-- C154: when a handler is about to release the mutex and to end, the event is signaled. -/
theorem C154_handler {at_ : St → Nat → Prop} {s : St} (h : Steps at_ St.init s) {t : Nat} (ht : s.h t = .wUnlock) : s.e.signaled = true := by
  have key : s.h t = .wNotify ∨ s.h t = .wUnlock → s.e.signaled = true := by
    clear ht
    induction h with
    | refl => intro h; rcases h with h | h <;> cases h
    | tail hst st ih =>
      obtain ⟨i1, i2, i3, i4, i5, _⟩ := inv hst
      cases st with
      | own h0 h => cases h <;> grind [upd, Holds]
      | _ => grind [upd, Holds]
  exact key (.inr ht)

/-- Steps in the critical section that are left to the thread that holds the mutex. -/
def left (s : St) (t : Nat) : Nat :=
  let n : Pc → Nat := fun
    | .wSet | .aCheck => 3
    | .wNotify | .aClear => 2
    | .wUnlock | .aUnlock => 1
    | _ => 0
  if Holds (s.h t) = true then n (s.h t) else n (s.e.pc t)

theorem quiet {at_ : St → Nat → Prop} (ha : ∀ s t, at_ s t → s.e.lock ≠ some t) {s : St} (h : Steps at_ St.init s) (t : Nat) :
    s.h t ≠ .idle → Holds (s.e.pc t) = false := by
  induction h with
  | refl => intro h; exact absurd rfl h
  | tail hst st ih =>
    have I := inv hst
    obtain ⟨i1, i2, i3, i4, i5, _⟩ := I
    cases st with
    | own h0 h => cases h <;> grind [upd, Holds]
    | signal h0 h =>
      have := ha _ _ h
      grind [upd, Holds]
    | _ => grind [upd, Holds]

/-- C154: if no signal reaches a thread in the critical section, the thread that holds the mutex can always go on, without waiting for
anyone; each of its steps brings it nearer to the release, at most three are left, and the steps of the other threads do not change that. -/
theorem C154_released {at_ : St → Nat → Prop} (ha : ∀ s t, at_ s t → s.e.lock ≠ some t) {s : St} (h : Steps at_ St.init s) {t : Nat}
    (hl : s.e.lock = some t) :
    left s t ≤ 3 ∧ (∃ s', Step (fun _ _ => False) s t s') ∧ (∀ s', Step at_ s t s' → s'.e.lock = none ∨ s'.e.lock = some t ∧ left s' t < left s t) ∧
    ∀ u s', u ≠ t → Step at_ s u s' → s'.e.lock = some t ∧ left s' t = left s t := by
  have I := inv h
  have Q := quiet ha h t
  have hin := I.in_ t hl
  refine ⟨?_, ?_, ?_, ?_⟩
  · simp only [left]; split <;> split <;> omega
  · cases hh : Holds (s.h t) with
    | true =>
      rcases I.calls t with g | g | g | g | g
      · rw [g] at hh; cases hh
      · rw [g] at hh; cases hh
      · exact ⟨_, .hSet g⟩
      · by_cases ex : ∃ u, s.e.pc u = .asleep
        · obtain ⟨u, hu⟩ := ex
          exact ⟨_, .hNotify g hu⟩
        · exact ⟨_, .hNotifyNone g (fun u hu => ex ⟨u, hu⟩)⟩
      · exact ⟨_, .hUnlock g⟩
    | false =>
      have hp : Holds (s.e.pc t) = true := by rcases hin with g | g; exact g; rw [hh] at g; cases g
      have h0 : s.h t = .idle := Classical.byContradiction fun g => by rw [Q g] at hp; cases hp
      cases g : s.e.pc t with
      | wSet => exact ⟨_, .own h0 (.wSet g)⟩
      | wNotify =>
        by_cases ex : ∃ u, s.e.pc u = .asleep
        · obtain ⟨u, hu⟩ := ex
          exact ⟨_, .own h0 (.wNotify g hu)⟩
        · exact ⟨_, .own h0 (.wNotifyNone g (fun u hu => ex ⟨u, hu⟩))⟩
      | wUnlock => exact ⟨_, .own h0 (.wUnlock g)⟩
      | aCheck =>
        cases b : s.e.signaled with
        | true => exact ⟨_, .own h0 (.aTrue g b)⟩
        | false => exact ⟨_, .own h0 (.aSleep g b)⟩
      | aClear => exact ⟨_, .own h0 (.aClear g)⟩
      | aUnlock => exact ⟨_, .own h0 (.aUnlock g)⟩
      | _ => rw [g] at hp; cases hp
  · intro s' st
    obtain ⟨i1, i2, i3, i4, i5, _⟩ := I
    cases st with
    | own h0 h => cases h <;> grind [upd, Holds, left]
    | signal h0 h => exact absurd hl (ha _ _ h)
    | _ => grind [upd, Holds, left]
  · intro u s' hu st
    obtain ⟨i1, i2, i3, i4, i5, _⟩ := I
    cases st with
    | own h0 h => cases h <;> grind [upd, Holds, left]
    | _ => grind [upd, Holds, left]

/-- C154, finding: when a signal reaches the thread that holds the mutex, its handler waits for that mutex for ever.  The call that was
interrupted never goes on, and no thread ever enters the critical section again: no `wait` returns and no `wakeup` has an effect. -/
theorem C154_finding_stuck {at_ : St → Nat → Prop} {s s1 : St} (h : Steps at_ St.init s) {t : Nat} (hl : s.e.lock = some t)
    (h1 : s1 = { s with h := upd s.h t .wLock }) (h0 : s.h t = .idle) {s' : St} (h' : Steps at_ s1 s') :
    s'.h t = .wLock ∧ s'.e.pc t = s.e.pc t ∧ s'.e.lock = some t ∧ s'.e.signaled = s.e.signaled ∧
    ∀ u, u ≠ t → Holds (s'.e.pc u) = false ∧ Holds (s'.h u) = false := by
  have I := inv h
  have hp : Holds (s.e.pc t) = true := by
    rcases I.in_ t hl with g | g
    · exact g
    · rw [h0] at g; cases g
  have hna : s.e.pc t ≠ .asleep := by intro g; rw [g] at hp; cases hp
  induction h' with
  | refl =>
    subst h1
    refine ⟨upd_same, rfl, hl, rfl, fun u hu => ?_⟩
    obtain ⟨i1, i2, i3, i4, i5, _⟩ := I
    constructor
    · cases g : Holds (s.e.pc u) with
      | false => rfl
      | true => have := i1 u g; rw [hl] at this; exact absurd (by simpa using this.symm) hu
    · simp only [upd_ne _ _ hu]
      cases g : Holds (s.h u) with
      | false => rfl
      | true => have := i2 u g; rw [hl] at this; exact absurd (by simpa using this.symm) hu
  | tail _ st ih =>
    obtain ⟨k1, k2, k3, k4, k5⟩ := ih
    cases st with
    | own g0 g => cases g <;> grind [upd, Holds]
    | _ => grind [upd, Holds]

/-! ### The pipe version -/

/-- C154: in the pipe version a handler can end, in one step and whatever the threads are doing, exactly if the pipe has room; the byte is then
in the pipe, for any `wait`. -/
theorem C154_pipe_ends {cap : Nat} {s : PSt} {t : Nat} (ht : s.h t = true) :
    ((∃ a s', PStep cap s t a s') ↔ s.e.bytes < cap) ∧
    ∀ a s', PStep cap s t a s' → s'.h t = false ∧ s'.e.bytes = s.e.bytes + 1 ∧ ∀ u, u ≠ t → s'.e.pc u = s.e.pc u ∧ s'.h u = s.h u := by
  constructor
  · constructor
    · rintro ⟨a, s', st⟩
      cases st <;> simp_all
    · exact fun hb => ⟨_, _, .ended ht hb⟩
  · intro a s' st
    cases st <;> simp_all [EventPipe.upd]

/-- C154: every `wakeup` that is not interrupted and every handler puts one byte, which one `wait` takes. -/
theorem C154_pipe_count {cap : Nat} {l : List PAct} {s : PSt} (h : PSteps cap PSt.init l s) :
    l.count .take + s.e.bytes = l.count .put + l.count .ended + l.count .endedWait + l.count .endedWakeup ∧ s.e.bytes ≤ cap := by
  induction h with
  | nil => simp [PSt.init, EventPipe.St.init]
  | snoc _ st ih =>
    obtain ⟨i1, i2⟩ := ih
    cases st with
    | call h0 st => cases st <;> simp_all [List.count_append]
    | put h0 st => cases st; simp_all [List.count_append]; omega
    | take h0 st => cases st; simp_all [List.count_append]; omega
    | signal h0 => simp_all [List.count_append]
    | ended h0 h1 => simp_all [List.count_append]; omega
    | endedWait h0 h1 => simp_all [List.count_append]; omega
    | endedWakeup h0 h1 => simp_all [List.count_append]; omega

/-- C154: if fewer bytes than the pipe holds were ever written, no `wakeup` of the program is cut short by a signal. -/
theorem C154_pipe_kept {cap : Nat} {l : List PAct} {s : PSt} (h : PSteps cap PSt.init l s)
    (hn : l.count .put + l.count .ended + l.count .endedWait + l.count .endedWakeup < cap) : l.count .endedWakeup = 0 := by
  have key : (∀ t, s.h t = true → s.cut t = true → s.e.pc t = .writing →
      cap ≤ l.count .put + l.count .ended + l.count .endedWait + l.count .endedWakeup) ∧
      (0 < l.count .endedWakeup → cap ≤ l.count .put + l.count .ended + l.count .endedWait + l.count .endedWakeup) := by
    clear hn
    induction h with
    | nil => simp [PSt.init]
    | snoc hst st ih =>
      obtain ⟨i1, i2⟩ := ih
      have hc := (C154_pipe_count hst).1
      cases st with
      | call h0 st =>
        simp only [List.count_append, List.count_singleton]
        cases st <;> grind [EventPipe.upd]
      | put h0 st =>
        simp only [List.count_append, List.count_singleton]
        cases st; grind [EventPipe.upd]
      | take h0 st =>
        simp only [List.count_append, List.count_singleton]
        cases st; grind [EventPipe.upd]
      | signal h0 =>
        simp only [List.count_append, List.count_singleton]
        grind
      | ended h0 h1 =>
        simp only [List.count_append, List.count_singleton]
        grind
      | endedWait h0 h1 =>
        simp only [List.count_append, List.count_singleton]
        grind [EventPipe.upd]
      | endedWakeup h0 h1 =>
        simp only [List.count_append, List.count_singleton]
        grind [EventPipe.upd]
  have := key.2
  omega

/-- C154, finding: one signal can end two calls of `wait`: it interrupts the first, and leaves its byte for the second. -/
theorem C154_finding_twice : ∃ l s, PSteps 65536 PSt.init l s ∧ l.count .signal = 1 ∧ l.count .put = 0 ∧ l.count .endedWait = 1 ∧ l.count .take = 1 :=
  ⟨_, _, .snoc (.snoc (.snoc (.snoc (.snoc .nil (.call (t := 0) rfl (.callWait rfl))) (.signal (t := 0) rfl))
    (.endedWait (t := 0) rfl (by decide) rfl rfl)) (.call (t := 0) rfl (.callWait rfl))) (.take (t := 0) rfl (.read rfl (by decide))),
    rfl, rfl, rfl, rfl⟩

/-! ### The hypotheses can be met -/

/-- The hypotheses of `C154_finding_stuck` are met from the beginning in three steps: `wait` is called and holds the mutex, a signal comes. -/
example : ∃ s, Steps (fun _ _ => True) St.init s ∧ s.e.lock = some 0 ∧ s.h 0 = .idle ∧
    Step (fun _ _ => True) s 0 { s with h := upd s.h 0 .wLock } :=
  ⟨_, .tail (.tail .refl (.own (t := 0) rfl (.callWait rfl))) (.own (t := 0) rfl (.aLock rfl rfl)), rfl, rfl, .signal rfl trivial⟩

/-- The hypotheses of `C154_released` are met while a handler that came to a sleeping thread holds the mutex. -/
example : ∃ s, Steps (fun s t => s.e.lock ≠ some t) St.init s ∧ s.e.lock = some 0 ∧ s.e.pc 0 = .asleep ∧ s.h 0 = .wSet :=
  ⟨_, .tail (.tail (.tail (.tail (.tail .refl (.own (t := 0) rfl (.callWait rfl))) (.own (t := 0) rfl (.aLock rfl rfl)))
    (.own (t := 0) rfl (.aSleep rfl rfl))) (.signal (t := 0) rfl (by simp))) (.hLock (t := 0) rfl rfl), rfl, rfl, rfl⟩

/-- The hypotheses of `C154_not_lost` are met after a handler has run while nobody waited. -/
example : ∃ s, Steps (fun _ _ => True) St.init s ∧ s.e.signaled = true ∧ (∀ t, s.h t = .idle) ∧ ∀ t, s.e.pc t = .idle ∨ s.e.pc t = .asleep :=
  ⟨_, .tail (.tail (.tail (.tail (.tail .refl (.signal (t := 0) rfl trivial)) (.hLock (t := 0) rfl rfl)) (.hSet (t := 0) rfl))
    (.hNotifyNone (t := 0) rfl (fun u h => by cases h))) (.hUnlock (t := 0) rfl), rfl,
    fun t => by simp only [upd, St.init]; split <;> rfl, fun _ => .inl rfl⟩

/-- The hypothesis of `C154_pipe_ends` is met by a handler that came while `wait` was blocked. -/
example : ∃ l s, PSteps 65536 PSt.init l s ∧ s.h 0 = true ∧ s.e.pc 0 = .reading :=
  ⟨_, _, .snoc (.snoc .nil (.call (t := 0) rfl (.callWait rfl))) (.signal (t := 0) rfl), rfl, rfl⟩

#print axioms C154_mutex
#print axioms C154_not_lost
#print axioms C154_handler
#print axioms C154_released
#print axioms C154_finding_stuck
#print axioms C154_pipe_ends
#print axioms C154_pipe_count
#print axioms C154_pipe_kept
#print axioms C154_finding_twice

end Verif.Props.QuitEvent
