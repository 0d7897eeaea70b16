import Verif.Proof.CondVar

/-! C68: the condition variable for Windows. -/
namespace Verif.Props.CondVar

open Verif.CondVar Verif.Spec.CondVar

/-- C68: at most one thread has the mutex, and it is the one the system regards as the owner; in particular `wait` returns (to the
place `own`) with the mutex.  Any number of threads up to 2^30, every interleaving. -/
theorem C68_mutex {n : Nat} (hn : n ≤ 2 ^ 30) {s : St} (h : Reach false n s) {i j : Nat} {p q : PC}
    (hp : s.pcs[i]? = some p) (hq : s.pcs[j]? = some q) (h1 : holds p = true) (h2 : holds q = true) : i = j ∧ s.mutex = some i := by
  have inv := inv_reach hn h
  have e1 := inv.holder hp h1
  have e2 := inv.holder hq h2
  rw [e1] at e2
  injection e2 with e2
  exact ⟨e2, e1⟩

/-- C68: the counter is the number of threads that wait; it is never negative and never overflows. -/
theorem C68_counter {n : Nat} (hn : n ≤ 2 ^ 30) {s : St} (h : Reach false n s) :
    s.waiterNum = s.pcs.countP waiting ∧ 0 ≤ s.waiterNum ∧ s.waiterNum ≤ 2 ^ 30 := by
  have inv := inv_reach hn h
  have h1 := inv.wn
  have h2 := List.countP_le_length (p := waiting) (l := s.pcs)
  have h3 := inv.len
  exact ⟨h1, by omega, by omega⟩

/-- C68: `notifyAll`, called with the mutex, never hangs.  While it waits for the event, it can go on or one of the waiting threads
can; in every execution in which it does not go on, the waiting threads make at most three steps each. -/
theorem C68_notifyAll_returns {n : Nat} (hn : n ≤ 2 ^ 30) {s : St} (h : Reach false n s) {i : Nat} {b : Bool}
    (hi : s.pcs[i]? = some (.a2 b)) :
    ((∃ s', step false s i .go = some s') ∨ (∃ j p s', j ≠ i ∧ s.pcs[j]? = some p ∧ 0 < stepsLeft p ∧ step false s j .go = some s')) ∧
    (∀ l t, (∀ x ∈ l, x.1 ≠ i) → run false s l = some t →
      t.pcs[i]? = some (.a2 b) ∧ waiterSteps false s l + allStepsLeft t ≤ allStepsLeft s ∧ allStepsLeft s ≤ 3 * n) := by
  have inv := inv_reach hn h
  have hb : b = true := by
    have := no_free inv hi
    simpa [isFree] using this
  subst hb
  refine ⟨wait_progress inv hi, fun l t hl e => ?_⟩
  obtain ⟨h1, h2⟩ := wait_run hn l inv hi hl e
  have h3 := allStepsLeft_le s
  rw [inv.len] at h3
  exact ⟨h1, h2, h3⟩

/-- C68: when `notifyAll` has got the event and is about to return, nobody waits any more: all threads that were waiting have been
woken, and the counter is zero. -/
theorem C68_notifyAll_wakes_all {n : Nat} (hn : n ≤ 2 ^ 30) {s : St} (h : Reach false n s) {i : Nat} {b : Bool}
    (hi : s.pcs[i]? = some (.a3 b)) : s.waiterNum = 0 ∧ ∀ (j : Nat) p, s.pcs[j]? = some p → waiting p = false := by
  have inv := inv_reach hn h
  have h0 := inv.id (cnt_pos hi rfl)
  refine ⟨h0, fun j p hp => ?_⟩
  cases hw : waiting p
  · rfl
  · have := cnt_pos hp hw
    have := inv.wn
    omega

/-- C68: `notifyAll` with nobody waiting returns at once and changes nothing; if somebody waits it goes on to wake them. -/
theorem C68_notifyAll_begins {n : Nat} (hn : n ≤ 2 ^ 30) {s : St} (h : Reach false n s) {i : Nat}
    (hi : s.pcs[i]? = some (.a1 true)) :
    ((∀ p ∈ s.pcs, waiting p = false) → step false s i .go = some { s with pcs := s.pcs.set i .own }) ∧
    ((∃ p ∈ s.pcs, waiting p = true) → ∃ s', step false s i .go = some s' ∧ s'.pcs = s.pcs.set i (.a2 true) ∧ s'.wasBroadcast = true ∧
      s.pcs.countP waiting ≤ s'.sema) := by
  have inv := inv_reach hn h
  have hw := inv.wn
  constructor
  · intro h0
    have : s.pcs.countP waiting = 0 := by
      rw [List.countP_eq_zero]
      intro p hp
      rw [h0 p hp]; decide
    unfold step
    rw [hi]
    simp only
    rw [if_neg (by omega)]
    rfl
  · rintro ⟨p, hp, hq⟩
    have : 0 < s.pcs.countP waiting := List.countP_pos_iff.2 ⟨p, hp, hq⟩
    have hl := List.countP_le_length (p := waiting) (l := s.pcs)
    have h3 := inv.len
    refine ⟨_, by unfold step; rw [hi]; simp only; rw [if_pos (by omega)], rfl, rfl, ?_⟩
    have h2 : s.waiterNum.toNat = s.pcs.countP waiting := by omega
    show _ ≤ releaseSema s.sema s.waiterNum.toNat
    rw [h2]
    exact releaseSema_covers _ (by omega)

/-- C68: `notifyOne` notices a waiting thread exactly if there is one, and then every thread that still waits for the semaphore when
it returns can be woken. -/
theorem C68_notifyOne {n : Nat} (hn : n ≤ 2 ^ 30) {s : St} (h : Reach false n s) {i : Nat} {b : Bool} :
    (s.pcs[i]? = some (.n1 b) → ∃ w, step false s i .go = some { s with pcs := s.pcs.set i (.n2 b w) } ∧ (w = true ↔ ∃ p ∈ s.pcs, waiting p = true)) ∧
    (s.pcs[i]? = some (.n2 b true) → ∃ s', step false s i .go = some s' ∧ s'.pcs = s.pcs.set i (if b then .own else .idle) ∧ 0 < s'.sema ∧
      ∀ (j : Nat), s'.pcs[j]? = some .w3 → ∃ t, step false s' j .go = some t ∧ t.pcs[j]? = some .w4) ∧
    (s.pcs[i]? = some (.n2 b false) → step false s i .go = some { s with pcs := s.pcs.set i (if b then .own else .idle) }) := by
  have inv := inv_reach hn h
  have hw := inv.wn
  refine ⟨fun hi => ⟨decide (0 < s.waiterNum), by unfold step; rw [hi], ?_⟩, fun hi => ?_, fun hi => by unfold step; rw [hi]; rfl⟩
  · rw [decide_eq_true_eq, ← List.countP_pos_iff]
    omega
  · refine ⟨_, by unfold step; rw [hi], rfl, ?_, ?_⟩
    · show 0 < releaseSema s.sema 1
      have := releaseSema_covers s.sema (k := 1) (by omega)
      omega
    · intro j hj
      have h1 := releaseSema_covers s.sema (k := 1) (by omega)
      refine ⟨_, by unfold step; rw [hj]; simp only; rw [if_pos (by omega)], ?_⟩
      exact List.getElem?_set_self (lt_of_get hj)

/-- C68: without a notification nobody is woken. -/
theorem C68_no_wakeup_unnotified (free : Bool) (n : Nat) (l : List (Nat × Act)) (t : St) (hl : ∀ x ∈ l, x.2 ≠ .one ∧ x.2 ≠ .all)
    (h : run free (St.start n) l = some t) : t.sema = 0 ∧ ∀ p ∈ t.pcs, p ∈ [PC.idle, .own, .w1, .w2, .w3] := by
  have := quiet_run l (s := St.start n) rfl (by intro p hp; rw [List.eq_of_mem_replicate hp]; rfl) hl h
  refine ⟨this.1, fun p hp => ?_⟩
  have := this.2 p hp
  cases p <;> simp [quiet] at this ⊢

/-- C68: the count of the semaphore stays within the maximum it was created with, however often and in whatever way the notifying
functions are called. -/
theorem C68_semaphore {free : Bool} {n : Nat} {s : St} (h : Reach free n s) : s.sema ≤ 2147483647 := by
  have hr : ∀ a b, a ≤ 2147483647 → releaseSema a b ≤ 2147483647 := by
    intro a b h
    unfold releaseSema semaMax
    split <;> omega
  induction h with
  | start => exact Nat.zero_le _
  | step _ e ih =>
    obtain ⟨p, b, hp, m⟩ := step_move e
    cases m <;> dsimp only <;> first | exact hr _ _ ih | omega

/-- Threads 0 and 1 wait, thread 2 calls `notifyAll` with the mutex. -/
def broadcast : List (Nat × Act) :=
  [(0, .lock), (0, .wait), (0, .go), (0, .go), (1, .lock), (1, .wait), (1, .go), (1, .go), (2, .lock), (2, .all), (2, .go)]

/-- The hypotheses are met: `notifyAll` waits, with two threads to be woken. -/
example : run false (St.start 3) broadcast = some ⟨[.w3, .w3, .a2 true], some 2, 2, 2, false, true⟩ := by decide

/-- They wake up and `notifyAll` is about to return. -/
example : run false (St.start 3) (broadcast ++ [(0, .go), (1, .go), (1, .go), (0, .go), (0, .go), (2, .go)]) =
    some ⟨[.w6, .w5 false, .a3 true], some 2, 0, 0, false, true⟩ := by decide

/-- Thread 0 waits, thread 1 calls `notifyOne` and then thread 0 returns from `wait`. -/
example : (run false (St.start 2) [(0, .lock), (0, .wait), (0, .go), (0, .go), (1, .one), (1, .go), (1, .go), (0, .go), (0, .go), (0, .go), (0, .go)]).map
    (fun s => (s.pcs, s.mutex)) = some ([.own, .idle], some 0) := by decide

/-- C68, finding: `notifyAll` without the mutex, as the library's own test calls it, can hang.  Thread 0 waits, thread 1 notifies all, and
thread 2, which begins to wait only then, takes the wake-up of thread 0.  Threads 0 and 1 cannot go on. -/
theorem C68_finding_notifyAll_without_mutex_hangs :
    ∃ l t, run true (St.start 3) l = some t ∧ t.pcs = [.w3, .a2 false, .idle] ∧ t.mutex = none ∧ ∀ a, step true t 0 a = none ∧ step true t 1 a = none :=
  ⟨[(0, .lock), (0, .wait), (0, .go), (0, .go), (1, .all), (1, .go), (2, .lock), (2, .wait), (2, .go), (2, .go), (2, .go), (2, .go), (2, .go), (2, .go), (2, .unlock)],
    ⟨[.w3, .a2 false, .idle], none, 1, 0, false, true⟩, by decide, rfl, rfl, fun a => by cases a <;> decide⟩

/-- C68, finding: a wake-up made by `notifyOne` with the mutex for the waiting thread 0 can be taken by thread 2, which begins to wait
after `notifyOne` has returned; thread 0 sleeps on. -/
theorem C68_finding_stolen_wakeup :
    ∃ l1 l2 s t, run false (St.start 3) l1 = some s ∧ s.pcs = [.w3, .idle, .idle] ∧ s.sema = 1 ∧
      run false s l2 = some t ∧ (∀ x ∈ l2, x.1 = 2) ∧ t.pcs = [.w3, .idle, .idle] ∧ t.mutex = none ∧ step false t 0 .go = none :=
  ⟨[(0, .lock), (0, .wait), (0, .go), (0, .go), (1, .lock), (1, .one), (1, .go), (1, .go), (1, .unlock)],
    [(2, .lock), (2, .wait), (2, .go), (2, .go), (2, .go), (2, .go), (2, .go), (2, .go), (2, .unlock)],
    ⟨[.w3, .idle, .idle], none, 1, 1, false, false⟩, ⟨[.w3, .idle, .idle], none, 1, 0, false, false⟩,
    by decide, rfl, rfl, by decide, by decide, rfl, rfl, by decide⟩

/-- C68, finding: two `notifyOne` for one waiting thread leave a wake-up behind; a later `wait` returns although nobody notified. -/
theorem C68_finding_spurious_wakeup :
    ∃ l1 l2 s t, run false (St.start 2) l1 = some s ∧ s.pcs = [.idle, .idle] ∧
      run false s l2 = some t ∧ (∀ x ∈ l2, x.1 = 0 ∧ (x.2 = .lock ∨ x.2 = .wait ∨ x.2 = .go)) ∧ (0, .wait) ∈ l2 ∧ t.pcs = [.own, .idle] :=
  ⟨[(0, .lock), (0, .wait), (0, .go), (0, .go), (1, .one), (1, .go), (1, .go), (1, .one), (1, .go), (1, .go), (0, .go), (0, .go), (0, .go), (0, .go), (0, .unlock)],
    [(0, .lock), (0, .wait), (0, .go), (0, .go), (0, .go), (0, .go), (0, .go), (0, .go)],
    ⟨[.idle, .idle], none, 0, 1, false, false⟩, ⟨[.own, .idle], some 0, 0, 0, false, false⟩, by decide, rfl, by decide, by decide, by decide, rfl⟩

#print axioms C68_mutex
#print axioms C68_counter
#print axioms C68_notifyAll_returns
#print axioms C68_notifyAll_wakes_all
#print axioms C68_notifyAll_begins
#print axioms C68_notifyOne
#print axioms C68_no_wakeup_unnotified
#print axioms C68_finding_notifyAll_without_mutex_hangs
#print axioms C68_finding_stolen_wakeup
#print axioms C68_finding_spurious_wakeup

end Verif.Props.CondVar
