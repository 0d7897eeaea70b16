import Verif.Proof.Monitor
set_option linter.unusedSimpArgs false

/-!
# C131: a queue guarded by a critical section and a condition variable
-/
namespace Verif.Props.Monitor

open Verif.Monitor Verif.Spec.Monitor

/-- Two threads put 1, 2 and 3; two take three items altogether. -/
def sample : List (List Op) := [[.put 1 false false, .put 2 true true], [.take, .take], [.take], [.put 3 false true]]

example : (∀ p ∈ sample, OneRole p) ∧ totalTakes sample ≤ totalPuts sample := by decide

/-- C131: at most one thread is between `lock` and `unlock` (outside of a `wait`), and then the lock is its own; `wait` returns
with the lock. -/
theorem C131_mutex {progs : List (List Op)} {s : St} (h : Reach progs s) {i : Nat} {th : Th} (hi : s.ths[i]? = some th)
    (hp : th.pc = .p1 ∨ (∃ a, th.pc = .p2 a) ∨ th.pc = .p3 ∨ (∃ a, th.pc = .q2 a) ∨ th.pc = .t1 ∨ th.pc = .t4) :
    s.lock = some i ∧ ∀ (j : Nat) (th' : Th), s.ths[j]? = some th' → j ≠ i →
      th'.pc = .idle ∨ (∃ a, th'.pc = .q3 a) ∨ th'.pc = .t2 ∨ th'.pc = .t3 := by
  have I := (reach_inv h).own
  have hl : s.lock = some i := by
    refine (I.own i th hi).1 ?_
    rcases hp with h | ⟨a, h⟩ | h | ⟨a, h⟩ | h | h <;> rw [h] <;> rfl
  refine ⟨hl, ?_⟩
  intro j th' hj hne
  have h2 := I.own j th' hj
  rw [hl] at h2
  have h3 : holds th'.pc ≠ true := fun hh => hne (Option.some.inj (h2.1 hh)).symm
  cases hpc : th'.pc <;> rw [hpc] at h3 <;> simp [holds] at h3 <;> simp

/-- C131: the queue is first in, first out and loses nothing: what has been taken is the beginning of what has been put, the rest is
in the queue; each thread has put the items of its program in order, and taken as many as it has finished takes. -/
theorem C131_fifo {progs : List (List Op)} {s : St} (h : Reach progs s) :
    s.pushed.map Prod.snd = s.popped.map Prod.snd ++ s.queue ∧
    ∀ (i : Nat) (p : List Op) (th : Th), progs[i]? = some p → s.ths[i]? = some th →
      (s.pushed.filter (fun e => e.1 = i)).map Prod.snd ++ puts th.prog = puts p ∧
      (s.popped.filter (fun e => e.1 = i)).length + takes th.prog = takes p := by
  have I := (reach_inv h).hist
  refine ⟨I.fifo, ?_⟩
  intro i p th hp hi
  have hl : (left s)[i]? = some th.prog := by rw [left, List.getElem?_map, hi]; rfl
  exact ⟨I.prod i p _ hp hl, I.cons i p _ hp hl⟩

theorem stuck_cases {progs : List (List Op)} {s : St} (h : Reach progs s) (hs : s.Stuck) :
    ∀ th ∈ s.ths, th = ⟨.idle, []⟩ ∨ (th.pc = .t2 ∧ ∃ r, th.prog = .take :: r) := by
  have I := (reach_inv h).own
  have hfree : s.lock = none := by
    cases hl : s.lock with
    | none => rfl
    | some i =>
      have hlt := I.dom i hl
      have hi := List.getElem?_eq_getElem hlt
      have hh := (I.own i _ hi).2 hl
      obtain ⟨j, s', e⟩ := holder_moves hi (I.fits _ (List.getElem_mem hlt)) hh
      obtain ⟨th, h1, h2⟩ := hs i j s' e
      rw [hi] at h1
      rw [Option.some.inj h1, h2] at hh
      simp [holds] at hh
  intro th hth
  obtain ⟨i, hlt, hit⟩ := List.getElem_of_mem hth
  have hi : s.ths[i]? = some th := by rw [List.getElem?_eq_getElem hlt, hit]
  have hh : holds th.pc ≠ true := by
    intro hh
    have := (I.own i th hi).1 hh
    rw [hfree] at this
    simp at this
  have hb : ∀ j s', s.step i j = some s' → th.pc = .t2 := by
    intro j s' e
    obtain ⟨x, h1, h2⟩ := hs i j s' e
    rw [hi] at h1
    rw [Option.some.inj h1]; exact h2
  have hf := I.fits th hth
  obtain ⟨pc, prog⟩ := th
  have acq : ∀ pc', s.acquire i ⟨pc, prog⟩ pc' = some { s.goto i ⟨pc, prog⟩ pc' with lock := some i } := by
    intro pc'; rw [St.acquire, if_pos hfree]
  cases pc <;> simp [holds] at hh
  · cases prog with
    | nil => exact Or.inl rfl
    | cons o r =>
      exfalso
      cases o with
      | put x a l =>
        have := hb 0 _ (by rw [St.step, hi]; exact acq _)
        simp at this
      | take =>
        have := hb 0 _ (by rw [St.step, hi]; exact acq _)
        simp at this
  · exfalso
    rename_i a
    by_cases hw : ∃ th ∈ s.ths.set i ⟨.idle, prog⟩, th.pc = .t2
    · obtain ⟨x, hx, hp⟩ := hw
      obtain ⟨j, hj, rfl⟩ := List.getElem_of_mem hx
      have : ∃ s', s.step i j = some s' := by
        rw [St.step, hi]
        dsimp only
        cases a with
        | true => exact ⟨_, rfl⟩
        | false =>
          rw [St.notify, if_neg (by simp), St.wakeOne]
          split
          · exact ⟨_, rfl⟩
          · simp only [St.goto, List.getElem?_eq_getElem hj]
            rw [if_pos hp]
            exact ⟨_, rfl⟩
      obtain ⟨s', e⟩ := this
      have := hb j s' e
      simp at this
    · have : ∃ s', s.step i 0 = some s' := by
        rw [St.step, hi]
        dsimp only
        cases a with
        | true => exact ⟨_, rfl⟩
        | false =>
          rw [St.notify, if_neg (by simp), St.wakeOne, if_pos]
          · exact ⟨_, rfl⟩
          · simp only [St.goto, List.all_eq_true, decide_eq_true_eq]
            intro x hx hp
            exact hw ⟨x, hx, hp⟩
      obtain ⟨s', e⟩ := this
      have := hb 0 s' e
      simp at this
  · obtain ⟨r, hp⟩ := hf.2 (Or.inr (Or.inl rfl))
    exact Or.inr ⟨rfl, r, hp⟩
  · exfalso
    have := hb 0 _ (by rw [St.step, hi]; exact acq _)
    simp at this

/-- C131: no wake-up is lost.  When nothing can happen any more but somebody is blocked in `wait`, the queue is empty. -/
theorem C131_no_lost_wakeup {progs : List (List Op)} {s : St} (h : Reach progs s) (hs : s.Stuck) {i : Nat} (hb : s.blocked i) :
    s.queue = [] := by
  have I := (reach_inv h).cover
  obtain ⟨th, hi, hp⟩ := hb
  have h1 := I ⟨th, List.mem_of_getElem? hi, hp⟩
  have h2 : s.ths.countP (fun th => busy th.pc) = 0 := by
    rw [List.countP_eq_zero]
    intro x hx
    rcases stuck_cases h hs x hx with rfl | ⟨hx2, -⟩
    · simp [busy]
    · simp [hx2, busy]
  rw [h2] at h1
  exact List.length_eq_zero_iff.1 (by omega)

/-- C131: if every thread only puts or only takes, and there are at least as many puts as takes, then a run in which nothing can
happen any more is over: every thread has finished, and every take has got an item. -/
theorem C131_no_hang {progs : List (List Op)} (hr : ∀ p ∈ progs, OneRole p) (ht : totalTakes progs ≤ totalPuts progs) {s : St}
    (h : Reach progs s) (hs : s.Stuck) :
    (∀ th ∈ s.ths, th = ⟨.idle, []⟩) ∧ s.popped.length = totalTakes progs ∧ s.pushed.length = totalPuts progs := by
  have I := (reach_inv h).hist
  have hc := stuck_cases h hs
  have hall : ∀ th ∈ s.ths, th = ⟨.idle, []⟩ := by
    intro th hth
    rcases hc th hth with h1 | ⟨h1, r, h2⟩
    · exact h1
    · exfalso
      obtain ⟨i, hlt, hit⟩ := List.getElem_of_mem hth
      have hq := C131_no_lost_wakeup h hs (i := i) ⟨th, by rw [List.getElem?_eq_getElem hlt, hit], h1⟩
      have hf := I.fifo
      rw [hq, List.append_nil] at hf
      have hlen : s.pushed.length = s.popped.length := by simpa using congrArg List.length hf
      have hp0 : totalPuts (left s) = 0 := by
        rw [totalPuts, List.sum_eq_zero_iff_forall_eq_nat]
        intro n hn
        obtain ⟨q, hq1, rfl⟩ := List.mem_map.1 hn
        obtain ⟨x, hx, rfl⟩ := List.mem_map.1 hq1
        rcases hc x hx with rfl | ⟨hx1, rx, hx2⟩
        · rfl
        · -- a consumer
          obtain ⟨k, hk, hkx⟩ := List.getElem_of_mem hx
          have hk2 : k < progs.length := by rw [← I.len]; simpa [left] using hk
          have hkl : (left s)[k]? = some x.prog := by
            rw [left, List.getElem?_map, List.getElem?_eq_getElem hk, hkx]; rfl
          have h3 := I.prod k _ _ (List.getElem?_eq_getElem hk2) hkl
          have h4 := I.cons k _ _ (List.getElem?_eq_getElem hk2) hkl
          rcases hr _ (List.getElem_mem hk2) with h5 | h5
          · rw [h5] at h3
            have := (List.append_eq_nil_iff.1 h3).2
            rw [this]; rfl
          · rw [h5, hx2, takes] at h4
            omega
      have ht1 : 1 ≤ totalTakes (left s) := by
        rw [totalTakes]
        have hm : takes th.prog ∈ (left s).map takes := List.mem_map.2 ⟨_, List.mem_map.2 ⟨th, hth, rfl⟩, rfl⟩
        have hle : ∀ (l : List Nat) (x : Nat), x ∈ l → x ≤ l.sum := by
          intro l
          induction l with
          | nil => intro x hx; simp at hx
          | cons y l ih =>
            intro x hx
            rw [List.sum_cons]
            rcases List.mem_cons.1 hx with rfl | hx
            · omega
            · have := ih x hx; omega
        have := hle _ _ hm
        rw [h2, takes] at this
        omega
      have h6 := I.puts
      have h7 := I.takes
      omega
  refine ⟨hall, ?_, ?_⟩
  · have h7 := I.takes
    have : totalTakes (left s) = 0 := by
      rw [totalTakes, List.sum_eq_zero_iff_forall_eq_nat]
      intro n hn
      obtain ⟨q, hq1, rfl⟩ := List.mem_map.1 hn
      obtain ⟨x, hx, rfl⟩ := List.mem_map.1 hq1
      rw [hall x hx]; rfl
    omega
  · have h7 := I.puts
    have : totalPuts (left s) = 0 := by
      rw [totalPuts, List.sum_eq_zero_iff_forall_eq_nat]
      intro n hn
      obtain ⟨q, hq1, rfl⟩ := List.mem_map.1 hn
      obtain ⟨x, hx, rfl⟩ := List.mem_map.1 hq1
      rw [hall x hx]; rfl
    omega

/-! ## Runs end -/

/-- How many steps a thread may still make. -/
def rank (n : Nat) : PC → Nat
  | .idle => 3
  | .p1 => 2
  | .p2 _ => 2 * n + 5
  | .p3 => 4
  | .q2 _ => 2 * n + 5
  | .q3 _ => 2 * n + 4
  | .t1 => 1
  | .t2 => 0
  | .t3 => 2
  | .t4 => 4

/-- The same with the operations to come. -/
def work (n : Nat) (th : Th) : Nat := rank n th.pc + (2 * n + 4) * th.prog.length

/-- Of all threads. -/
def potential (s : St) : Nat := (s.ths.map (work s.ths.length)).sum

theorem notified_sum {a b : List Th} (n : Nat) (h : Notified a b) : b.length = a.length ∧
    (b.map (work n)).sum ≤ (a.map (work n)).sum + 2 * a.length := by
  rcases h with ⟨rfl, -⟩ | rfl | ⟨j, r, hj, rfl⟩
  · exact ⟨rfl, by omega⟩
  · refine ⟨by simp, ?_⟩
    induction a with
    | nil => simp
    | cons x a ih =>
      simp only [List.map_cons, List.sum_cons, List.length_cons]
      have : work n x.wake ≤ work n x + 2 := by
        rw [Th.wake]; split
        · rename_i hx; simp only [work, hx, rank]; omega
        · omega
      omega
  · have hlt := (List.getElem?_eq_some_iff.1 hj).1
    have := sum_set_add (work n) a j _ ⟨.t3, r⟩ hj
    simp only [work, rank] at this ⊢
    refine ⟨by simp, ?_⟩
    omega

theorem step_potential {s s' : St} {i j : Nat} (e : s.step i j = some s') : s'.ths.length = s.ths.length ∧
    (¬ s.blocked i → potential s' + 1 ≤ potential s) ∧ (s.blocked i → potential s' ≤ potential s + 2) := by
  have key : ∀ {th : Th} (th' : Th), s.ths[i]? = some th → (s.ths.set i th').length = s.ths.length ∧
      ((s.ths.set i th').map (work (s.ths.set i th').length)).sum + work s.ths.length th =
        (s.ths.map (work s.ths.length)).sum + work s.ths.length th' := by
    intro th th' h
    rw [List.length_set]
    exact ⟨rfl, sum_set_add (work s.ths.length) s.ths i th th' h⟩
  have nb : ∀ {th : Th}, s.ths[i]? = some th → th.pc ≠ .t2 → ¬ s.blocked i := by
    rintro th h1 h2 ⟨x, h3, h4⟩
    rw [h1] at h3
    exact h2 (by rw [Option.some.inj h3]; exact h4)
  cases step_cases e with
  | lockPut x a l r hi hl =>
    obtain ⟨h1, h2⟩ := key ⟨.p1, .put x a l :: r⟩ hi
    refine ⟨h1, fun _ => ?_, fun hb => absurd hb (nb hi (by simp))⟩
    simp only [potential]
    simp only [work, rank] at h2 ⊢
    omega
  | lockTake r hi hl =>
    obtain ⟨h1, h2⟩ := key ⟨.t1, .take :: r⟩ hi
    refine ⟨h1, fun _ => ?_, fun hb => absurd hb (nb hi (by simp))⟩
    simp only [potential]
    simp only [work, rank] at h2 ⊢
    omega
  | push x a l r pc hi hpc =>
    obtain ⟨h1, h2⟩ := key ⟨pc, r⟩ hi
    refine ⟨h1, fun _ => ?_, fun hb => absurd hb (nb hi (by simp))⟩
    simp only [potential]
    rcases hpc with rfl | rfl <;> simp only [work, rank, List.length_cons, Nat.mul_add, Nat.mul_one] at h2 ⊢ <;> omega
  | note2 a r b hi hb =>
    obtain ⟨h1, h2⟩ := key ⟨.p3, r⟩ hi
    obtain ⟨h3, h4⟩ := notified_sum s.ths.length hb
    refine ⟨h3.trans h1, fun _ => ?_, fun hb => absurd hb (nb hi (by simp))⟩
    simp only [potential, h3]
    rw [h1] at h2 h4 ⊢
    simp only [work, rank] at h2 h4 ⊢
    omega
  | note3 a r b hi hb =>
    obtain ⟨h1, h2⟩ := key ⟨.idle, r⟩ hi
    obtain ⟨h3, h4⟩ := notified_sum s.ths.length hb
    refine ⟨h3.trans h1, fun _ => ?_, fun hb => absurd hb (nb hi (by simp))⟩
    simp only [potential, h3]
    rw [h1] at h2 h4 ⊢
    simp only [work, rank] at h2 h4 ⊢
    omega
  | unlock r pc hi hpc =>
    obtain ⟨h1, h2⟩ := key ⟨.idle, r⟩ hi
    refine ⟨h1, fun _ => ?_, fun hb => absurd hb (nb hi (by rcases hpc with rfl | rfl <;> simp))⟩
    simp only [potential]
    rcases hpc with rfl | rfl <;> simp only [work, rank] at h2 ⊢ <;> omega
  | unlockLate a r hi =>
    obtain ⟨h1, h2⟩ := key ⟨.q3 a, r⟩ hi
    refine ⟨h1, fun _ => ?_, fun hb => absurd hb (nb hi (by simp))⟩
    simp only [potential]
    simp only [work, rank] at h2 ⊢
    omega
  | pop x q r hi hq =>
    obtain ⟨h1, h2⟩ := key ⟨.t4, r⟩ hi
    refine ⟨h1, fun _ => ?_, fun hb => absurd hb (nb hi (by simp))⟩
    simp only [potential]
    simp only [work, rank, List.length_cons, Nat.mul_add, Nat.mul_one] at h2 ⊢
    omega
  | block r hi hq =>
    obtain ⟨h1, h2⟩ := key ⟨.t2, .take :: r⟩ hi
    refine ⟨h1, fun _ => ?_, fun hb => absurd hb (nb hi (by simp))⟩
    simp only [potential]
    simp only [work, rank] at h2 ⊢
    omega
  | spurious r hi =>
    obtain ⟨h1, h2⟩ := key ⟨.t3, r⟩ hi
    refine ⟨h1, fun hb => absurd ⟨_, hi, rfl⟩ hb, fun _ => ?_⟩
    simp only [potential]
    simp only [work, rank] at h2 ⊢
    omega
  | relock r hi hl =>
    obtain ⟨h1, h2⟩ := key ⟨.t1, r⟩ hi
    refine ⟨h1, fun _ => ?_, fun hb => absurd hb (nb hi (by simp))⟩
    simp only [potential]
    simp only [work, rank] at h2 ⊢
    omega

theorem runs_bound {s t : St} {n k : Nat} (h : Runs s n k t) : n + potential t ≤ potential s + 3 * k := by
  induction h with
  | nil s => omega
  | move i j hb e _ ih => have := (step_potential e).2.1 hb; omega
  | spurious i j hb e _ ih => have := (step_potential e).2.2 hb; omega

/-- C131: every run ends: with `k` returns from `wait` without notification it has at most
`3 * threads + (2 * threads + 4) * operations + 3 * k` steps. -/
theorem C131_runs_end {progs : List (List Op)} {t : St} {n k : Nat} (h : Runs (St.start progs) n k t) :
    n ≤ 3 * progs.length + (2 * progs.length + 4) * (progs.map List.length).sum + 3 * k := by
  have h1 := runs_bound h
  have h2 : potential (St.start progs) = 3 * progs.length + (2 * progs.length + 4) * (progs.map List.length).sum := by
    rw [potential]
    simp only [St.start, List.length_map, List.map_map]
    have key : ∀ (m : Nat) (ps : List (List Op)), (ps.map (work m ∘ fun p => ⟨.idle, p⟩)).sum =
        3 * ps.length + (2 * m + 4) * (ps.map List.length).sum := by
      intro m ps
      induction ps with
      | nil => simp
      | cons p ps ih =>
        simp only [List.map_cons, List.sum_cons, ih, Function.comp, work, rank, List.length_cons, Nat.mul_add]
        omega
    exact key _ _
  omega

theorem runs_reach {progs : List (List Op)} {s t : St} {n k : Nat} (h : Runs s n k t) : Reach progs s → Reach progs t := by
  induction h with
  | nil s => exact id
  | move i j _ e _ ih => exact fun hr => ih (.step i j hr e)
  | spurious i j _ e _ ih => exact fun hr => ih (.step i j hr e)

/-- C131: from wherever a run is, it can be continued until every thread has finished (for producers and consumers with at least as
many puts as takes), whatever has happened so far. -/
theorem C131_can_finish {progs : List (List Op)} (hr : ∀ p ∈ progs, OneRole p) (ht : totalTakes progs ≤ totalPuts progs) {s : St}
    (h : Reach progs s) : ∃ n t, Runs s n 0 t ∧ (∀ th ∈ t.ths, th = ⟨.idle, []⟩) ∧ t.popped.length = totalTakes progs := by
  have key : ∀ (m : Nat) (s : St), potential s ≤ m → Reach progs s →
      ∃ n t, Runs s n 0 t ∧ (∀ th ∈ t.ths, th = ⟨.idle, []⟩) ∧ t.popped.length = totalTakes progs := by
    intro m
    induction m with
    | zero =>
      intro s hm hs
      by_cases hst : s.Stuck
      · obtain ⟨h1, h2, -⟩ := C131_no_hang hr ht hs hst
        exact ⟨0, s, .nil s, h1, h2⟩
      · simp only [St.Stuck, Classical.not_forall] at hst
        obtain ⟨i, j, s', e, hb⟩ := hst
        have := (step_potential e).2.1 hb
        omega
    | succ m ih =>
      intro s hm hs
      by_cases hst : s.Stuck
      · obtain ⟨h1, h2, -⟩ := C131_no_hang hr ht hs hst
        exact ⟨0, s, .nil s, h1, h2⟩
      · simp only [St.Stuck, Classical.not_forall] at hst
        obtain ⟨i, j, s', e, hb⟩ := hst
        have := (step_potential e).2.1 hb
        obtain ⟨n, t, h1, h2⟩ := ih s' (by omega) (.step i j hs e)
        exact ⟨n + 1, t, .move i j hb e h1, h2⟩
  exact key _ s (Nat.le_refl _) h

/-! ## Finding -/

/-- C131 finding: the program of the library's test, which waits without looking at a condition, can hang: if the main thread makes its
three notifications before the three threads get to `wait`, all of them stay blocked and nothing can happen any more. -/
theorem C131_finding_test_can_hang :
    ∃ l s, TSt.run l ⟨[.begin, .begin, .begin], none, 3⟩ = some s ∧ s.ths = [.blocked, .blocked, .blocked] ∧
      ∀ i j, s.step i j = none := by
  refine ⟨[(none, 0), (none, 0), (none, 0), (some 0, 0), (some 0, 0), (some 1, 0), (some 1, 0), (some 2, 0), (some 2, 0)],
    ⟨[.blocked, .blocked, .blocked], none, 0⟩, rfl, rfl, ?_⟩
  intro i j
  cases i with
  | none => rfl
  | some i =>
    match i with
    | 0 => rfl
    | 1 => rfl
    | 2 => rfl
    | n + 3 => rfl

end Verif.Props.Monitor

#print axioms Verif.Props.Monitor.C131_mutex
#print axioms Verif.Props.Monitor.C131_fifo
#print axioms Verif.Props.Monitor.C131_no_lost_wakeup
#print axioms Verif.Props.Monitor.C131_no_hang
#print axioms Verif.Props.Monitor.C131_runs_end
#print axioms Verif.Props.Monitor.C131_can_finish
#print axioms Verif.Props.Monitor.C131_finding_test_can_hang
