import Verif.Proof.MonitorWin
set_option linter.unusedSimpArgs false

/-!
# C132: a queue guarded by the Windows `Mutex` and `ConditionVariable`
-/
namespace Verif.Props.MonitorWin

open Verif.MonitorWin Verif.Spec.Monitor
open Verif.Monitor (Op sum_set_add)
open Verif.CondVar (PC Act Move)

/-- Two threads put 1, 2 and 3, with all kinds of notifications; two take three items altogether. -/
def sample : List (List Op) := [[.put 1 false false, .put 2 true false], [.take, .take], [.take], [.put 3 false true]]

example : sample.length ≤ 2 ^ 30 ∧ totalPuts sample ≤ 2 ^ 30 ∧ (∀ p ∈ sample, OneRole p) ∧ totalTakes sample ≤ totalPuts sample := by
  decide

/-- C132: at most one thread has the mutex. -/
theorem C132_mutex {progs : List (List Op)} (hn : progs.length ≤ 2 ^ 30) (ht : totalPuts progs ≤ 2 ^ 30) {s : WSt} {n : Nat}
    (h : Runs (WSt.start progs) n s) {i j : Nat} (hi : s.cv.pcs[i]? = some .own) (hj : s.cv.pcs[j]? = some .own) : i = j := by
  have CI := CondVar.inv_reach hn (runs_inv hn ht h).reach
  have h1 := CI.holder hi rfl
  have h2 := CI.holder hj rfl
  rw [h1] at h2
  exact Option.some.inj h2

/-- C132: the queue is first in, first out and loses nothing; each thread has put the items of its program in order, and taken as many
as it has finished takes. -/
theorem C132_fifo {progs : List (List Op)} (hn : progs.length ≤ 2 ^ 30) (ht : totalPuts progs ≤ 2 ^ 30) {s : WSt} {n : Nat}
    (h : Runs (WSt.start progs) n s) :
    s.pushed.map Prod.snd = s.popped.map Prod.snd ++ s.queue ∧
    ∀ (i : Nat) (p : List Op) (c : Cl), progs[i]? = some p → s.cl[i]? = some c →
      (s.pushed.filter (fun e => e.1 = i)).map Prod.snd ++ puts c.prog = puts p ∧
      (s.popped.filter (fun e => e.1 = i)).length + takes c.prog = takes p := by
  have I := (runs_inv hn ht h).hist
  refine ⟨I.fifo, ?_⟩
  intro i p c hp hi
  have hl : (s.cl.map Cl.prog)[i]? = some c.prog := by rw [List.getElem?_map, hi]; rfl
  exact ⟨I.prod i p _ hp hl, I.cons i p _ hp hl⟩

theorem can_go {s : WSt} {i : Nat} {pc : PC} {c : Cl} (hp : s.cv.pcs[i]? = some pc) (hc : s.cl[i]? = some c) (h1 : pc ≠ .idle)
    (h2 : pc ≠ .own) {v : CondVar.St} (e : CondVar.step false s.cv i .go = some v) : s.step i ≠ none := by
  have : s.step i = s.call i .go c := by
    rw [WSt.step, hp, hc]
    cases pc <;> first | rfl | simp at h1 h2
  rw [this, WSt.call, e]
  simp

theorem stuck_cases {progs : List (List Op)} (hn : progs.length ≤ 2 ^ 30) {s : WSt} (I : Inv progs s) (hs : s.Stuck) (i : Nat) (pc : PC) (c : Cl)
    (hp : s.cv.pcs[i]? = some pc) (hc : s.cl[i]? = some c) :
    (pc = .idle ∧ c = ⟨.z, []⟩) ∨ (pc = .w3 ∧ s.cv.sema = 0 ∧ ∃ r, c.prog = .take :: r) := by
  have CI := CondVar.inv_reach hn I.reach
  have hclen : s.cl.length = s.cv.pcs.length := by rw [CI.len, I.len]
  have hcl : ∀ {k : Nat} {p : PC}, s.cv.pcs[k]? = some p → ∃ c, s.cl[k]? = some c := by
    intro k p h
    have := CondVar.lt_of_get h
    exact ⟨_, List.getElem?_eq_getElem (by omega)⟩
  have hfit : ∀ {k : Nat} {p : PC} {c : Cl}, s.cv.pcs[k]? = some p → s.cl[k]? = some c → Fit p c := by
    intro k p c h1 h2
    exact I.fit _ (List.mem_of_getElem? (zip_get h1 h2))
  -- nobody is in the middle of `notifyAll`
  have noA2 : ∀ (k : Nat) (b : Bool), s.cv.pcs[k]? ≠ some (.a2 b) := by
    intro k b hk
    have hfree := CondVar.no_free CI hk
    cases b with
    | false => simp [CondVar.isFree] at hfree
    | true =>
      rcases CondVar.wait_progress CI hk with ⟨v, e⟩ | ⟨j, p, v, -, hj, hpos, e⟩
      · obtain ⟨c, hc⟩ := hcl hk
        exact can_go hk hc (by simp) (by simp) e (hs k)
      · obtain ⟨c, hc⟩ := hcl hj
        refine can_go hj hc ?_ ?_ e (hs j) <;> rintro rfl <;> simp [Verif.Spec.CondVar.stepsLeft] at hpos
  -- what a thread with the mutex, or one that needs nothing, does
  have noHold : ∀ (k : Nat) (p : PC), s.cv.pcs[k]? = some p → Verif.Spec.CondVar.holds p = false := by
    intro k p hk
    cases hh : Verif.Spec.CondVar.holds p with
    | false => rfl
    | true =>
      exfalso
      obtain ⟨c, hc⟩ := hcl hk
      have hf := hfit hk hc
      obtain ⟨ph, prog⟩ := c
      cases p with
      | own =>
        have hst : s.step k = s.inside k ⟨ph, prog⟩ := by rw [WSt.step, hk, hc]
        have := hs k
        rw [hst] at this
        rcases hf with ⟨h1, x, a, l, r, h2⟩ | ⟨a, h1⟩ | h1 | h1 | ⟨h1, r, h2⟩
        · dsimp only at h1 h2; subst h1 h2
          simp [WSt.inside] at this
        · dsimp only at h1; subst h1
          cases a <;> simp [WSt.inside, WSt.call] at this <;> unfold CondVar.step at this <;> rw [hk] at this <;> simp at this
        · dsimp only at h1; subst h1
          simp [WSt.inside, WSt.call] at this
          unfold CondVar.step at this; rw [hk] at this; simp at this
        · dsimp only at h1; subst h1
          simp [WSt.inside, WSt.call] at this
          unfold CondVar.step at this; rw [hk] at this; simp at this
        · dsimp only at h1 h2; subst h1 h2
          cases hq : s.queue with
          | nil =>
            simp [WSt.inside, WSt.call, hq] at this
            unfold CondVar.step at this; rw [hk] at this; simp at this
          | cons x q => simp [WSt.inside, hq] at this
      | w1 => exact can_go hk hc (by simp) (by simp) (by unfold CondVar.step; rw [hk]) (hs k)
      | w2 => exact can_go hk hc (by simp) (by simp) (by unfold CondVar.step; rw [hk]) (hs k)
      | n1 b => exact can_go hk hc (by simp) (by simp) (by unfold CondVar.step; rw [hk]) (hs k)
      | n2 b w => cases w <;> exact can_go hk hc (by simp) (by simp) (by unfold CondVar.step; rw [hk]) (hs k)
      | a1 b =>
        by_cases hw : 0 < s.cv.waiterNum
        · exact can_go hk hc (by simp) (by simp) (by unfold CondVar.step; rw [hk]; dsimp only; rw [if_pos hw]) (hs k)
        · exact can_go hk hc (by simp) (by simp) (by unfold CondVar.step; rw [hk]; dsimp only; rw [if_neg hw]) (hs k)
      | a2 b => exact noA2 k b hk
      | a3 b => exact can_go hk hc (by simp) (by simp) (by unfold CondVar.step; rw [hk]) (hs k)
      | _ => simp [Verif.Spec.CondVar.holds] at hh
  have hfree : s.cv.mutex = none := by
    cases hm : s.cv.mutex with
    | none => rfl
    | some k =>
      obtain ⟨p, h1, h2⟩ := CI.owner k hm
      rw [noHold k p h1] at h2
      simp at h2
  have hh := noHold i pc hp
  have hf := hfit hp hc
  obtain ⟨ph, prog⟩ := c
  cases pc with
  | idle =>
    have hst : s.step i = s.outside i ⟨ph, prog⟩ := by rw [WSt.step, hp, hc]
    have := hs i
    rw [hst] at this
    rcases hf with h1 | h1
    · dsimp only at h1; subst h1
      cases prog with
      | nil => exact Or.inl ⟨rfl, rfl⟩
      | cons o r =>
        exfalso
        cases o <;> simp [WSt.outside, WSt.call] at this <;> unfold CondVar.step at this <;> rw [hp] at this <;> simp [hfree] at this
    · dsimp only at h1; subst h1
      exfalso
      simp [WSt.outside, WSt.call] at this
      unfold CondVar.step at this; rw [hp] at this; simp at this
  | w3 =>
    right
    refine ⟨rfl, ?_, hf.2⟩
    refine Classical.byContradiction fun h0 => ?_
    exact can_go hp hc (by simp) (by simp) (by unfold CondVar.step; rw [hp]; dsimp only; rw [if_pos (by omega)]) (hs i)
  | w4 => exact absurd (hs i) (can_go hp hc (by simp) (by simp) (by unfold CondVar.step; rw [hp]))
  | w5 b => cases b <;> exact absurd (hs i) (can_go hp hc (by simp) (by simp) (by unfold CondVar.step; rw [hp]))
  | w6 => exact absurd (hs i) (can_go hp hc (by simp) (by simp) (by unfold CondVar.step; rw [hp]; dsimp only; rw [if_pos hfree]))
  | n1 b => exact absurd (hs i) (can_go hp hc (by simp) (by simp) (by unfold CondVar.step; rw [hp]))
  | n2 b w => cases w <;> exact absurd (hs i) (can_go hp hc (by simp) (by simp) (by unfold CondVar.step; rw [hp]))
  | a1 b =>
    have := CondVar.no_free CI hp
    cases b with
    | true => simp [Verif.Spec.CondVar.holds] at hh
    | false => simp [CondVar.isFree] at this
  | a2 b => exact absurd hp (noA2 i b)
  | a3 b =>
    have := CondVar.no_free CI hp
    cases b with
    | true => simp [Verif.Spec.CondVar.holds] at hh
    | false => simp [CondVar.isFree] at this
  | own => simp [Verif.Spec.CondVar.holds] at hh
  | w1 => simp [Verif.Spec.CondVar.holds] at hh
  | w2 => simp [Verif.Spec.CondVar.holds] at hh

/-- C132: no wake-up is lost.  When nothing can happen any more but somebody waits for the semaphore inside `wait`, the queue is empty. -/
theorem C132_no_lost_wakeup {progs : List (List Op)} (hn : progs.length ≤ 2 ^ 30) (ht : totalPuts progs ≤ 2 ^ 30) {s : WSt} {n : Nat}
    (h : Runs (WSt.start progs) n s) (hs : s.Stuck) {i : Nat} (hi : s.cv.pcs[i]? = some .w3) : s.queue = [] := by
  have I := runs_inv hn ht h
  have CI := CondVar.inv_reach hn I.reach
  have hlt := CondVar.lt_of_get hi
  have hc := List.getElem?_eq_getElem (l := s.cl) (i := i) (by rw [I.len, ← CI.len]; exact hlt)
  have h1 := I.cover ⟨_, List.mem_of_getElem? (zip_get hi hc), rfl⟩
  have h0 : s.cv.sema = 0 := by
    rcases stuck_cases hn I hs i _ _ hi hc with ⟨h2, -⟩ | ⟨-, h2, -⟩
    · cases h2
    · exact h2
  have h2 : (both s).countP busy = 0 := by
    rw [List.countP_eq_zero]
    rintro ⟨pc, c⟩ hx
    obtain ⟨k, hk⟩ := List.getElem?_of_mem hx
    obtain ⟨k1, k2⟩ := List.getElem?_zip_eq_some.1 hk
    rcases stuck_cases hn I hs k pc c k1 k2 with ⟨rfl, rfl⟩ | ⟨rfl, -⟩ <;> simp [busy]
  rw [h0, h2] at h1
  exact List.length_eq_zero_iff.1 (by omega)

/-- A lone taker does wait for ever. -/
example : ∃ (n : Nat) (s : WSt), Runs (WSt.start [[.take]]) n s ∧ s.Stuck ∧ s.cv.pcs[0]? = some .w3 := by
  refine ⟨4, _, .step 0 (.step 0 (.step 0 (.step 0 (.nil _) rfl) rfl) rfl) rfl, ?_, rfl⟩
  intro i
  cases i with
  | zero => rfl
  | succ i => rfl

theorem sum_zero {l : List (List Op)} {f : List Op → Nat} (h : ∀ p ∈ l, f p = 0) : (l.map f).sum = 0 := by
  induction l with
  | nil => rfl
  | cons p l ih =>
    rw [List.map_cons, List.sum_cons, h p (by simp), ih (fun q hq => h q (by simp [hq]))]

theorem le_sum {l : List (List Op)} {f : List Op → Nat} {p : List Op} (h : p ∈ l) : f p ≤ (l.map f).sum := by
  induction l with
  | nil => simp at h
  | cons q l ih =>
    rw [List.map_cons, List.sum_cons]
    rcases List.mem_cons.1 h with rfl | h
    · omega
    · have := ih h; omega

/-- C132: if every thread only puts or only takes, and there are at least as many puts as takes, then a run in which nothing can
happen any more is over: every thread has finished, and every take has got an item. -/
theorem C132_no_hang {progs : List (List Op)} (hn : progs.length ≤ 2 ^ 30) (hp : totalPuts progs ≤ 2 ^ 30)
    (hr : ∀ p ∈ progs, OneRole p) (ht : totalTakes progs ≤ totalPuts progs) {s : WSt} {n : Nat}
    (h : Runs (WSt.start progs) n s) (hs : s.Stuck) :
    (∀ c ∈ s.cl, c = ⟨.z, []⟩) ∧ (∀ pc ∈ s.cv.pcs, pc = .idle) ∧ s.popped.length = totalTakes progs ∧
      s.pushed.length = totalPuts progs := by
  have I := runs_inv hn hp h
  have CI := CondVar.inv_reach hn I.reach
  have hlen : s.cl.length = s.cv.pcs.length := by rw [CI.len, I.len]
  have hist := I.hist
  have hget : ∀ c ∈ s.cl, ∃ (k : Nat) (pc : PC), s.cv.pcs[k]? = some pc ∧ s.cl[k]? = some c := by
    intro c hc
    obtain ⟨k, hk, rfl⟩ := List.getElem_of_mem hc
    exact ⟨k, _, List.getElem?_eq_getElem (by omega), List.getElem?_eq_getElem hk⟩
  -- nobody waits
  have noWait : ∀ (k : Nat), s.cv.pcs[k]? ≠ some .w3 := by
    intro k hk
    have hlt := CondVar.lt_of_get hk
    have hq := C132_no_lost_wakeup hn hp h hs hk
    have hf := hist.fifo
    rw [hq, List.append_nil] at hf
    have hl2 : s.pushed.length = s.popped.length := by simpa using congrArg List.length hf
    have hp0 : totalPuts (s.cl.map Cl.prog) = 0 := by
      refine sum_zero ?_
      intro q hq1
      obtain ⟨c, hc, rfl⟩ := List.mem_map.1 hq1
      obtain ⟨m, pc, h1, h2⟩ := hget c hc
      rcases stuck_cases hn I hs m pc c h1 h2 with ⟨-, rfl⟩ | ⟨-, -, r, hx2⟩
      · rfl
      · have hm : m < progs.length := by rw [← CI.len]; exact CondVar.lt_of_get h1
        have hkl : (s.cl.map Cl.prog)[m]? = some c.prog := by rw [List.getElem?_map, h2]; rfl
        have h3 := hist.prod m _ _ (List.getElem?_eq_getElem hm) hkl
        have h4 := hist.cons m _ _ (List.getElem?_eq_getElem hm) hkl
        rcases hr _ (List.getElem_mem hm) with h5 | h5
        · rw [h5] at h3
          rw [(List.append_eq_nil_iff.1 h3).2]; rfl
        · rw [h5, hx2, takes] at h4
          omega
    have hck := List.getElem?_eq_getElem (l := s.cl) (i := k) (by omega)
    have ht1 : 1 ≤ totalTakes (s.cl.map Cl.prog) := by
      rcases stuck_cases hn I hs k _ _ hk hck with ⟨h1, -⟩ | ⟨-, -, r, h1⟩
      · cases h1
      · have := le_sum (f := takes) (List.mem_map.2 ⟨_, List.mem_of_getElem? hck, rfl⟩ : (s.cl[k]'(by omega)).prog ∈ s.cl.map Cl.prog)
        rw [h1, takes] at this
        rw [totalTakes]
        omega
    have h6 := hist.puts
    have h7 := hist.takes
    omega
  have hall : ∀ c ∈ s.cl, c = ⟨.z, []⟩ := by
    intro c hc
    obtain ⟨k, pc, h1, h2⟩ := hget c hc
    rcases stuck_cases hn I hs k pc c h1 h2 with ⟨-, h3⟩ | ⟨rfl, -⟩
    · exact h3
    · exact absurd h1 (noWait k)
  refine ⟨hall, ?_, ?_, ?_⟩
  · intro pc hpc
    obtain ⟨k, hk, rfl⟩ := List.getElem_of_mem hpc
    have h1 := List.getElem?_eq_getElem hk
    rcases stuck_cases hn I hs k _ _ h1 (List.getElem?_eq_getElem (by omega)) with ⟨h3, -⟩ | ⟨h3, -⟩
    · exact h3
    · rw [h3] at h1; exact absurd h1 (noWait k)
  · have h7 := hist.takes
    have : totalTakes (s.cl.map Cl.prog) = 0 := by
      refine sum_zero ?_
      intro q hq1
      obtain ⟨c, hc, rfl⟩ := List.mem_map.1 hq1
      rw [hall c hc]; rfl
    omega
  · have h7 := hist.puts
    have : totalPuts (s.cl.map Cl.prog) = 0 := by
      refine sum_zero ?_
      intro q hq1
      obtain ⟨c, hc, rfl⟩ := List.mem_map.1 hq1
      rw [hall c hc]; rfl
    omega

/-! ## Runs end -/

/-- How many steps a thread may still make before its next operation is due. -/
def rank (n : Nat) : PC × Cl → Nat
  | (.idle, c) => if c.ph = .q3 then 16 else 4
  | (.own, c) => match c.ph with
    | .p1 => 3
    | .p2 _ => 8 * n + 17
    | .p3 => 5
    | .q2 => 17
    | .t1 => 3
    | _ => 0
  | (.w1, _) => 2
  | (.w2, _) => 1
  | (.w3, _) => 0
  | (.w4, _) => 6
  | (.w5 _, _) => 5
  | (.w6, _) => 4
  | (.n1 _, _) => 15
  | (.n2 _ true, _) => 14
  | (.n2 _ false, _) => 6
  | (.a1 _, _) => 8 * n + 8
  | (.a2 _, _) => 7
  | (.a3 _, _) => 6

/-- The same with the operations to come. -/
def work (n : Nat) (x : PC × Cl) : Nat := rank n x + (8 * n + 18) * x.2.prog.length

/-- Of all threads, with the count of the semaphore. -/
def potential (s : WSt) : Nat := 8 * s.cv.sema + ((both s).map (work s.cl.length)).sum

theorem rank_ret (n : Nat) (b : Bool) (c : Cl) (h : c.ph = if b then .p3 else .z) : rank n (CondVar.ret b, c) ≤ 5 := by
  cases b with
  | true => simp [CondVar.ret, rank, h]
  | false => simp [CondVar.ret, rank, h]

theorem releaseSema_le (a b : Nat) : CondVar.releaseSema a b ≤ a + b := by
  rw [CondVar.releaseSema]; split <;> omega

theorem step_potential {progs : List (List Op)} (hn : progs.length ≤ 2 ^ 30) {s s' : WSt} {i : Nat} (I : Inv progs s)
    (e : s.step i = some s') : potential s' + 1 ≤ potential s := by
  have CI := CondVar.inv_reach hn I.reach
  have hwn : s.cv.waiterNum.toNat ≤ s.cl.length := by
    have h1 := CI.wn
    have h2 := countP_le_len s.cv.pcs Verif.Spec.CondVar.waiting
    have h3 := CI.len
    have h4 := I.len
    omega
  cases step_cases e with
  | cv pc pc' c c' v hp hc m p =>
    have hz := zip_get hp hc
    have hboth : both { s with cv := v, cl := s.cl.set i c' } = (both s).set i (pc', c') := by
      show v.pcs.zip (s.cl.set i c') = _
      rw [m.pcs, zip_set]; rfl
    have hsum := sum_set_add (work s.cl.length) (both s) i _ (pc', c') hz
    have hprog := pair_prog p
    rw [potential, potential, hboth]
    simp only [List.length_set]
    have hw1 : work s.cl.length (pc, c) = rank s.cl.length (pc, c) + (8 * s.cl.length + 18) * c.prog.length := rfl
    have hw2 : work s.cl.length (pc', c') = rank s.cl.length (pc', c') + (8 * s.cl.length + 18) * c.prog.length := by
      rw [work]; dsimp only; rw [hprog]
    rw [hw1, hw2] at hsum
    have hf := I.fit _ (List.mem_of_getElem? hz)
    suffices hk : 8 * v.sema + rank s.cl.length (pc', c') + 1 ≤ 8 * s.cv.sema + rank s.cl.length (pc, c) by
      omega
    cases p with
    | lockPut | lockTake | late | one | all | unlock | unlockLate | wait =>
      cases m <;> simp [rank] <;> omega
    | go _ _ _ h1 h2 =>
      cases m with
      | lock => exact absurd rfl h1
      | unlock => exact absurd rfl h2
      | wait => exact absurd rfl h2
      | one0 => exact absurd rfl h1
      | one1 => exact absurd rfl h2
      | all0 => exact absurd rfl h1
      | all1 => exact absurd rfl h2
      | enter => simp [rank]
      | rel => simp [rank]
      | take hs => simp only [rank]; omega
      | leave => simp only [rank]; omega
      | signal => simp only [rank]; omega
      | skip => simp only [rank]; omega
      | back =>
        have : c.ph = .t1 := hf.1
        simp only [rank, this]; omega
      | look b => cases decide (0 < s.cv.waiterNum) <;> simp only [rank] <;> omega
      | post b =>
        have h3 := rank_ret s.cl.length b c hf
        have h4 := releaseSema_le s.cv.sema 1
        have h5 : rank s.cl.length (.n2 b true, c) = 14 := rfl
        rw [h5]
        show 8 * CondVar.releaseSema s.cv.sema 1 + _ + 1 ≤ _
        omega
      | noPost b =>
        have h3 := rank_ret s.cl.length b c hf
        have h5 : rank s.cl.length (.n2 b false, c) = 6 := rfl
        rw [h5]
        show 8 * s.cv.sema + _ + 1 ≤ _
        omega
      | cast b hw =>
        have h4 := releaseSema_le s.cv.sema s.cv.waiterNum.toNat
        simp only [rank]
        omega
      | noCast b h0 =>
        have h3 := rank_ret s.cl.length b c hf
        have h5 : rank s.cl.length (.a1 b, c) = 8 * s.cl.length + 8 := rfl
        rw [h5]
        show 8 * s.cv.sema + _ + 1 ≤ _
        omega
      | got => simp only [rank]; omega
      | fin b =>
        have h3 := rank_ret s.cl.length b c hf
        have h5 : rank s.cl.length (.a3 b, c) = 6 := rfl
        rw [h5]
        show 8 * s.cv.sema + _ + 1 ≤ _
        omega
  | push x a l r ph hp hc hph =>
    have hz := zip_get hp hc
    have hboth : both { s with cl := s.cl.set i ⟨ph, r⟩, queue := s.queue ++ [x], pushed := s.pushed ++ [(i, x)] } =
        (both s).set i (.own, ⟨ph, r⟩) := by
      show s.cv.pcs.zip (s.cl.set i _) = _
      rw [both, ← zip_set, set_self hp]
    have hsum := sum_set_add (work s.cl.length) (both s) i _ (.own, ⟨ph, r⟩) hz
    rw [potential, potential, hboth]
    simp only [List.length_set]
    have h1 : rank s.cl.length (.own, ⟨ph, r⟩) ≤ 8 * s.cl.length + 17 := by
      rcases hph with rfl | rfl <;> simp [rank]
    have h2 : work s.cl.length (.own, ⟨.p1, .put x a l :: r⟩) = 3 + (8 * s.cl.length + 18) * r.length + (8 * s.cl.length + 18) := by
      simp only [work, rank, List.length_cons, Nat.mul_add, Nat.mul_one]; omega
    have h3 : work s.cl.length (.own, ⟨ph, r⟩) = rank s.cl.length (.own, ⟨ph, r⟩) + (8 * s.cl.length + 18) * r.length := rfl
    rw [h2, h3] at hsum
    omega
  | pop x q r hp hc hq =>
    have hz := zip_get hp hc
    have hboth : both { s with cl := s.cl.set i ⟨.p3, r⟩, queue := q, popped := s.popped ++ [(i, x)] } =
        (both s).set i (.own, ⟨.p3, r⟩) := by
      show s.cv.pcs.zip (s.cl.set i _) = _
      rw [both, ← zip_set, set_self hp]
    have hsum := sum_set_add (work s.cl.length) (both s) i _ (.own, ⟨.p3, r⟩) hz
    rw [potential, potential, hboth]
    simp only [List.length_set]
    have h2 : work s.cl.length (.own, ⟨.t1, .take :: r⟩) = 3 + (8 * s.cl.length + 18) * r.length + (8 * s.cl.length + 18) := by
      simp only [work, rank, List.length_cons, Nat.mul_add, Nat.mul_one]; omega
    have h3 : work s.cl.length (.own, ⟨.p3, r⟩) = 5 + (8 * s.cl.length + 18) * r.length := rfl
    rw [h2, h3] at hsum
    omega

theorem start_potential (progs : List (List Op)) :
    potential (WSt.start progs) = 4 * progs.length + (8 * progs.length + 18) * (progs.map List.length).sum := by
  have key : ∀ (m : Nat) (ps : List (List Op)),
      (((List.replicate ps.length PC.idle).zip (ps.map (fun p => (⟨.z, p⟩ : Cl)))).map (work m)).sum =
        4 * ps.length + (8 * m + 18) * (ps.map List.length).sum := by
    intro m ps
    induction ps with
    | nil => simp
    | cons p ps ih =>
      simp only [List.length_cons, List.replicate_succ, List.map_cons, List.zip_cons_cons, List.sum_cons, ih, work, rank, Nat.mul_add]
      simp
      omega
  rw [potential]
  have h0 : (WSt.start progs).cv.sema = 0 := rfl
  have h1 : (WSt.start progs).cl.length = progs.length := by simp [WSt.start]
  have h2 : both (WSt.start progs) = (List.replicate progs.length PC.idle).zip (progs.map (fun p => (⟨.z, p⟩ : Cl))) := rfl
  rw [h0, h1, h2, key]
  omega

/-- C132: every run ends; it has at most `4 * threads + (8 * threads + 18) * operations` steps.  (There are no returns from `wait` without
a notification other than those that earlier notifications have left behind, and these are counted.) -/
theorem C132_runs_end {progs : List (List Op)} (hn : progs.length ≤ 2 ^ 30) (ht : totalPuts progs ≤ 2 ^ 30) {s : WSt} {n : Nat}
    (h : Runs (WSt.start progs) n s) :
    n ≤ 4 * progs.length + (8 * progs.length + 18) * (progs.map List.length).sum := by
  have key : n + potential s ≤ potential (WSt.start progs) := by
    induction h with
    | nil => omega
    | step i h e ih =>
      have := step_potential hn (runs_inv hn ht h) e
      omega
  rw [start_potential] at key
  omega

/-- C132: wherever a run is, it can go on until every thread has finished, and it cannot end otherwise (for producers and consumers with
at least as many puts as takes). -/
theorem C132_finishes {progs : List (List Op)} (hn : progs.length ≤ 2 ^ 30) (hp : totalPuts progs ≤ 2 ^ 30)
    (hr : ∀ p ∈ progs, OneRole p) (ht : totalTakes progs ≤ totalPuts progs) {s : WSt} {n : Nat} (h : Runs (WSt.start progs) n s) :
    (∃ i s', s.step i = some s') ∨ ((∀ c ∈ s.cl, c = ⟨.z, []⟩) ∧ s.popped.length = totalTakes progs) := by
  by_cases hs : s.Stuck
  · obtain ⟨h1, -, h2, -⟩ := C132_no_hang hn hp hr ht h hs
    exact Or.inr ⟨h1, h2⟩
  · simp only [WSt.Stuck, Classical.not_forall] at hs
    obtain ⟨i, hi⟩ := hs
    exact Or.inl ⟨i, Option.ne_none_iff_exists'.1 hi⟩

end Verif.Props.MonitorWin

#print axioms Verif.Props.MonitorWin.C132_mutex
#print axioms Verif.Props.MonitorWin.C132_fifo
#print axioms Verif.Props.MonitorWin.C132_no_lost_wakeup
#print axioms Verif.Props.MonitorWin.C132_no_hang
#print axioms Verif.Props.MonitorWin.C132_runs_end
#print axioms Verif.Props.MonitorWin.C132_finishes
