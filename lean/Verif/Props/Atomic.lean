import Verif.Proof.Atomic

/-!
# C95 atomic operations
-/
set_option linter.unusedSimpArgs false
namespace Verif.Props.Atomic
open Verif.Atomic Verif.Spec.Atomic

variable {w : Nat}

/-- C95: on both platforms the functions do what their comments say, although the arguments of the
underlying compare-and-swap come in different orders. -/
theorem C95_meaning (win : Bool) (cell x y : BitVec w) :
    IsAdd w cell.toNat x.toNat (atomicAdd win cell x).1.toNat (atomicAdd win cell x).2.toNat ∧
      IsCompareExchange cell.toNat x.toNat y.toNat (atomicCompareExchange win cell x y).1.toNat
        (atomicCompareExchange win cell x y).2.toNat ∧
      IsExchange cell.toNat x.toNat (atomicExchange win cell x).1.toNat (atomicExchange win cell x).2.toNat := by
  have e : atomicCompareExchange win cell x y = (cell, if cell = y then x else cell) := exec_cas win x y cell
  refine ⟨⟨rfl, BitVec.toNat_add _ _⟩, ?_, ⟨rfl, rfl⟩⟩
  rw [e]
  refine ⟨rfl, fun h => ?_, fun h => ?_⟩
  · rw [if_pos (BitVec.eq_of_toNat_eq h)]
  · rw [if_neg (fun hh => h (congrArg BitVec.toNat hh))]

/-- C95: no addition is lost: when `n` threads have made all their calls of `AtomicAdd`, in whatever order, the
variable has grown by exactly the sum of all the arguments (modulo 2^w). -/
theorem C95_counter (win : Bool) (n : Nat) (c : BitVec w) (ys : Nat → List (BitVec w)) (s : St w)
    (hn : ∀ t, n ≤ t → ys t = []) (h : Steps win (start c fun t => (ys t).map .add) s) (hd : ∀ t, s.prog t = []) :
    s.cell.toNat = (c.toNat + ∑ t ∈ Finset.range n, ((ys t).map BitVec.toNat).sum) % 2 ^ w := by
  obtain ⟨_, _, h3⟩ := counter_inv (n := n) h (fun t op hop => by
    simp only [start, List.mem_map] at hop
    obtain ⟨y, _, rfl⟩ := hop
    exact ⟨y, rfl⟩) (fun t ht => by simp [start, hn t ht])
  have e1 : ∀ t, sumOps (s.prog t) = 0 := fun t => by rw [hd t]; rfl
  have e2 : ∀ t, sumOps ((start c fun t => (ys t).map Op.add).prog t) = ((ys t).map BitVec.toNat).sum := fun t => by
    simp [start, sumOps, Function.comp_def, amount]
  simp only [e1, e2, Finset.sum_const_zero, Nat.add_zero] at h3
  rw [Nat.mod_eq_of_lt s.cell.isLt] at h3
  exact h3

/-- C95: tickets: if all calls add 1, no two of the first 2^w calls of all the threads get the same number. -/
theorem C95_tickets (win : Bool) (c : BitVec w) (prog : Nat → List (Op w)) (s : St w) (hp : ∀ t, ∀ op ∈ prog t, op = .add 1)
    (h : Steps win (start c prog) s) (i j : Nat) (ei ej : Nat × Op w × BitVec w) (hi : s.log[i]? = some ei)
    (hj : s.log[j]? = some ej) (hij : i < j) (hw : j < 2 ^ w) : ei.2.2 ≠ ej.2.2 := by
  obtain ⟨_, _, h3⟩ := ticket_inv rfl h hp
  rw [h3 i ei hi, h3 j ej hj]
  intro e
  have e := congrArg BitVec.toNat ((BitVec.add_right_inj c).1 e)
  rw [BitVec.toNat_ofNat, BitVec.toNat_ofNat, Nat.mod_eq_of_lt (by omega), Nat.mod_eq_of_lt hw] at e
  omega

/-- C95: hand-over: if all calls are `AtomicExchange`, every value put into the variable (and the first one) is
returned to exactly one caller or is still there: nothing is lost and nothing is handed out twice. -/
theorem C95_handover (win : Bool) (c : BitVec w) (vs : Nat → List (BitVec w)) (s : St w)
    (h : Steps win (start c fun t => (vs t).map .exchange) s) :
    ∃ put : List (BitVec w), (s.log.map fun e => e.2.1) = put.map .exchange ∧
      (s.cell :: s.log.map fun e => e.2.2).Perm (c :: put) := by
  obtain ⟨_, h2⟩ := exchange_inv rfl h (fun t op hop => by
    simp only [List.mem_map] at hop
    obtain ⟨y, _, rfl⟩ := hop
    exact ⟨y, rfl⟩)
  refine ⟨s.log.flatMap fun e => written e.2.1, ?_, ?_⟩
  · have hlog : ∀ s' : St w, Steps win (start c fun t => (vs t).map .exchange) s' →
        (∀ t, ∀ op ∈ s'.prog t, ∃ n, op = .exchange n) ∧
        (s'.log.map fun e => e.2.1) = (s'.log.flatMap fun e => written e.2.1).map .exchange := by
      intro s' h'
      induction h' with
      | refl =>
        refine ⟨fun t op hop => ?_, rfl⟩
        simp only [start, List.mem_map] at hop
        obtain ⟨y, _, rfl⟩ := hop
        exact ⟨y, rfl⟩
      | @step s1 _ h1 h2 ih =>
        have i1 := ih
        cases h2 with
        | @call t op rest hp =>
        have hp' := (exchange_inv rfl h1 (fun t op hop => by
          simp only [List.mem_map] at hop
          obtain ⟨y, _, rfl⟩ := hop
          exact ⟨y, rfl⟩)).1
        obtain ⟨n, rfl⟩ := hp' t op (by rw [hp]; simp)
        have := (exchange_inv rfl (Steps.step h1 (Step.call hp)) (fun t op hop => by
          simp only [List.mem_map] at hop
          obtain ⟨y, _, rfl⟩ := hop
          exact ⟨y, rfl⟩)).1
        exact ⟨this, by dsimp only; rw [List.map_append, List.flatMap_append, List.map_append, (ih).2]; rfl⟩
    exact (hlog s h).2
  · rw [← h2]
    exact (List.perm_append_singleton _ _).symm

/-- C95: one winner: if threads race to replace 0 by their own (non-zero) value with `AtomicCompareExchange`, exactly one
call - the first - is told that it found 0, and its value stays. -/
theorem C95_one_winner (win : Bool) (prog : Nat → List (Op w)) (s : St w)
    (hp : ∀ t, ∀ op ∈ prog t, ∃ n, n ≠ 0 ∧ op = .compareExchange n 0) (h : Steps win (start 0 prog) s) (hl : s.log ≠ []) :
    ∃ t n rest, n ≠ 0 ∧ s.log = (t, .compareExchange n 0, 0) :: rest ∧ s.cell = n ∧ ∀ e ∈ rest, e.2.2 = n ∧ e.2.2 ≠ 0 := by
  obtain ⟨_, h1 | ⟨t, n, rest, hn, hc, hlog, hr⟩⟩ := once_inv rfl h hp
  · exact absurd h1.1 hl
  · exact ⟨t, n, rest, hn, hlog, hc, fun e he => ⟨hr e he, by rw [hr e he]; exact hn⟩⟩

/-- C95: the retry loop `do x = *p; while (AtomicCompareExchange(p, f(x), x) != x)` applies `f` exactly once per
finished round, whatever the other threads do between the load and the exchange. -/
theorem C95_retry_loop (win : Bool) (f : BitVec w → BitVec w) (n : Nat) (c : BitVec w) (todo : Nat → Nat) (s : LoopSt w)
    (hn : ∀ t, n ≤ t → todo t = 0) (h : LoopSteps win f ⟨c, fun _ => .load, todo, 0⟩ s) :
    s.cell = f^[s.done] c ∧ s.done + ∑ t ∈ Finset.range n, s.todo t = ∑ t ∈ Finset.range n, todo t := by
  obtain ⟨h1, _⟩ := loop_inv h
  obtain ⟨_, _, h3⟩ := loop_total (n := n) h hn (fun _ => rfl)
  exact ⟨by simpa using h1, by simpa using h3⟩

/-- C95: a lock made with `AtomicExchange` lets in one thread at a time. -/
theorem C95_spin_lock (win : Bool) (hw : 0 < w) (s : SpinSt w) (h : SpinSteps win ⟨0, fun _ => false⟩ s) (t u : Nat)
    (ht : s.inside t = true) (hu : s.inside u = true) : t = u := by
  rcases spin_inv hw h ⟨rfl, fun _ => rfl⟩ with ⟨_, h2⟩ | ⟨_, v, hv⟩
  · rw [h2 t] at ht; cases ht
  · rw [(hv t).1 ht, (hv u).1 hu]

/-- C95: and it is free whenever nobody is inside, so that the next thread can enter. -/
theorem C95_spin_lock_free (win : Bool) (hw : 0 < w) (s : SpinSt w) (h : SpinSteps win ⟨0, fun _ => false⟩ s)
    (hf : ∀ t, s.inside t = false) (t : Nat) : ∃ s', SpinStep win s s' ∧ s'.inside t = true := by
  rcases spin_inv hw h ⟨rfl, fun _ => rfl⟩ with ⟨h1, _⟩ | ⟨_, v, hv⟩
  · exact ⟨_, SpinStep.enter (hf t) (by rw [h1]; rfl), by simp⟩
  · have := (hv v).2 rfl
    rw [hf v] at this; cases this

example : atomicCompareExchange true (5 : BitVec 32) 7 5 = (5, 7) ∧ atomicCompareExchange false (5 : BitVec 32) 7 6 = (5, 5) := by
  decide
/-- Two threads add 1 and 2 to 10. -/
example : ∃ s : St 32, Steps false (start 10 fun t => (if t = 0 then [1] else if t = 1 then [2] else []).map .add) s ∧
    s.cell = 13 ∧ ∀ t, s.prog t = [] := by
  refine ⟨_, Steps.step (Steps.step (Steps.refl _) (Step.call (t := 1) rfl)) (Step.call (t := 0) rfl), rfl, fun t => ?_⟩
  dsimp only [start]
  by_cases h0 : t = 0
  · simp [h0]
  · by_cases h1 : t = 1 <;> simp [h0, h1]
/-- Two threads increment with the retry loop, the second is disturbed by the first. -/
example : ∃ s : LoopSt 32, LoopSteps false (· + 1) ⟨5, fun _ => .load, fun t => if t < 2 then 1 else 0, 0⟩ s ∧ s.done = 1 ∧
    s.cell = 6 := by
  refine ⟨_, .step (.step (.step (.step (.refl _) (.load (t := 1) rfl (by decide))) (.load (t := 0) rfl (by decide)))
    (.success (t := 0) rfl (by decide))) (.retry (t := 1) rfl (by decide)), rfl, by decide⟩

end Verif.Props.Atomic

open Verif.Props.Atomic in
#print axioms C95_retry_loop
