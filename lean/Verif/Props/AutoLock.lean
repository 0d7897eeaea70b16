import Verif.Proof.AutoLock

/-!
# C96 scoped locks
-/
set_option linter.unusedSimpArgs false
namespace Verif.Props.AutoLock
open Verif.AutoLock Verif.Spec.AutoLock

/-- C96: two threads are never inside blocks guarded by the same mutex, also while exceptions are thrown. -/
theorem C96_mutual_exclusion (rec : Bool) (k : Nat) (val : Nat → Int) (prog : Nat → Prog) (s : St)
    (hd : ∀ t, Disciplined [] (prog t)) (h : Steps rec k (start val prog) s) (m t u : Nat)
    (ht : m ∈ inside (s.th t)) (hu : m ∈ inside (s.th u)) : t = u :=
  (inv_steps hd h).excl ht hu

/-- C96: while a thread is inside a block guarded by `m`, no step of another thread changes variable `m`. -/
theorem C96_isolation (rec : Bool) (k : Nat) (val : Nat → Int) (prog : Nat → Prog) (s s' : St)
    (hd : ∀ t, Disciplined [] (prog t)) (h : Steps rec k (start val prog) s) (m t u : Nat)
    (ht : m ∈ inside (s.th t)) (hu : u ≠ t) (hs : step rec u s = some s') : s'.val m = s.val m := by
  have hi := inv_steps hd h
  have hok := hi.ok u
  unfold step at hs
  split at hs
  all_goals first
    | cases hs; done
    | (rw [Option.map_eq_some_iff] at hs; obtain ⟨o, _, rfl⟩ := hs; rfl)
    | skip
  all_goals injection hs with hs; subst hs
  all_goals first
    | rfl
    | skip
  rename_i m' x f k' st heq
  rw [heq] at hok
  have : m ≠ m' := fun e => hu (hi.excl (m := m) (by rw [heq, e]; exact hok.1) ht)
  simp [put, this]

/-- C96: although an update is a separate read and write, none is lost: the variable is what the updates written so far
give when they are done one after the other. -/
theorem C96_updates_are_serial (rec : Bool) (k : Nat) (val : Nat → Int) (prog : Nat → Prog) (s : St)
    (hd : ∀ t, Disciplined [] (prog t)) (h : Steps rec k (start val prog) s) (m : Nat) :
    s.val m = (s.log m).foldl (fun v f => f v) (val m) :=
  (inv_steps hd h).val m

/-- C96: when `n` threads that throw nothing have finished, each of their updates has taken effect exactly once, in some
order. -/
theorem C96_no_lost_update (rec : Bool) (n k : Nat) (val : Nat → Int) (prog : Nat → Prog) (s : St)
    (hd : ∀ t, Disciplined [] (prog t)) (hno : ∀ t, NoThrow (prog t)) (hn : ∀ t, n ≤ t → prog t = .done)
    (h : Steps rec k (start val prog) s) (hf : ∀ t, (s.th t).Finished) (m : Nat) :
    ∃ order : List (Int → Int),
      order.Perm ((List.range n).flatMap fun t => updates m (prog t)) ∧
        s.val m = order.foldl (fun v f => f v) (val m) := by
  refine ⟨s.log m, ?_, C96_updates_are_serial rec k val prog s hd h m⟩
  obtain ⟨h1, h2⟩ := steps_rem h hn hno m
  have hz : ∀ t, thRem m (s.th t) = [] := fun t => by
    have ht := hf t
    unfold Th.Finished at ht
    split at ht
    · rename_i heq; rw [heq]; rfl
    · rename_i heq; rw [heq]; rfl
    · exact ht.elim
  simp only [hz, Multiset.coe_nil, Finset.sum_const_zero, add_zero] at h2
  rw [← Multiset.coe_eq_coe, h2]
  clear h2 hn
  induction n with
  | zero => rfl
  | succ n ih => rw [Finset.sum_range_succ, ih, List.range_succ, List.flatMap_append, ← Multiset.coe_add]; simp

/-- C96: in particular a counter that is incremented under a scoped lock is exact. -/
theorem C96_counter (rec : Bool) (n k : Nat) (val : Nat → Int) (prog : Nat → Prog) (s : St)
    (hd : ∀ t, Disciplined [] (prog t)) (hno : ∀ t, NoThrow (prog t)) (hn : ∀ t, n ≤ t → prog t = .done)
    (h : Steps rec k (start val prog) s) (hf : ∀ t, (s.th t).Finished) (m : Nat)
    (hinc : ∀ t, ∀ f ∈ updates m (prog t), f = (· + 1)) :
    s.val m = val m + ((List.range n).map fun t => (updates m (prog t)).length).sum := by
  obtain ⟨order, hp, hv⟩ := C96_no_lost_update rec n k val prog s hd hno hn h hf m
  have hlen : order.length = ((List.range n).map fun t => (updates m (prog t)).length).sum := by
    rw [hp.length_eq, List.length_flatMap]
  have hall : ∀ f ∈ order, f = (· + 1) := fun f hf' => by
    obtain ⟨t, _, hft⟩ := List.mem_flatMap.1 (hp.mem_iff.1 hf')
    exact hinc t f hft
  rw [hv, ← hlen]
  clear hv hlen hp
  generalize val m = v
  induction order generalizing v with
  | nil => simp
  | cons f r ih =>
    rw [List.foldl_cons, ih (fun g hg => hall g (List.mem_cons_of_mem _ hg)), hall f (List.mem_cons_self ..)]
    simp only [List.length_cons]
    omega

/-- C96: a thread that has ended - normally or by an exception - has released all its mutexes. -/
theorem C96_released (rec : Bool) (k : Nat) (val : Nat → Int) (prog : Nat → Prog) (s : St)
    (hd : ∀ t, Disciplined [] (prog t)) (h : Steps rec k (start val prog) s) (t : Nat) (hf : (s.th t).Finished) (m c : Nat) :
    s.own m ≠ some (t, c) := by
  intro e
  have hi := inv_steps hd h
  have hc := hi.cnt m t
  rw [finished_inside hf, holds, e] at hc
  have := hi.pos _ _ _ e
  simp at hc
  omega

/-- C96: a thread that leaves a guarded block (at its end or by an exception) owns the mutex that it unlocks. -/
theorem C96_unlock_by_owner (rec : Bool) (k : Nat) (val : Nat → Int) (prog : Nat → Prog) (s : St)
    (hd : ∀ t, Disciplined [] (prog t)) (h : Steps rec k (start val prog) s) (t m : Nat) (k' : Prog) (st : List Frame)
    (hs : s.th t = .run .done (.guard m k' :: st) ∨ s.th t = .unwind (.guard m k' :: st)) : unlock s.own m t ≠ none := by
  intro hn
  have hi := inv_steps hd h
  have hb := blocked (rec := rec) hi (t := t) (by rcases hs with e | e <;> rw [e] <;> exact fun h => h)
    (by rcases hs with e | e <;> simp [step, e, hn])
  obtain ⟨_, _, _, _, _, _, e', _⟩ := hb
  rcases hs with e | e <;> rw [e] at e' <;> cases e'

/-- C96: no deadlock: if guards are nested in increasing order, then as long as a thread is not finished, some thread can
go on. -/
theorem C96_no_deadlock (rec : Bool) (n k : Nat) (val : Nat → Int) (prog : Nat → Prog) (s : St)
    (hd : ∀ t, Disciplined [] (prog t)) (ho : ∀ t, Ordered rec [] (prog t)) (hn : ∀ t, n ≤ t → prog t = .done)
    (h : Steps rec k (start val prog) s) (hu : ∃ t, ¬ (s.th t).Finished) : ∃ t s', step rec t s = some s' :=
  progress (inv_steps hd h) (word_steps hd ho h)
    (steps_size (n := n) h (fun t ht => by simp [start, hn t ht, Th.Finished])).1 hu

/-- C96: and there is no endless waiting for each other: any execution takes at most as many steps as the programs are
long. -/
theorem C96_ends (rec : Bool) (n k : Nat) (val : Nat → Int) (prog : Nat → Prog) (s : St)
    (hn : ∀ t, n ≤ t → prog t = .done) (h : Steps rec k (start val prog) s) :
    k ≤ ∑ t ∈ Finset.range n, size (prog t) := by
  have := (steps_size (n := n) h (fun t ht => by simp [start, hn t ht, Th.Finished])).2
  simp only [start, thSize, stSize, Nat.add_zero] at this
  omega

/-- The thread locks mutex 0 twice. -/
def nested : Prog := .guarded 0 (.guarded 0 (.update 0 (· + 1) .done) .done) .done

/-- C96, finding: two nested scoped locks for the same mutex hang for ever on Linux, where mutexes are not recursive ... -/
theorem C96_finding_nested_hangs : ∃ s, Steps false 1 (start (fun _ => 0) fun t => if t = 0 then nested else .done) s ∧
    ¬ (s.th 0).Finished ∧ ∀ t, step false t s = none := by
  refine ⟨_, .step (.refl _) (t := 0) rfl, fun h => h, fun t => ?_⟩
  by_cases ht : t = 0
  · subst ht; rfl
  · simp [step, start, put, ht]

/-- ... and are fine on Windows. -/
theorem C96_nested_recursive : ∃ k s, Steps true k (start (fun _ => 0) fun t => if t = 0 then nested else .done) s ∧
    (s.th 0).Finished ∧ s.val 0 = 1 ∧ s.own 0 = none :=
  ⟨6, _, .step (.step (.step (.step (.step (.step (.refl _) (t := 0) rfl) (t := 0) rfl) (t := 0) rfl) (t := 0) rfl)
    (t := 0) rfl) (t := 0) rfl, trivial, rfl, rfl⟩

/-- A scoped lock that is copied in its block. -/
def copying : Prog := .guarded 0 (.copied 0 .done .done) .done

/-- C96, finding: a scoped lock can be copied (only its assignment is private).  The copy unlocks the mutex a second time: here
thread 0 is still inside its guarded block, thread 1 is inside its own, and thread 0 is about to unlock what thread 1
has locked. -/
theorem C96_finding_copy : ∃ k s, Steps false k
    (start (fun _ => 0) fun t => if t = 0 then copying else if t = 1 then .guarded 0 .done .done else .done) s ∧
    0 ∈ inside (s.th 0) ∧ 0 ∈ inside (s.th 1) ∧ s.own 0 = some (1, 1) ∧ s.th 0 = .run .done [.guard 0 .done] ∧
    unlock s.own 0 0 = none := by
  refine ⟨4, _, .step (.step (.step (.step (.refl _) (t := 0) rfl) (t := 0) rfl) (t := 0) rfl) (t := 1) rfl, ?_, ?_,
    rfl, rfl, rfl⟩
  · simp [put, start, inside, inside.frames]
  · simp [put, start, inside, inside.frames]

/-- A program that meets the rules: an increment under lock 0, a part that may throw under locks 0 and 1. -/
def sample : Prog :=
  .attempt (.guarded 0 (.update 0 (· + 1) (.guarded 1 (.throwIf 1 (· == 0) (.update 1 (· * 2) .done)) .done)) .done) .done

example : Disciplined [] sample ∧ Ordered false [] sample := by
  simp [Disciplined, Ordered, sample]
/-- The exception releases both mutexes. -/
example : ∃ k s, Steps false k (start (fun _ => 0) fun t => if t = 0 then sample else .done) s ∧ (s.th 0).Finished ∧
    s.val 0 = 1 ∧ s.own 0 = none ∧ s.own 1 = none :=
  ⟨9, _, .step (.step (.step (.step (.step (.step (.step (.step (.step (.refl _) (t := 0) rfl) (t := 0) rfl) (t := 0) rfl)
    (t := 0) rfl) (t := 0) rfl) (t := 0) rfl) (t := 0) rfl) (t := 0) rfl) (t := 0) rfl, trivial, rfl, rfl, rfl⟩
example : NoThrow nested ∧ updates 0 nested = [(· + 1)] ∧ Disciplined [] nested ∧ Ordered true [] nested :=
  ⟨by simp [NoThrow, nested], rfl, by simp [Disciplined, nested], by simp [Ordered, nested]⟩

end Verif.Props.AutoLock

open Verif.Props.AutoLock in
#print axioms C96_no_deadlock
