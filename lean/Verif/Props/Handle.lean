import Verif.Proof.Handle
set_option linter.unusedSimpArgs false

/-!
# C55: handles of `Socket` and `ThreadBase` are released exactly once
-/
namespace Verif.Props.Handle
open Verif.Handle Verif.Spec.Handle

theorem count_le_one {l : List Nat} (h : l.Nodup) (a : Nat) : l.count a ≤ 1 := List.nodup_iff_count.1 h a

/-- C55: in every interleaving of any calls of any number of threads, no handle is released twice, and only handles that were
obtained are released. -/
theorem C55_at_most_once (s : St) (h : Steps St.init s) : AtMostOnce s.released ∧ ∀ x ∈ s.released, x < s.next := by
  have hi := inv_steps h inv_init
  exact ⟨fun x => count_le_one hi.nodup x, fun x hx => hi.lt x .released hx⟩

/-- C55: in every interleaving, two objects never own the same handle, and the handle an object owns was not released, nor is
any thread about to release it: no call on a valid object uses a dead handle at that moment. -/
theorem C55_owner (s : St) (h : Steps St.init s) (a x : Nat) (ha : s.slot a = some x) :
    (∀ b, s.slot b = some x → b = a) ∧ x ∉ s.released ∧ ∀ t c, s.pc t ≠ .releasing x c := by
  have hi := inv_steps h inv_init
  refine ⟨fun b hb => ?_, fun hr => ?_, fun t c hc => ?_⟩
  · have := hi.uniq x (.obj b) (.obj a) hb ha
    simpa using this
  · have := hi.uniq x (.obj a) .released ha hr
    simp at this
  · have := hi.uniq x (.obj a) (.thr t) ha (by simp [At, hc, Pc.held])
    simp at this

/-- C55: in every interleaving no two threads are about to release the same handle: of threads that close, join or detach the
same object at the same time only one gets its handle. -/
theorem C55_one_releaser (s : St) (h : Steps St.init s) (t u x : Nat) (c c' : Cont) (ht : s.pc t = .releasing x c)
    (hu : s.pc u = .releasing x c') : t = u := by
  have hi := inv_steps h inv_init
  have := hi.uniq x (.thr t) (.thr u) (by simp [At, ht, Pc.held]) (by simp [At, hu, Pc.held])
  simpa using this

theorem exactly {s : St} (hi : Inv s) (hl : s.lost = []) (hidle : ∀ t, s.pc t = .idle) (hempty : ∀ a, s.slot a = none) :
    ExactlyOnce s.next s.released := by
  intro x
  by_cases hx : x < s.next
  · rw [if_pos hx]
    obtain ⟨p, hp⟩ := hi.some x hx
    have hm : x ∈ s.released := by
      cases p with
      | obj a => simp [At, hempty] at hp
      | thr t => simp [At, hidle, Pc.held] at hp
      | released => exact hp
      | lost => simp [At, hl] at hp
    have h1 := count_le_one hi.nodup x
    have h2 := List.count_pos_iff.2 hm
    omega
  · rw [if_neg hx, List.count_eq_zero]
    intro hm
    exact hx (hi.lt x .released hm)

/-- C55: if the user never lets two threads open or move into the same object at the same time and calls `bind`, `accept` and
`beginThread` only on objects without a handle, then, whatever closes, joins, detaches and moves away run at the same time, when
all threads are through and all objects are empty every handle obtained was released exactly once.
Missing from the full claim: users who do not keep to these rules, for whom it is false (`C55_finding_overwrite`, `C55_finding_move_race`). -/
theorem C55_exactly_once_partial (s : St) (h : CarefulSteps St.init s) (hidle : ∀ t, s.pc t = .idle) (hempty : ∀ a, s.slot a = none) :
    ExactlyOnce s.next s.released :=
  exactly (inv_steps h.steps inv_init) (cinv_steps h cinv_init).lost hidle hempty

/-- The destructor of object `a`, without interruption. -/
def destroy (a : Nat) (s : St) : St :=
  { s with slot := upd s.slot a none, released := s.released ++ (s.slot a).toList }

theorem upd_self {A : Type} (f : Nat → A) (k : Nat) (a : A) (h : f k = a) : upd f k a = f := by
  funext j
  by_cases hj : j = k
  · subst hj; rw [upd_same, h]
  · rw [upd_ne _ _ _ _ hj]

theorem upd_upd {A : Type} (f : Nat → A) (k : Nat) (a b : A) : upd (upd f k a) k b = upd f k b := by
  funext j
  by_cases hj : j = k
  · subst hj; rw [upd_same, upd_same]
  · rw [upd_ne _ _ _ _ hj, upd_ne _ _ _ _ hj, upd_ne _ _ _ _ hj]

/-- The destructor is what thread 0 does in one or two steps. -/
theorem destroy_steps {s0 s : St} (a : Nat) (h : CarefulSteps s0 s) (h0 : s.pc 0 = .idle) : CarefulSteps s0 (destroy a s) := by
  cases ha : s.slot a with
  | none =>
    have := h.snoc (t := 0) ⟨Step.close (a := a) h0, fun d h1 h2 => by simp [upd_same, ha, afterExchange, Pc.target] at h2⟩
    simp only [ha, afterExchange] at this
    rw [upd_self s.pc 0 _ h0] at this
    simpa only [destroy, ha, Option.toList, List.append_nil] using this
  | some x =>
    have h1 := h.snoc (t := 0) ⟨Step.close (a := a) h0, fun d h1 h2 => by
      simp [upd_same, ha, afterExchange, Pc.target] at h2⟩
    simp only [ha, afterExchange] at h1
    have h2 := h1.snoc (t := 0) ⟨Step.release (h := x) (c := .stop) (upd_same s.pc 0 _), fun d h1 h2 => by
      simp [upd_same, afterExchange, Pc.target] at h2⟩
    simp only [upd_upd, afterExchange] at h2
    rw [upd_self s.pc 0 _ h0] at h2
    simpa only [destroy, ha, Option.toList] using h2

/-- C55: after careful use, when all threads are through, destroying the objects that hold a handle, in any order, leaves every
handle obtained released exactly once.
Missing: as for `C55_exactly_once_partial`. -/
theorem C55_destroyed_partial (s : St) (h : CarefulSteps St.init s) (hidle : ∀ t, s.pc t = .idle) (objs : List Nat)
    (hobjs : ∀ a, s.slot a ≠ none → a ∈ objs) :
    CarefulSteps St.init (objs.foldl (fun s a => destroy a s) s) ∧
      ExactlyOnce s.next (objs.foldl (fun s a => destroy a s) s).released := by
  have key : ∀ (objs : List Nat) (s : St), CarefulSteps St.init s → (∀ t, s.pc t = .idle) → (∀ a, s.slot a ≠ none → a ∈ objs) →
      CarefulSteps St.init (objs.foldl (fun s a => destroy a s) s) ∧
      (∀ t, (objs.foldl (fun s a => destroy a s) s).pc t = .idle) ∧
      (∀ a, (objs.foldl (fun s a => destroy a s) s).slot a = none) ∧
      (objs.foldl (fun s a => destroy a s) s).next = s.next := by
    intro objs
    induction objs with
    | nil =>
      intro s h hidle hobjs
      refine ⟨h, hidle, fun a => ?_, rfl⟩
      cases ha : s.slot a with
      | none => exact ha
      | some x => exact absurd (hobjs a (by simp [ha])) (by simp)
    | cons a objs ih =>
      intro s h hidle hobjs
      refine ih (destroy a s) (destroy_steps a h (hidle 0)) hidle ?_
      intro b hb
      simp only [destroy] at hb
      by_cases hba : b = a
      · subst hba; simp [upd_same] at hb
      · rw [upd_ne _ _ _ _ hba] at hb
        have := hobjs b hb
        simpa [hba] using this
  obtain ⟨h1, h2, h3, h4⟩ := key objs s h hidle hobjs
  exact ⟨h1, h4 ▸ C55_exactly_once_partial _ h1 h2 h3⟩

/-- C55: `moveFrom` alone (no other thread) releases what the target had and hands over the handle: `dst` has the handle of `src`
and `src` none (for different objects). -/
theorem C55_move (s : St) (t dst src : Nat) (hne : dst ≠ src) (ht : s.pc t = .idle) :
    Steps s { s with
      slot := upd (upd s.slot src none) dst (s.slot src)
      released := s.released ++ (s.slot dst).toList } := by
  have hu : upd (upd (upd s.slot dst none) src none) dst (s.slot src) = upd (upd s.slot src none) dst (s.slot src) := by
    funext j
    by_cases h1 : j = dst
    · subst h1; simp [upd_same]
    · by_cases h2 : j = src
      · subst h2; simp [upd, h1]
      · simp [upd, h1, h2]
  cases hd : s.slot dst with
  | none =>
    have h1 := (Steps.nil (s := s)).snoc (Step.moveFrom (dst := dst) (src := src) ht)
    simp only [hd, afterExchange] at h1
    have h2 := h1.snoc (Step.exchange (t := t) (dst := dst) (src := src) (by simp [upd]))
    have h3 := h2.snoc (Step.store (t := t) (dst := dst) (v := s.slot src) (by simp [upd, hne.symm]))
    simp only [upd_upd, upd_ne _ _ _ _ hne.symm, upd_ne _ _ _ _ hne, upd_same, Option.toList, List.append_nil] at h3
    rw [upd_self s.pc t _ ht, hu] at h3
    simpa only [Option.toList, List.append_nil] using h3
  | some x =>
    have h1 := (Steps.nil (s := s)).snoc (Step.moveFrom (dst := dst) (src := src) ht)
    simp only [hd, afterExchange] at h1
    have h1' := h1.snoc (Step.release (t := t) (h := x) (c := .exchange dst src) (by simp [upd]))
    simp only [afterExchange] at h1'
    have h2 := h1'.snoc (Step.exchange (t := t) (dst := dst) (src := src) (by simp [upd]))
    have h3 := h2.snoc (Step.store (t := t) (dst := dst) (v := s.slot src) (by simp [upd, hne.symm]))
    simp only [upd_upd, upd_ne _ _ _ _ hne.symm, upd_ne _ _ _ _ hne, upd_same, Option.toList, List.append_nil] at h3
    rw [upd_self s.pc t _ ht, hu] at h3
    simpa only [Option.toList, List.append_nil] using h3

/-- The state after thread 0 opened handle 0 in object 0. -/
def opened0 : St := ⟨upd (fun _ => none) 0 (some 0), fun _ => .idle, 1, [], []⟩

theorem opened0_careful : CarefulSteps St.init opened0 := by
  have h1 := (CarefulSteps.nil (s := St.init)).snoc (t := 0)
    ⟨Step.openNoCheck (dst := 0) rfl, fun d _ _ => ⟨fun u => by simp [St.init, Pc.target], fun _ => rfl⟩⟩
  have h2 := h1.snoc (t := 0) ⟨Step.opened (dst := 0) rfl, fun d hd _ => by
    simp [upd_same, Pc.target] at hd⟩
  have h3 := h2.snoc (t := 0) ⟨Step.store (dst := 0) (v := some 0) rfl, fun d hd _ => by
    simp [upd_same, Pc.target] at hd⟩
  simp only [upd_upd] at h3
  rw [upd_self (St.init).pc 0 .idle rfl] at h3
  exact h3

/-- The hypotheses of `C55_destroyed_partial` are met with a handle in use: one object holding handle 0. -/
example : ExactlyOnce 1 ([0, 1].foldl (fun s a => destroy a s) opened0).released :=
  (C55_destroyed_partial opened0 opened0_careful (fun _ => rfl) [0, 1] (fun a ha => by
    by_cases h : a = 0
    · simp [h]
    · simp [opened0, upd, h] at ha)).2

/-- Threads 1 and 2 close the object at the same time: one gets the handle, the other nothing. -/
example : ∃ s, Steps St.init s ∧ s.pc 1 = .releasing 0 .stop ∧ s.pc 2 = .idle ∧ s.slot 0 = none :=
  ⟨_, (opened0_careful.steps.snoc (Step.close (t := 1) (a := 0) rfl)).snoc (Step.close (t := 2) (a := 0) rfl), rfl, rfl, rfl⟩

/-- FINDING: `bind` or `accept` to an object that has a handle, or `beginThread` twice without a join, overwrites the handle: it is
never released, though everything is destroyed (here by one thread). -/
theorem C55_finding_overwrite : ∃ s, Steps St.init s ∧ (∀ t, s.pc t = .idle) ∧ (∀ a, s.slot a = none) ∧
    0 < s.next ∧ 0 ∉ s.released := by
  have h1 := opened0_careful.steps.snoc (Step.openNoCheck (t := 0) (dst := 0) rfl)
  have h2 := h1.snoc (Step.opened (t := 0) (dst := 0) rfl)
  have h3 := h2.snoc (Step.store (t := 0) (dst := 0) (v := some 1) rfl)
  simp only [upd_upd] at h3
  rw [upd_self opened0.pc 0 .idle rfl] at h3
  have h4 := h3.snoc (Step.close (t := 0) (a := 0) rfl)
  have h5 := h4.snoc (Step.release (t := 0) (h := 1) (c := .stop) rfl)
  refine ⟨_, h5, ?_, ?_, ?_, ?_⟩
  · intro t
    by_cases ht : t = 0 <;> simp [upd, ht, afterExchange, opened0]
  · intro a
    by_cases ha : a = 0 <;> simp [upd, ha, opened0]
  · simp [opened0]
  · simp [opened0]

/-- FINDING: two threads that move different sockets into the same object at the same time lose one of the handles: both find the
object empty, both assign. -/
theorem C55_finding_move_race (s : St) (ht : s.pc 1 = .idle) (hu : s.pc 2 = .idle) (h0 : s.slot 0 = none) (x y : Nat)
    (hx : s.slot 1 = some x) (hy : s.slot 2 = some y) :
    ∃ s', Steps s s' ∧ s'.pc 1 = .idle ∧ s'.pc 2 = .idle ∧ s'.slot 0 = some y ∧ s'.slot 1 = none ∧ s'.slot 2 = none ∧
      s'.released = s.released ∧ s'.lost = s.lost ++ [x] := by
  have h1 := (Steps.nil (s := s)).snoc (Step.moveFrom (t := 1) (dst := 0) (src := 1) ht)
  simp only [h0, afterExchange] at h1
  have h2 := h1.snoc (Step.moveFrom (t := 2) (dst := 0) (src := 2) (by simp [upd, hu]))
  simp only [upd_same, afterExchange] at h2
  have h3 := h2.snoc (Step.exchange (t := 1) (dst := 0) (src := 1) (by simp [upd]))
  have h4 := h3.snoc (Step.exchange (t := 2) (dst := 0) (src := 2) (by simp [upd]))
  have h5 := h4.snoc (Step.store (t := 1) (dst := 0) (v := some x) (by simp [upd, hx]))
  have h6 := h5.snoc (Step.store (t := 2) (dst := 0) (v := some y) (by simp [upd, hy]))
  exact ⟨_, h6, by simp [upd], by simp [upd], by simp [upd], by simp [upd], by simp [upd], rfl, by simp [upd]⟩

/-- FINDING: `pthread_create` may start the thread before it stores the handle: a `detachThread` (or `joinThread`) called by the new
thread, or by anybody, at that moment finds no handle and does nothing, and the object keeps the handle afterwards. -/
theorem C55_finding_early_detach : ∃ s, Steps St.init s ∧ (∀ t, s.pc t = .idle) ∧ s.slot 0 = some 0 ∧ s.released = [] ∧
    ∃ s1, Steps St.init s1 ∧ s1.pc 0 = .store 0 (some 0) ∧ ∃ s2, Step s1 1 s2 ∧ Steps s2 s ∧ s2.pc 1 = .idle := by
  have h1 := (Steps.nil (s := St.init)).snoc (Step.openNoCheck (t := 0) (dst := 0) rfl)
  have h2 := h1.snoc (Step.opened (t := 0) (dst := 0) rfl)
  have h3 : Step _ 1 _ := Step.close (s := { St.init with
    pc := upd (upd St.init.pc 0 (.opening 0)) 0 (.store 0 (some 0)), next := 1 }) (t := 1) (a := 0) rfl
  have h4 := (Steps.nil (s := _)).snoc (Step.store (s := { St.init with
    slot := upd St.init.slot 0 none
    pc := upd (upd (upd St.init.pc 0 (.opening 0)) 0 (.store 0 (some 0))) 1 .idle, next := 1 }) (t := 0) (dst := 0)
    (v := some 0) rfl)
  have h5 := (h2.snoc h3).snoc (Step.store (t := 0) (dst := 0) (v := some 0) rfl)
  refine ⟨_, h5, ?_, rfl, rfl, _, h2, rfl, _, h3, h4, rfl⟩
  intro t
  by_cases ht : t = 0
  · simp [upd, ht]
  · by_cases ht1 : t = 1 <;> simp [upd, ht, ht1, St.init, afterExchange]

#print axioms C55_at_most_once
#print axioms C55_owner
#print axioms C55_one_releaser
#print axioms C55_exactly_once_partial
#print axioms C55_destroyed_partial
#print axioms C55_move
#print axioms C55_finding_overwrite
#print axioms C55_finding_move_race
#print axioms C55_finding_early_detach

end Verif.Props.Handle
