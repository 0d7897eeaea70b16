import Verif.Model.ThreadObj
set_option linter.unusedSimpArgs false

/-! # C126: the life of a thread object -/
namespace Verif.Props.ThreadObj
open Verif.ThreadObj

/-- What a careful owner calls: every `beginThread` is followed by a `joinThread` that waits for the end of the thread, before anything
else and before the object is destroyed.  On POSIX every `joinThread` waits. -/
inductive Paired (pf : Platform) : List Call → Prop where
  | nil : Paired pf []
  | destroy : Paired pf [.destroy]
  | join {timed cs} : Paired pf cs → Paired pf (.join timed :: cs)
  | round {timed cs} : (timed = false ∨ pf = .posix) → Paired pf cs → Paired pf (.begin :: .join timed :: cs)

/-- All threads but `k` have finished; `k` is a thread. -/
def Only (th : List Th) (k : Nat) : Prop := (∃ t, th[k]? = some t) ∧ ∀ (i : Nat) (t : Th), i ≠ k → th[i]? = some t → t = .finished

def AllDone (th : List Th) : Prop := ∀ (i : Nat) (t : Th), th[i]? = some t → t = .finished

theorem AllDone.push {th : List Th} (h : AllDone th) : Only (th ++ [.created]) th.length := by
  refine ⟨⟨.created, by simp⟩, ?_⟩
  intro i t hi ht
  rcases Nat.lt_or_ge i th.length with hl | hl
  · rw [List.getElem?_append_left hl] at ht
    exact h i t ht
  · rw [List.getElem?_eq_none (by simp; omega)] at ht
    cases ht

theorem Only.set {th : List Th} {k i : Nat} {t : Th} (h : Only th k) (hi : th[i]? = some t) (ht : t ≠ .finished) (t' : Th) :
    i = k ∧ Only (th.set i t') k := by
  have e : i = k := Classical.byContradiction fun hne => ht (h.2 i t hne hi)
  subst e
  refine ⟨rfl, ⟨t', by rw [List.getElem?_set_self (List.getElem?_eq_some_iff.1 hi).1]⟩, ?_⟩
  intro j u hj hu
  rw [List.getElem?_set_ne (by omega)] at hu
  exact h.2 j u hj hu

theorem Only.done {th : List Th} {k : Nat} (h : Only th k) (hk : th[k]? = some .finished) : AllDone th := by
  intro i t ht
  by_cases hi : i = k
  · subst hi
    rw [hk] at ht
    exact (Option.some.inj ht).symm
  · exact h.2 i t hi ht

/-- What holds all the time with a careful owner. -/
def Inv (pf : Platform) : List Call × W → Prop := fun s =>
  s.2.bad = false ∧ (∀ b ∈ s.2.joined, b = true) ∧
  ((s.2.pc = .idle ∧ s.2.slot = .zero ∧ AllDone s.2.th ∧ s.2.life = .alive ∧ Paired pf s.1) ∨
   (∃ k timed cs, s.2.pc = .idle ∧ s.2.slot = .thread k ∧ Only s.2.th k ∧ s.2.life = .alive ∧ (timed = false ∨ pf = .posix) ∧
      s.1 = .join timed :: cs ∧ Paired pf cs) ∨
   (∃ k timed, s.2.pc = .joining k timed ∧ s.2.slot = .zero ∧ Only s.2.th k ∧ s.2.life = .alive ∧ (timed = false ∨ pf = .posix) ∧
      Paired pf s.1) ∨
   (s.2.pc = .dtor ∧ s.2.slot = .zero ∧ AllDone s.2.th ∧ s.1 = []) ∨
   (s.2.pc = .idle ∧ AllDone s.2.th ∧ s.2.life = .gone ∧ s.1 = []))

theorem inv_step {pf : Platform} {s s' : List Call × W} (hi : Inv pf s) (h : Step pf true s s') : Inv pf s' := by
  obtain ⟨hb, hj, hi⟩ := hi
  rcases hi with ⟨h1, h2, h3, h4, h5⟩ | ⟨k, timed, cs, h1, h2, h3, h4, h5, h6, h7⟩ | ⟨k, timed, h1, h2, h3, h4, h5, h6⟩ | ⟨h1, h2, h3, h4⟩ |
    ⟨h1, h2, h3, h4⟩
  · cases h with
    | begin _ =>
      cases h5 with
      | round ht hp => exact ⟨hb, hj, .inr (.inl ⟨_, _, _, h1, rfl, h3.push, h4, ht, rfl, hp⟩)⟩
    | beginFailsWin _ _ =>
      cases h5 with
      | round ht hp => exact ⟨hb, hj, .inl ⟨h1, rfl, h3, h4, .join hp⟩⟩
    | beginFails _ _ =>
      cases h5 with
      | round ht hp => exact ⟨hb, hj, .inl ⟨h1, h2, h3, h4, .join hp⟩⟩
    | beginGarbage _ _ hk => cases hk
    | joinNone _ _ =>
      cases h5 with
      | join hp =>
        refine ⟨hb, ?_, .inl ⟨h1, h2, h3, h4, hp⟩⟩
        intro b hb'
        rcases List.mem_append.1 hb' with x | x
        · exact hj b x
        · simpa using x
    | join _ hs => rw [h2] at hs; cases hs
    | joinGarbage _ hs => rw [h2] at hs; cases hs
    | joinDone hp _ => rw [h1] at hp; cases hp
    | joinTimeout hp _ => rw [h1] at hp; cases hp
    | detach _ => cases h5
    | destroy _ =>
      cases h5 with
      | destroy => exact ⟨hb, hj, .inr (.inr (.inr (.inl ⟨rfl, h2, h3, rfl⟩)))⟩
    | dtorNone hp _ => rw [h1] at hp; cases hp
    | dtorJoin hp _ => rw [h1] at hp; cases hp
    | dtorGarbage hp _ => rw [h1] at hp; cases hp
    | dtorDone hp _ => rw [h1] at hp; cases hp
    | enter ht _ => cases h3 _ _ ht
    | enterDead ht _ => cases h3 _ _ ht
    | work ht => cases h3 _ _ ht
    | leave ht => cases h3 _ _ ht
  · obtain ⟨cs0, w⟩ := s
    dsimp only at hb hj h1 h2 h3 h4 h6
    subst h6
    cases h with
    | joinNone _ hs => rw [h2] at hs; cases hs
    | join _ hs =>
      rw [h2] at hs
      cases hs
      exact ⟨hb, hj, .inr (.inr (.inl ⟨k, timed, rfl, rfl, h3, h4, h5, h7⟩))⟩
    | joinGarbage _ hs => rw [h2] at hs; cases hs
    | joinDone hp _ => rw [h1] at hp; cases hp
    | joinTimeout hp _ => rw [h1] at hp; cases hp
    | dtorNone hp _ => rw [h1] at hp; cases hp
    | dtorJoin hp _ => rw [h1] at hp; cases hp
    | dtorGarbage hp _ => rw [h1] at hp; cases hp
    | dtorDone hp _ => rw [h1] at hp; cases hp
    | enter ht _ => exact ⟨hb, hj, .inr (.inl ⟨k, timed, cs, h1, h2, (h3.set ht (by simp) _).2, h4, h5, rfl, h7⟩)⟩
    | enterDead _ hl => exact absurd h4 hl
    | work ht => exact ⟨by simp [hb, h4], hj, .inr (.inl ⟨k, timed, cs, h1, h2, h3, h4, h5, rfl, h7⟩)⟩
    | leave ht => exact ⟨hb, hj, .inr (.inl ⟨k, timed, cs, h1, h2, (h3.set ht (by simp) _).2, h4, h5, rfl, h7⟩)⟩
  · cases h with
    | begin hp => rw [h1] at hp; cases hp
    | beginFailsWin hp _ => rw [h1] at hp; cases hp
    | beginFails hp _ => rw [h1] at hp; cases hp
    | beginGarbage hp _ _ => rw [h1] at hp; cases hp
    | joinNone hp _ => rw [h1] at hp; cases hp
    | join hp _ => rw [h1] at hp; cases hp
    | joinGarbage hp _ => rw [h1] at hp; cases hp
    | joinDone hp hk =>
      rw [h1] at hp
      cases hp
      refine ⟨hb, ?_, .inl ⟨rfl, h2, h3.done hk, h4, h6⟩⟩
      intro b hb'
      rcases List.mem_append.1 hb' with x | x
      · exact hj b x
      · simpa using x
    | joinTimeout hp hw =>
      rw [h1] at hp
      cases hp
      rcases h5 with x | x
      · cases x
      · rw [x] at hw; cases hw
    | detach hp => rw [h1] at hp; cases hp
    | destroy hp => rw [h1] at hp; cases hp
    | dtorNone hp _ => rw [h1] at hp; cases hp
    | dtorJoin hp _ => rw [h1] at hp; cases hp
    | dtorGarbage hp _ => rw [h1] at hp; cases hp
    | dtorDone hp _ => rw [h1] at hp; cases hp
    | enter ht _ => exact ⟨hb, hj, .inr (.inr (.inl ⟨k, timed, h1, h2, (h3.set ht (by simp) _).2, h4, h5, h6⟩))⟩
    | enterDead _ hl => exact absurd h4 hl
    | work ht => exact ⟨by dsimp only at hb h4 ⊢; simp [hb, h4], hj, .inr (.inr (.inl ⟨k, timed, h1, h2, h3, h4, h5, h6⟩))⟩
    | leave ht => exact ⟨hb, hj, .inr (.inr (.inl ⟨k, timed, h1, h2, (h3.set ht (by simp) _).2, h4, h5, h6⟩))⟩
  · cases h with
    | begin hp => rw [h1] at hp; cases hp
    | beginFailsWin hp _ => rw [h1] at hp; cases hp
    | beginFails hp _ => rw [h1] at hp; cases hp
    | beginGarbage hp _ _ => rw [h1] at hp; cases hp
    | joinNone hp _ => rw [h1] at hp; cases hp
    | join hp _ => rw [h1] at hp; cases hp
    | joinGarbage hp _ => rw [h1] at hp; cases hp
    | joinDone hp hk => rw [h1] at hp; cases hp
    | joinTimeout hp hw => rw [h1] at hp; cases hp
    | detach hp => rw [h1] at hp; cases hp
    | destroy hp => rw [h1] at hp; cases hp
    | dtorNone _ _ => exact ⟨hb, hj, .inr (.inr (.inr (.inr ⟨rfl, h3, rfl, h4⟩)))⟩
    | dtorJoin _ hs => rw [h2] at hs; cases hs
    | dtorGarbage _ hs => rw [h2] at hs; cases hs
    | dtorDone hp _ => rw [h1] at hp; cases hp
    | enter ht _ => cases h3 _ _ ht
    | enterDead ht _ => cases h3 _ _ ht
    | work ht => cases h3 _ _ ht
    | leave ht => cases h3 _ _ ht
  · obtain ⟨cs0, w⟩ := s
    dsimp only at hb hj h1 h2 h3 h4
    subst h4
    cases h with
    | joinDone hp hk => rw [h1] at hp; cases hp
    | joinTimeout hp hw => rw [h1] at hp; cases hp
    | dtorNone hp _ => rw [h1] at hp; cases hp
    | dtorJoin hp _ => rw [h1] at hp; cases hp
    | dtorGarbage hp _ => rw [h1] at hp; cases hp
    | dtorDone hp _ => rw [h1] at hp; cases hp
    | enter ht _ => cases h2 _ _ ht
    | enterDead ht _ => cases h2 _ _ ht
    | work ht => cases h2 _ _ ht
    | leave ht => cases h2 _ _ ht

theorem inv_run {pf : Platform} {cs : List Call} (hp : Paired pf cs) {s : List Call × W} (h : Steps pf true (cs, W.init) s) : Inv pf s := by
  generalize e : (cs, W.init) = s0 at h
  induction h with
  | nil => subst e; exact ⟨rfl, by simp [W.init], .inl ⟨rfl, rfl, by simp [AllDone, W.init], rfl, hp⟩⟩
  | snoc _ hs ih => exact inv_step ih hs

/-- C126.  With a careful owner nothing undefined happens in any interleaving, and every `joinThread` returns true. -/
theorem C126_safe (pf : Platform) (cs : List Call) (hp : Paired pf cs) (s : List Call × W) (h : Steps pf true (cs, W.init) s) :
    s.2.bad = false ∧ ∀ b ∈ s.2.joined, b = true :=
  ⟨(inv_run hp h).1, (inv_run hp h).2.1⟩

/-- C126.  Whenever the object is not complete any more, and whenever the owner has come to the end, all its threads have finished. -/
theorem C126_finished (pf : Platform) (cs : List Call) (hp : Paired pf cs) (s : List Call × W) (h : Steps pf true (cs, W.init) s)
    (hf : s.2.life ≠ .alive ∨ (s.1 = [] ∧ s.2.pc = .idle)) : ∀ t ∈ s.2.th, t = .finished := by
  have key : AllDone s.2.th := by
    rcases (inv_run hp h).2.2 with ⟨h1, h2, h3, h4, h5⟩ | ⟨k, timed, cs, h1, h2, h3, h4, h5, h6, h7⟩ | ⟨k, timed, h1, h2, h3, h4, h5, h6⟩ |
      ⟨h1, h2, h3, h4⟩ | ⟨h1, h2, h3, h4⟩
    · exact h3
    · rcases hf with hf | ⟨hf, _⟩
      · exact absurd h4 hf
      · rw [h6] at hf; cases hf
    · rcases hf with hf | ⟨_, hf⟩
      · exact absurd h4 hf
      · rw [h1] at hf; cases hf
    · exact h3
    · exact h2
  intro t ht
  obtain ⟨i, hi⟩ := List.getElem?_of_mem ht
  exact key i t hi

/-- C126.  One thread runs for every `beginThread` that returned true, in all executions, careful or not. -/
theorem C126_one_each (pf : Platform) (keeps : Bool) (cs : List Call) (s : List Call × W) (h : Steps pf keeps (cs, W.init) s) :
    s.2.th.length = s.2.begun.count true := by
  generalize e : (cs, W.init) = s0 at h
  induction h with
  | nil => subst e; rfl
  | snoc _ hs ih =>
    have := ih
    cases hs <;> simp_all

/-- C126.  A careful owner is never stuck: until the end, the owner or a thread can go on. -/
theorem C126_no_deadlock (pf : Platform) (cs : List Call) (hp : Paired pf cs) (s : List Call × W) (h : Steps pf true (cs, W.init) s)
    (hn : ¬ (s.1 = [] ∧ s.2.pc = .idle)) : ∃ s', Step pf true s s' := by
  obtain ⟨cs', w⟩ := s
  rcases (inv_run hp h).2.2 with ⟨h1, h2, h3, h4, h5⟩ | ⟨k, timed, cs, h1, h2, h3, h4, h5, h6, h7⟩ | ⟨k, timed, h1, h2, h3, h4, h5, h6⟩ |
      ⟨h1, h2, h3, h4⟩ | ⟨h1, h2, h3, h4⟩
  · cases h5 with
    | nil => exact absurd ⟨rfl, h1⟩ hn
    | destroy => exact ⟨_, .destroy h1⟩
    | join _ => exact ⟨_, .joinNone h1 h2⟩
    | round _ _ => exact ⟨_, .begin h1⟩
  · dsimp only at h6; subst h6; exact ⟨_, .join h1 h2⟩
  · obtain ⟨t, ht⟩ := h3.1
    cases t with
    | created => exact ⟨_, .enter ht h4⟩
    | inside => exact ⟨_, .leave ht⟩
    | finished => exact ⟨_, .joinDone h1 ht⟩
  · exact ⟨_, .dtorNone h1 h2⟩
  · exact absurd ⟨h4, h1⟩ hn

/-- C126.  Whenever a `joinThread` without time limit has just returned on a thread, that thread has finished: in all executions. -/
theorem C126_join_waits (pf : Platform) (keeps : Bool) (cs cs' : List Call) (w w' : W) (k : Nat) (hp : w.pc = .joining k false)
    (h : Step pf keeps (cs, w) (cs', w')) (hd : w'.pc = .idle) : w'.th[k]? = some .finished := by
  cases h with
  | joinDone hp' hk => rw [hp] at hp'; cases hp'; exact hk
  | joinTimeout hp' _ => rw [hp] at hp'; cases hp'
  | enter => rw [hp] at hd; cases hd
  | enterDead => rw [hp] at hd; cases hd
  | work => rw [hp] at hd; cases hd
  | leave => rw [hp] at hd; cases hd
  | dtorNone hp' _ => rw [hp] at hp'; cases hp'
  | dtorJoin hp' _ => rw [hp] at hp'; cases hp'
  | dtorGarbage hp' _ => rw [hp] at hp'; cases hp'
  | dtorDone hp' _ => rw [hp] at hp'; cases hp'
  | _ => simp_all

/-! ## Findings -/

/-- Finding: the destructor waits for the thread, but too late: the derived part is already gone, and a thread that has just been started
calls a pure virtual function. -/
theorem C126_finding_pure_virtual (pf : Platform) (keeps : Bool) :
    ∃ s, Steps pf keeps ([.begin, .destroy], W.init) s ∧ s.2.bad = true :=
  ⟨_, .snoc (.snoc (.snoc .nil (.begin rfl)) (.destroy rfl)) (.enterDead (k := 0) rfl (by simp)), rfl⟩

/-- Finding: a thread that is in `threadEntry` works on the destroyed part. -/
theorem C126_finding_destroyed (pf : Platform) (keeps : Bool) :
    ∃ s, Steps pf keeps ([.begin, .destroy], W.init) s ∧ s.2.th = [.inside] ∧ s.2.bad = true :=
  ⟨_, .snoc (.snoc (.snoc (.snoc .nil (.begin rfl)) (.enter (k := 0) rfl rfl)) (.destroy rfl)) (.work (k := 0) rfl), rfl, rfl⟩

/-- Finding: a second `beginThread` forgets the first thread: after `joinThread` and the destruction it still works on the object. -/
theorem C126_finding_twice (pf : Platform) (keeps : Bool) :
    ∃ s, Steps pf keeps ([.begin, .begin, .join false, .destroy], W.init) s ∧ s.2.joined = [true] ∧ s.2.life = .gone ∧ s.2.bad = true :=
  ⟨_, .snoc (.snoc (.snoc (.snoc (.snoc (.snoc (.snoc (.snoc (.snoc .nil (.begin rfl)) (.begin rfl)) (.enter (k := 1) rfl rfl)) (.leave (k := 1) rfl))
    (.join rfl rfl)) (.joinDone rfl rfl)) (.destroy rfl)) (.dtorNone rfl rfl)) (.enterDead (k := 0) rfl (by simp)), rfl, rfl, rfl⟩

/-- Finding: on Windows a `joinThread` whose time is over closes the handle: the next `joinThread` returns true though the thread still
runs, and the destructor does not wait either. -/
theorem C126_finding_timeout (keeps : Bool) :
    ∃ s, Steps .windows keeps ([.begin, .join true, .join false, .destroy], W.init) s ∧ s.2.joined = [false, true] ∧ s.2.th = [.inside] ∧
      s.2.life = .gone ∧ s.2.bad = true :=
  ⟨_, .snoc (.snoc (.snoc (.snoc (.snoc (.snoc (.snoc (.snoc .nil (.begin rfl)) (.enter (k := 0) rfl rfl)) (.join rfl rfl))
    (.joinTimeout rfl rfl)) (.joinNone rfl rfl)) (.destroy rfl)) (.dtorNone rfl rfl)) (.work (k := 0) rfl), rfl, rfl, rfl, rfl⟩

/-- Finding: on POSIX a `pthread_create` that fails may leave anything in the handle, and the destructor or `joinThread` joins it. -/
theorem C126_finding_failed_begin :
    (∃ s, Steps .posix false ([.begin, .destroy], W.init) s ∧ s.2.begun = [false] ∧ s.2.bad = true) ∧
    ∀ timed, ∃ s, Steps .posix false ([.begin, .join timed], W.init) s ∧ s.2.begun = [false] ∧ s.2.bad = true :=
  ⟨⟨_, .snoc (.snoc (.snoc .nil (.beginGarbage rfl rfl rfl)) (.destroy rfl)) (.dtorGarbage rfl rfl), rfl, rfl⟩,
    fun timed => ⟨_, .snoc (.snoc .nil (.beginGarbage rfl rfl rfl)) (.joinGarbage (timed := timed) rfl rfl), rfl, rfl⟩⟩

/-- A careful owner: two rounds and the destruction; an execution of one round to its end. -/
example : Paired .windows [.begin, .join false, .begin, .join false, .destroy] := .round (.inl rfl) (.round (.inl rfl) .destroy)
example : ∃ s, Steps .posix true ([.begin, .join true, .destroy], W.init) s ∧ s.2.life = .gone ∧ s.2.th = [.finished] ∧ s.2.joined = [true] :=
  ⟨_, .snoc (.snoc (.snoc (.snoc (.snoc (.snoc (.snoc .nil (.begin rfl)) (.enter (k := 0) rfl rfl)) (.join rfl rfl)) (.leave (k := 0) rfl))
    (.joinDone rfl rfl)) (.destroy rfl)) (.dtorNone rfl rfl), rfl, rfl, rfl⟩

end Verif.Props.ThreadObj

#print axioms Verif.Props.ThreadObj.C126_safe
#print axioms Verif.Props.ThreadObj.C126_finished
#print axioms Verif.Props.ThreadObj.C126_one_each
#print axioms Verif.Props.ThreadObj.C126_no_deadlock
#print axioms Verif.Props.ThreadObj.C126_join_waits
#print axioms Verif.Props.ThreadObj.C126_finding_pure_virtual
#print axioms Verif.Props.ThreadObj.C126_finding_destroyed
#print axioms Verif.Props.ThreadObj.C126_finding_twice
#print axioms Verif.Props.ThreadObj.C126_finding_timeout
#print axioms Verif.Props.ThreadObj.C126_finding_failed_begin
