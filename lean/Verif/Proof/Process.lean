import Verif.Spec.Process
set_option linter.unusedSimpArgs false
/-! Lemmas for `Verif.Process`. -/
namespace Verif.Process
open Verif.Handle (upd)

/-- What the caller's descriptors must satisfy: the two the pipe gets are free, and this pipe is new. -/
structure Fresh (c : Call) (fds : Fds) : Prop where
  ne : c.r ≠ c.w
  r : fds c.r = none
  w : fds c.w = none
  noR : ∀ fd b, fds fd ≠ some (.pipeR, b)
  noW : ∀ fd b, fds fd ≠ some (.pipeW, b)

theorem upd_same {A : Type} (f : Nat → A) (k : Nat) (a : A) : upd f k a k = a := by simp [upd]

theorem upd_other {A : Type} (f : Nat → A) {k j : Nat} (a : A) (h : j ≠ k) : upd f k a j = f j := by simp [upd, h]

/-! ### Facts that hold in every execution -/

structure Inv (s : St) (c : Call) : Prop where
  parW : ∀ fd b, s.par fd = some (.pipeW, b) → fd = c.w ∧ s.pp = .closeW
  chdW : ∀ fd b, s.chd fd = some (.pipeW, b) → fd = c.w ∧ b = true
  exited : s.cp = .exited → ∀ fd, s.chd fd = none
  running : s.cp = .running → ∀ fd b, s.chd fd ≠ some (.pipeW, b)
  null : ∀ k, s.cp = .null k → k ≤ 2 ∧ c.closeStdio = true

theorem Inv.start {c : Call} {fds : Fds} (h : Fresh c fds) : Inv (St.start c fds) c := by
  have key : ∀ fd b, upd (upd fds c.r (some (.pipeR, false))) c.w (some (.pipeW, true)) fd = some (.pipeW, b) →
      fd = c.w ∧ b = true := by
    intro fd b e
    by_cases h1 : fd = c.w
    · subst h1; rw [upd_same] at e; simp at e; exact ⟨rfl, e.symm ▸ rfl⟩
    · rw [upd_other _ _ h1] at e
      by_cases h2 : fd = c.r
      · subst h2; rw [upd_same] at e; simp at e
      · rw [upd_other _ _ h2] at e; exact absurd e (h.noW _ _)
  exact ⟨fun fd b e => ⟨(key fd b e).1, rfl⟩, key, fun e => by simp [St.start] at e, fun e => by simp [St.start] at e,
    fun k e => by simp [St.start] at e⟩

theorem Inv.step {c : Call} {s t : St} (i : Inv s c) (h : Step c s t) : Inv t c := by
  cases h with
  | parentClose hp =>
    refine ⟨fun fd b e => ?_, i.chdW, i.exited, i.running, i.null⟩
    by_cases h1 : fd = c.w
    · subst h1; simp [upd] at e
    · simp only [upd_other _ _ h1] at e; exact absurd (i.parW fd b e).1 h1
  | parentRead hp hb =>
    refine ⟨fun fd b e => ?_, i.chdW, i.exited, i.running, i.null⟩
    have := (i.parW fd b e).2; rw [hp] at this; cases this
  | parentEof hp hb hn =>
    refine ⟨fun fd b e => ?_, i.chdW, i.exited, i.running, i.null⟩
    have := (i.parW fd b e).2; rw [hp] at this; cases this
  | closeR hc =>
    refine ⟨i.parW, fun fd b e => ?_, fun e => ?_, fun e => ?_, fun k e => ?_⟩
    · by_cases h1 : fd = c.r
      · subst h1; simp [upd] at e
      · simp only [upd_other _ _ h1] at e; exact i.chdW fd b e
    · simp only [afterCloseR] at e; split at e <;> cases e
    · simp only [afterCloseR] at e; split at e <;> cases e
    · simp only [afterCloseR] at e
      split at e
      · injection e with e; exact ⟨by omega, ‹_›⟩
      · cases e
  | @null k n hc hn =>
    refine ⟨i.parW, fun fd b e => ?_, fun e => ?_, fun e => ?_, fun j e => ?_⟩
    · by_cases h1 : fd = n
      · subst h1; simp [upd] at e
      · simp only [upd_other _ _ h1] at e
        by_cases h2 : fd = k
        · subst h2; simp [upd] at e
        · simp only [upd_other _ _ h2] at e; exact i.chdW fd b e
    · simp only [afterNull] at e; split at e <;> cases e
    · simp only [afterNull] at e; split at e <;> cases e
    · simp only [afterNull] at e
      split at e
      · injection e with e; exact ⟨by omega, (i.null k hc).2⟩
      · cases e
  | nullFails hc => exact ⟨i.parW, i.chdW, fun e => (by cases e), fun e => (by cases e), fun k e => (by cases e)⟩
  | closeFds hc =>
    refine ⟨i.parW, fun fd b e => ?_, fun e => (by cases e), fun e => (by cases e), fun k e => (by cases e)⟩
    simp only at e
    split at e
    · cases e
    · exact i.chdW fd b e
  | exec hc =>
    have h : ∀ fd b, (s.chd fd).filter (fun p => !p.2) ≠ some (Obj.pipeW, b) := by
      intro fd b e
      rw [Option.filter_eq_some_iff] at e
      have := (i.chdW fd b e.1).2
      subst this
      simp at e
    exact ⟨i.parW, fun fd b e => absurd e (h fd b), fun e => (by cases e), fun _ => h, fun k e => (by cases e)⟩
  | execFails hc => exact ⟨i.parW, i.chdW, fun e => (by cases e), fun e => (by cases e), fun k e => (by cases e)⟩
  | write hc => exact ⟨i.parW, i.chdW, fun e => (by cases e), fun e => (by cases e), fun k e => (by cases e)⟩
  | childCloseW hc =>
    refine ⟨i.parW, fun fd b e => ?_, fun e => (by cases e), fun e => (by cases e), fun k e => (by cases e)⟩
    by_cases h1 : fd = c.w
    · subst h1; simp [upd] at e
    · simp only [upd_other _ _ h1] at e; exact i.chdW fd b e
  | exit hc => exact ⟨i.parW, fun fd b e => by simp at e, fun _ _ => rfl, fun e => (by cases e), fun k e => (by cases e)⟩

theorem Inv.steps {c : Call} {s t : St} (i : Inv s c) (h : Steps c s t) : Inv t c := by
  induction h with
  | refl => exact i
  | tail _ h ih => exact ih.step h

/-- A bound of the number of steps left. -/
def left (s : St) : Nat :=
  (match s.pp with | .closeW => 2 | .read => 1 | .done _ => 0) +
  (match s.cp with
    | .closeR => 9 | .null k => 6 + (2 - k) | .closeFds => 5 | .exec => 4 | .err => 3 | .closeW => 2 | .exit => 1
    | .exited => 0 | .running => 0)

theorem left_step {c : Call} {s t : St} (h : Step c s t) : left t < left s := by
  cases h with
  | closeR hc =>
    have : (match afterCloseR c with
      | .closeR => 9 | .null k => 6 + (2 - k) | .closeFds => 5 | .exec => 4 | .err => 3 | .closeW => 2 | .exit => 1
      | .exited => 0 | .running => 0) < 9 := by unfold afterCloseR; by_cases h : c.closeStdio = true <;> simp [h]
    simp only [left, hc]; omega
  | @null k n hc hn =>
    have : (match afterNull k with
      | .closeR => 9 | .null k => 6 + (2 - k) | .closeFds => 5 | .exec => 4 | .err => 3 | .closeW => 2 | .exit => 1
      | .exited => 0 | .running => 0) < 6 + (2 - k) := by
      unfold afterNull
      by_cases h : k < 2
      · rw [if_pos h]; show 6 + (2 - (k + 1)) < 6 + (2 - k); omega
      · rw [if_neg h]; show 5 < 6 + (2 - k); omega
    simp only [left, hc]; omega
  | _ => simp only [left, *]; omega

/-- While the parent is in the call, something can happen. -/
theorem progress {c : Call} {s : St} (i : Inv s c) (h : ∀ b, s.pp ≠ .done b) : ∃ t, Step c s t := by
  rcases hp : s.pp with _ | _ | b
  · exact ⟨_, .parentClose hp⟩
  · by_cases hb : 0 < s.buf
    · exact ⟨_, .parentRead hp hb⟩
    · have hpar : ∀ fd b, s.par fd ≠ some (.pipeW, b) := by
        intro fd b e
        have := (i.parW fd b e).2
        rw [hp] at this; cases this
      rcases hc : s.cp with _ | k | _ | _ | _ | _ | _ | _ | _
      · exact ⟨_, .closeR hc⟩
      · exact ⟨_, .nullFails hc⟩
      · exact ⟨_, .closeFds hc⟩
      · exact ⟨_, .exec hc⟩
      · exact ⟨_, .write hc⟩
      · exact ⟨_, .childCloseW hc⟩
      · exact ⟨_, .exit hc⟩
      · exact ⟨_, .parentEof hp (by omega) ⟨hpar, fun fd b => by rw [i.exited hc]; simp⟩⟩
      · exact ⟨_, .parentEof hp (by omega) ⟨hpar, i.running hc⟩⟩
  · exact absurd hp (h b)

/-! ### The descriptors of the new program -/

structure InvC (s : St) (c : Call) (fds : Fds) : Prop where
  noR : s.cp ≠ .closeR → ∀ fd b, s.chd fd ≠ some (.pipeR, b)
  onlyR : ∀ fd b, s.chd fd = some (.pipeR, b) → fd = c.r
  std : ∀ k, s.cp = .null k → ∀ j, j < k → s.chd j = none ∨ s.chd j = some (.null, false)
  stdAll : c.closeStdio = true → s.cp = .closeFds ∨ s.cp = .exec ∨ s.cp = .running →
    ∀ j, j < 3 → s.chd j = none ∨ s.chd j = some (.null, false)
  closed : s.cp = .exec ∨ s.cp = .running → ∀ fd, 3 ≤ fd → fd < c.m → s.chd fd = none
  keep : s.cp = .running → ∀ fd o b, s.chd fd = some (o, b) → b = false
  /-- with the standard descriptors open in the caller they stay open -/
  isOpen : (∀ j, j < 3 → fds j ≠ none) → s.cp = .closeR ∨ (∃ k, s.cp = .null k) ∨ s.cp = .closeFds ∨ s.cp = .exec →
    ∀ j, j < 3 → s.chd j ≠ none
  openRun : (∀ j, j < 3 → fds j ≠ none) → c.closeStdio = true → s.cp = .running → ∀ j, j < 3 → s.chd j ≠ none

theorem InvC.start {c : Call} {fds : Fds} (h : Fresh c fds) : InvC (St.start c fds) c fds := by
  refine ⟨fun e => absurd rfl e, fun fd b e => ?_, fun k e => by simp [St.start] at e, fun _ e => ?_, fun e => ?_,
    fun e => by simp [St.start] at e, fun ho _ j hj => ?_, fun _ _ e => by simp [St.start] at e⟩
  · simp only [St.start] at e
    by_cases h1 : fd = c.w
    · subst h1; rw [upd_same] at e; simp at e
    · rw [upd_other _ _ h1] at e
      by_cases h2 : fd = c.r
      · exact h2
      · rw [upd_other _ _ h2] at e; exact absurd e (h.noR _ _)
  · simp [St.start] at e
  · simp [St.start] at e
  · simp only [St.start]
    by_cases h1 : j = c.w
    · subst h1; simp [upd]
    · rw [upd_other _ _ h1]
      by_cases h2 : j = c.r
      · subst h2; simp [upd]
      · rw [upd_other _ _ h2]; exact ho j hj

theorem InvC.step {c : Call} {fds : Fds} {s t : St} (f : Fresh c fds) (i : Inv s c) (v : InvC s c fds) (h : Step c s t) :
    InvC t c fds := by
  cases h with
  | parentClose hp => exact ⟨v.noR, v.onlyR, v.std, v.stdAll, v.closed, v.keep, v.isOpen, v.openRun⟩
  | parentRead hp hb => exact ⟨v.noR, v.onlyR, v.std, v.stdAll, v.closed, v.keep, v.isOpen, v.openRun⟩
  | parentEof hp hb hn => exact ⟨v.noR, v.onlyR, v.std, v.stdAll, v.closed, v.keep, v.isOpen, v.openRun⟩
  | closeR hc =>
    have hno : ∀ fd b, upd s.chd c.r none fd ≠ some (Obj.pipeR, b) := by
      intro fd b e
      by_cases h1 : fd = c.r
      · subst h1; simp [upd] at e
      · rw [upd_other _ _ h1] at e; exact h1 (v.onlyR fd b e)
    refine ⟨fun _ => hno, fun fd b e => absurd e (hno fd b), fun k e => ?_, fun hs e => ?_, fun e => ?_, fun e => ?_,
      fun ho _ j hj => ?_, fun _ _ e => ?_⟩
    · simp only [afterCloseR] at e
      split at e
      · injection e with e; intro j hj; omega
      · cases e
    · simp [afterCloseR, hs] at e
    · simp only [afterCloseR] at e; split at e <;> simp at e
    · simp only [afterCloseR] at e; split at e <;> simp at e
    · simp only
      have h1 : j ≠ c.r := by intro e; subst e; exact ho _ hj f.r
      rw [upd_other _ _ h1]
      exact v.isOpen ho (.inl hc) j hj
    · simp only [afterCloseR] at e; split at e <;> simp at e
  | @null k n hc hn =>
    have hk := (i.null k hc).1
    have hno := v.noR (by rw [hc]; simp)
    have hlow : ∀ j, j < k + 1 →
        upd (upd s.chd k (some (.null, false))) n none j = none ∨
        upd (upd s.chd k (some (.null, false))) n none j = some (.null, false) := by
      intro j hj
      by_cases h1 : j = n
      · subst h1; left; simp [upd]
      · rw [upd_other _ _ h1]
        by_cases h2 : j = k
        · subst h2; right; simp [upd]
        · rw [upd_other _ _ h2]; exact v.std k hc j (by omega)
    have hR : ∀ fd b, upd (upd s.chd k (some (.null, false))) n none fd ≠ some (Obj.pipeR, b) := by
      intro fd b e
      by_cases h1 : fd = n
      · subst h1; simp [upd] at e
      · rw [upd_other _ _ h1] at e
        by_cases h2 : fd = k
        · subst h2; simp [upd] at e
        · rw [upd_other _ _ h2] at e; exact hno fd b e
    refine ⟨fun _ => hR, fun fd b e => absurd e (hR fd b), fun k' e => ?_, fun hs e j hj => ?_, fun e => ?_, fun e => ?_,
      fun ho _ j hj => ?_, fun _ _ e => ?_⟩
    · simp only [afterNull] at e
      split at e
      · injection e with e; subst e; exact hlow
      · cases e
    · simp only [afterNull] at e
      split at e
      · simp at e
      · exact hlow j (by omega)
    · simp only [afterNull] at e; split at e <;> simp at e
    · simp only [afterNull] at e; split at e <;> simp at e
    · simp only
      have hj' := v.isOpen ho (.inr (.inl ⟨k, hc⟩)) j hj
      have h1 : j ≠ n := by intro e; subst e; exact hj' hn
      rw [upd_other _ _ h1]
      by_cases h2 : j = k
      · subst h2; simp [upd]
      · rw [upd_other _ _ h2]; exact hj'
    · simp only [afterNull] at e; split at e <;> simp at e
  | nullFails hc =>
    exact ⟨fun _ => v.noR (by rw [hc]; simp), v.onlyR, fun k e => (by cases e), fun _ e => by simp at e, fun e => by simp at e,
      fun e => (by cases e), fun _ e => by simp at e, fun _ _ e => (by cases e)⟩
  | closeFds hc =>
    have hno := v.noR (by rw [hc]; simp)
    refine ⟨fun _ fd b e => ?_, fun fd b e => ?_, fun k e => (by cases e), fun hs _ j hj => ?_, fun _ fd h3 hm => ?_,
      fun e => (by cases e), fun ho _ j hj => ?_, fun _ _ e => (by cases e)⟩
    · simp only at e; split at e
      · cases e
      · exact hno fd b e
    · simp only at e; split at e
      · cases e
      · exact v.onlyR fd b e
    · simp only; rw [if_neg (by omega)]; exact v.stdAll hs (.inl hc) j hj
    · simp only; rw [if_pos ⟨h3, hm⟩]
    · simp only; rw [if_neg (by omega)]; exact v.isOpen ho (.inr (.inr (.inl hc))) j hj
  | exec hc =>
    have hno := v.noR (by rw [hc]; simp)
    refine ⟨fun _ fd b e => ?_, fun fd b e => ?_, fun k e => (by cases e), fun hs _ j hj => ?_, fun _ fd h3 hm => ?_,
      fun _ fd o b e => ?_, fun _ e => by simp at e, fun ho hs _ j hj => ?_⟩
    · simp only at e; rw [Option.filter_eq_some_iff] at e; exact hno fd b e.1
    · simp only at e; rw [Option.filter_eq_some_iff] at e; exact v.onlyR fd b e.1
    · simp only
      rcases v.stdAll hs (.inr (.inl hc)) j hj with e | e <;> rw [e] <;> simp
    · simp only; rw [v.closed (.inl hc) fd h3 hm]; rfl
    · simp only at e; rw [Option.filter_eq_some_iff] at e; simpa using e.2
    · simp only
      rcases v.stdAll hs (.inr (.inl hc)) j hj with e | e
      · exact absurd e (v.isOpen ho (.inr (.inr (.inr hc))) j hj)
      · rw [e]; simp
  | execFails hc =>
    exact ⟨fun _ => v.noR (by rw [hc]; simp), v.onlyR, fun k e => (by cases e), fun _ e => by simp at e, fun e => by simp at e,
      fun e => (by cases e), fun _ e => by simp at e, fun _ _ e => (by cases e)⟩
  | write hc =>
    exact ⟨fun _ => v.noR (by rw [hc]; simp), v.onlyR, fun k e => (by cases e), fun _ e => by simp at e, fun e => by simp at e,
      fun e => (by cases e), fun _ e => by simp at e, fun _ _ e => (by cases e)⟩
  | childCloseW hc =>
    have hno : ∀ fd b, upd s.chd c.w none fd ≠ some (Obj.pipeR, b) := by
      intro fd b e
      by_cases h1 : fd = c.w
      · subst h1; simp [upd] at e
      · rw [upd_other _ _ h1] at e; exact v.noR (by rw [hc]; simp) fd b e
    exact ⟨fun _ => hno, fun fd b e => absurd e (hno fd b), fun k e => (by cases e), fun _ e => by simp at e,
      fun e => by simp at e, fun e => (by cases e), fun _ e => by simp at e, fun _ _ e => (by cases e)⟩
  | exit hc =>
    exact ⟨fun _ fd b e => (by cases e), fun fd b e => (by cases e), fun k e => (by cases e), fun _ e => by simp at e,
      fun e => by simp at e, fun e => (by cases e), fun _ e => by simp at e, fun _ _ e => (by cases e)⟩

theorem invC_steps {c : Call} {fds : Fds} {s t : St} (f : Fresh c fds) (i : Inv s c) (v : InvC s c fds) (h : Steps c s t) :
    InvC t c fds := by
  induction h with
  | refl => exact v
  | tail h1 h ih => exact InvC.step f (i.steps h1) ih h

/-! ### What is reported if the loop spares the write end -/

/-- The child has not decided yet. -/
def CPc.early : CPc → Prop
  | .closeR | .null _ | .closeFds | .exec | .err => True
  | _ => False

structure InvG (s : St) (c : Call) : Prop where
  early : s.cp.early → s.chd c.w = some (.pipeW, true) ∧ s.buf = 0 ∧ ∀ b, s.pp ≠ .done b
  closeW : s.cp = .closeW → s.buf = 1 ∧ (∀ b, s.pp ≠ .done b) ∨ s.buf = 0 ∧ s.pp = .done false
  exit : s.cp = .exit → s.buf = 1 ∧ (∀ b, s.pp ≠ .done b) ∨ s.buf = 0 ∧ s.pp = .done false
  exited : s.cp = .exited → s.buf = 1 ∧ (∀ b, s.pp ≠ .done b) ∨ s.buf = 0 ∧ s.pp = .done false
  running : s.cp = .running → s.buf = 0 ∧ s.pp ≠ .done false

theorem InvG.start {c : Call} {fds : Fds} : InvG (St.start c fds) c :=
  ⟨fun _ => ⟨by simp [St.start, upd], rfl, fun b e => by simp [St.start] at e⟩, fun e => by simp [St.start] at e,
    fun e => by simp [St.start] at e, fun e => by simp [St.start] at e, fun e => by simp [St.start] at e⟩

theorem InvG.step {c : Call} {s t : St} (hne : c.r ≠ c.w) (hstd : c.closeStdio = true → 3 ≤ c.w) (hm : c.m ≤ c.w) (i : Inv s c)
    (g : InvG s c) (h : Step c s t) : InvG t c := by
  cases h with
  | parentClose hp =>
    refine ⟨fun e => ?_, fun e => ?_, fun e => ?_, fun e => ?_, fun e => ⟨(g.running e).1, by simp⟩⟩
    · exact ⟨(g.early e).1, (g.early e).2.1, fun b => by simp⟩
    · rcases g.closeW e with h | h
      · exact .inl ⟨h.1, fun b => by simp⟩
      · rw [hp] at h; cases h.2
    · rcases g.exit e with h | h
      · exact .inl ⟨h.1, fun b => by simp⟩
      · rw [hp] at h; cases h.2
    · rcases g.exited e with h | h
      · exact .inl ⟨h.1, fun b => by simp⟩
      · rw [hp] at h; cases h.2
  | parentRead hp hb =>
    refine ⟨fun e => ?_, fun e => ?_, fun e => ?_, fun e => ?_, fun e => ?_⟩
    · have := (g.early e).2.1; omega
    · rcases g.closeW e with h | h
      · exact .inr ⟨by simp [h.1], rfl⟩
      · omega
    · rcases g.exit e with h | h
      · exact .inr ⟨by simp [h.1], rfl⟩
      · omega
    · rcases g.exited e with h | h
      · exact .inr ⟨by simp [h.1], rfl⟩
      · omega
    · have := (g.running e).1; omega
  | parentEof hp hb hn =>
    refine ⟨fun e => ?_, fun e => ?_, fun e => ?_, fun e => ?_, fun e => ⟨(g.running e).1, by simp⟩⟩
    · exact absurd (g.early e).1 (hn.2 _ _)
    · rcases g.closeW e with h | h
      · omega
      · rw [hp] at h; cases h.2
    · rcases g.exit e with h | h
      · omega
      · rw [hp] at h; cases h.2
    · rcases g.exited e with h | h
      · omega
      · rw [hp] at h; cases h.2
  | closeR hc =>
    have he := g.early (by rw [hc]; trivial)
    have hw : upd s.chd c.r none c.w = some (.pipeW, true) := by rw [upd_other _ _ (Ne.symm hne)]; exact he.1
    refine ⟨fun _ => ⟨hw, he.2⟩, fun e => ?_, fun e => ?_, fun e => ?_, fun e => ?_⟩ <;>
      (simp only [afterCloseR] at e; split at e <;> cases e)
  | @null k n hc hn =>
    have he := g.early (by rw [hc]; trivial)
    have hk := i.null k hc
    have h3 := hstd hk.2
    have hw : upd (upd s.chd k (some (.null, false))) n none c.w = some (.pipeW, true) := by
      rw [upd_other _ _ (by intro e; rw [e, hn] at he; cases he.1), upd_other _ _ (by omega)]; exact he.1
    refine ⟨fun _ => ⟨hw, he.2⟩, fun e => ?_, fun e => ?_, fun e => ?_, fun e => ?_⟩ <;>
      (simp only [afterNull] at e; split at e <;> cases e)
  | nullFails hc =>
    exact ⟨fun _ => g.early (by rw [hc]; trivial), fun e => (by cases e), fun e => (by cases e), fun e => (by cases e),
      fun e => (by cases e)⟩
  | closeFds hc =>
    have he := g.early (by rw [hc]; trivial)
    refine ⟨fun _ => ⟨?_, he.2⟩, fun e => (by cases e), fun e => (by cases e), fun e => (by cases e), fun e => (by cases e)⟩
    simp only; rw [if_neg (by omega)]; exact he.1
  | exec hc =>
    have he := g.early (by rw [hc]; trivial)
    exact ⟨fun e => (by cases e), fun e => (by cases e), fun e => (by cases e), fun e => (by cases e), fun _ => ⟨he.2.1, he.2.2 _⟩⟩
  | execFails hc =>
    exact ⟨fun _ => g.early (by rw [hc]; trivial), fun e => (by cases e), fun e => (by cases e), fun e => (by cases e),
      fun e => (by cases e)⟩
  | write hc =>
    have he := g.early (by rw [hc]; trivial)
    refine ⟨fun e => (by cases e), fun _ => .inl ⟨?_, he.2.2⟩, fun e => (by cases e), fun e => (by cases e), fun e => (by cases e)⟩
    simp only; rw [if_pos he.1, he.2.1]
  | childCloseW hc =>
    exact ⟨fun e => (by cases e), fun e => (by cases e), fun _ => g.closeW hc, fun e => (by cases e), fun e => (by cases e)⟩
  | exit hc =>
    exact ⟨fun e => (by cases e), fun e => (by cases e), fun e => (by cases e), fun _ => g.exit hc, fun e => (by cases e)⟩

theorem InvG.steps {c : Call} {s t : St} (hne : c.r ≠ c.w) (hstd : c.closeStdio = true → 3 ≤ c.w) (hm : c.m ≤ c.w) (i : Inv s c)
    (g : InvG s c) (h : Steps c s t) : InvG t c := by
  induction h with
  | refl => exact g
  | tail h1 h ih => exact InvG.step hne hstd hm (i.steps h1) ih h

/-! ### What is reported if the loop closes it -/

/-- Where the child can be once it came to `execv`. -/
def CPc.late : CPc → Prop
  | .closeR | .null _ | .closeFds => False
  | _ => True

structure InvB (s : St) : Prop where
  late : s.cp.late
  noW : ∀ fd b, s.chd fd ≠ some (.pipeW, b)
  buf : s.buf = 0
  pp : s.pp ≠ .done false

theorem InvB.step {c : Call} {s t : St} (v : InvB s) (h : Step c s t) : InvB t := by
  have hl := v.late
  cases h with
  | parentClose hp => exact ⟨v.late, v.noW, v.buf, by simp⟩
  | parentRead hp hb => exact absurd v.buf (by omega)
  | parentEof hp hb hn => exact ⟨v.late, v.noW, v.buf, by simp⟩
  | closeR hc => rw [hc] at hl; cases hl
  | null hc hn => rw [hc] at hl; cases hl
  | nullFails hc => rw [hc] at hl; cases hl
  | closeFds hc => rw [hc] at hl; cases hl
  | exec hc =>
    refine ⟨trivial, fun fd b e => ?_, v.buf, v.pp⟩
    simp only at e; rw [Option.filter_eq_some_iff] at e; exact v.noW fd b e.1
  | execFails hc => exact ⟨trivial, v.noW, v.buf, v.pp⟩
  | write hc => exact ⟨trivial, v.noW, by simp only; rw [if_neg (v.noW _ _)]; exact v.buf, v.pp⟩
  | childCloseW hc =>
    refine ⟨trivial, fun fd b e => ?_, v.buf, v.pp⟩
    simp only [upd] at e
    split at e
    · cases e
    · exact v.noW fd b e
  | exit hc => exact ⟨trivial, fun fd b => by simp, v.buf, v.pp⟩

theorem InvB.steps {c : Call} {s t : St} (v : InvB s) (h : Steps c s t) : InvB t := by
  induction h with
  | refl => exact v
  | tail _ h ih => exact ih.step h

/-- Up to `execv` nothing is in the pipe, the parent has not been told anything. -/
structure InvE (s : St) (c : Call) : Prop where
  buf : s.cp.early → s.buf = 0
  exec : s.cp = .exec → ∀ fd b, s.chd fd ≠ some (.pipeW, b)
  pp : s.cp.early → s.pp ≠ .done false

theorem InvE.step {c : Call} {s t : St} (hw : 3 ≤ c.w) (hm : c.w < c.m) (i : Inv s c) (v : InvE s c) (h : Step c s t) :
    InvE t c := by
  cases h with
  | parentClose hp => exact ⟨v.buf, v.exec, fun _ => by simp⟩
  | parentRead hp hb => exact ⟨fun e => absurd (v.buf e) (by omega), v.exec, fun e => absurd (v.buf e) (by omega)⟩
  | parentEof hp hb hn => exact ⟨v.buf, v.exec, fun _ => by simp⟩
  | closeR hc =>
    refine ⟨fun _ => v.buf (by rw [hc]; trivial), fun e => ?_, fun _ => v.pp (by rw [hc]; trivial)⟩
    simp only [afterCloseR] at e; split at e <;> cases e
  | @null k n hc hn =>
    refine ⟨fun _ => v.buf (by rw [hc]; trivial), fun e => ?_, fun _ => v.pp (by rw [hc]; trivial)⟩
    simp only [afterNull] at e; split at e <;> cases e
  | nullFails hc => exact ⟨fun _ => v.buf (by rw [hc]; trivial), fun e => (by cases e), fun _ => v.pp (by rw [hc]; trivial)⟩
  | closeFds hc =>
    refine ⟨fun _ => v.buf (by rw [hc]; trivial), fun _ fd b e => ?_, fun _ => v.pp (by rw [hc]; trivial)⟩
    simp only at e
    split at e
    · cases e
    · have := (i.chdW fd b e).1; omega
  | exec hc => exact ⟨fun e => (by cases e), fun e => (by cases e), fun e => (by cases e)⟩
  | execFails hc => exact ⟨fun _ => v.buf (by rw [hc]; trivial), fun e => (by cases e), fun _ => v.pp (by rw [hc]; trivial)⟩
  | write hc => exact ⟨fun e => (by cases e), fun e => (by cases e), fun e => (by cases e)⟩
  | childCloseW hc => exact ⟨fun e => (by cases e), fun e => (by cases e), fun e => (by cases e)⟩
  | exit hc => exact ⟨fun e => (by cases e), fun e => (by cases e), fun e => (by cases e)⟩

theorem InvE.steps {c : Call} {s t : St} (hw : 3 ≤ c.w) (hm : c.w < c.m) (i : Inv s c) (v : InvE s c) (h : Steps c s t) :
    InvE t c := by
  induction h with
  | refl => exact v
  | tail h1 h ih => exact InvE.step hw hm (i.steps h1) ih h

theorem Steps.trans {c : Call} {s t u : St} (h : Steps c s t) (k : Steps c t u) : Steps c s u := by
  induction k with
  | refl => exact h
  | tail _ k ih => exact .tail ih k

/-! ### `isAlive` -/

theorem watch_running (n : Nat) (es : List Ev) :
    watch .running (List.replicate n .ask ++ es) = List.replicate n (true, 0) ++ watch .running es := by
  induction n with
  | zero => rfl
  | succ n ih => rw [List.replicate_succ, List.cons_append, watch]; simp only [isAlive, if_true, ih]; rfl

theorem watch_gone (es : List Ev) : watch .gone es = List.replicate (es.count .ask) (false, 0) := by
  induction es with
  | nil => rfl
  | cons e es ih =>
    cases e with
    | ask => rw [watch]; simp only [isAlive, if_true, ih, List.count_cons_self, List.replicate_succ]
    | ends e => rw [watch, ih, List.count_cons_of_ne (by simp)]; simp

theorem watch_zombie (e : End) (es : List Ev) :
    watch (.zombie e) es = (match es.count .ask with
      | 0 => []
      | k + 1 => (false, (isAlive true (.zombie e)).2.1) :: List.replicate k (false, 0)) := by
  induction es with
  | nil => rfl
  | cons f es ih =>
    cases f with
    | ask =>
      rw [watch, List.count_cons_self]
      simp only [isAlive, if_true]
      rw [watch_gone]
    | ends f => rw [watch, ih, List.count_cons_of_ne (by simp)]; simp

/-! ### The command line -/

/-- As `Plain`, with `bs` backslashes before. -/
def PlainB : Nat → List UInt8 → Prop
  | bs, [] => bs = 0
  | bs, c :: cs => if c = 92 then PlainB (bs + 1) cs else if c = 34 then bs = 0 ∧ PlainB 0 cs else PlainB 0 cs

theorem plainB_iff (bs : Nat) (a : List UInt8) : PlainB bs a ↔ Plain a ∧ (0 < bs → a ≠ [] ∧ a.head? ≠ some 34) := by
  induction a generalizing bs with
  | nil => simp [PlainB, Plain]
  | cons c cs ih =>
    by_cases h1 : c = 92
    · subst h1
      rw [PlainB, if_pos rfl, ih]
      cases cs with
      | nil => simp [Plain]
      | cons d ds => simp [Plain]; exact And.comm
    · rw [PlainB, if_neg h1]
      by_cases h2 : c = 34
      · subst h2
        rw [if_pos rfl, ih]
        cases cs with
        | nil => simp [Plain]
        | cons d ds => simp [Plain]; constructor <;> rintro ⟨a, b⟩ <;> exact ⟨by first | exact b | omega, by first | exact a | omega⟩
      · rw [if_neg h2, ih]
        cases cs with
        | nil => simp [Plain, h1, h2]
        | cons d ds => simp [Plain, h1, h2]

theorem words_cons (q : Bool) (bs : Nat) (cur : Option (List UInt8)) (c : UInt8) (cs : List UInt8) :
    words q bs cur (c :: cs) =
      if c = 92 then words q (bs + 1) (some (cur.getD [])) cs
      else if c = 34 then
        if bs % 2 = 1 then words q 0 (some (cur.getD [] ++ List.replicate (bs / 2) 92 ++ [34])) cs
        else words (!q) 0 (some (cur.getD [] ++ List.replicate (bs / 2) 92)) cs
      else if (c = 32 ∨ c = 9) ∧ q = false then
        match cur with
        | none => words q 0 none cs
        | some w => (w ++ List.replicate bs 92) :: words q 0 none cs
      else words q 0 (some (cur.getD [] ++ List.replicate bs 92 ++ [c])) cs := by
  rw [words.eq_def]
  rfl

theorem words_escape (a : List UInt8) (bs : Nat) (cur rest : List UInt8) (h : PlainB bs a) :
    words true bs (some cur) (escape a ++ 34 :: rest) = words false 0 (some (cur ++ List.replicate bs 92 ++ a)) rest := by
  induction a generalizing bs cur with
  | nil =>
    rw [PlainB] at h; subst h
    simp [escape, words_cons]
  | cons c cs ih =>
    rw [PlainB] at h
    by_cases h1 : c = 92
    · subst h1
      rw [if_pos rfl] at h
      have : escape (92 :: cs) = 92 :: escape cs := by rw [escape, if_neg (by decide)]
      rw [this, List.cons_append, words_cons, if_pos rfl, Option.getD_some, ih (bs + 1) cur h]
      simp [List.replicate_succ']
    · rw [if_neg h1] at h
      by_cases h2 : c = 34
      · subst h2
        rw [if_pos rfl] at h
        obtain ⟨rfl, h⟩ := h
        have : escape (34 :: cs) = 92 :: 34 :: escape cs := by rw [escape, if_pos rfl]
        rw [this, List.cons_append, List.cons_append, words_cons, if_pos rfl, Option.getD_some, words_cons, if_neg (by decide), if_pos rfl,
          if_pos (by decide), Option.getD_some, ih 0 _ h]
        simp
      · rw [if_neg h2] at h
        have : escape (c :: cs) = c :: escape cs := by rw [escape, if_neg h2]
        rw [this, List.cons_append, words_cons, if_neg h1, if_neg h2, if_neg (by simp), Option.getD_some, ih 0 _ h]
        simp

theorem words_args (args : List (List UInt8)) (h : ∀ a ∈ args, Plain a) (cur : Option (List UInt8)) :
    words false 0 cur ((args.map (fun a => 32 :: 34 :: escape a ++ [34])).flatten) = cur.toList ++ args := by
  induction args generalizing cur with
  | nil => cases cur <;> simp [words]
  | cons a as ih =>
    have step : ∀ l, words false 0 none (34 :: escape a ++ [34] ++ l) = words false 0 (some a) l := by
      intro l
      rw [List.cons_append, List.cons_append, words_cons, if_neg (by decide), if_pos rfl, if_neg (by decide), List.append_assoc]
      have := words_escape a 0 [] l ((plainB_iff 0 a).2 ⟨h a (by simp), by omega⟩)
      simpa using this
    have ha := ih (fun b hb => h b (by simp [hb])) (some a)
    rw [List.map_cons, List.flatten_cons, List.cons_append, List.cons_append, words_cons, if_neg (by decide), if_neg (by decide),
      if_pos (by simp)]
    cases cur with
    | none => simp only; rw [step, ha]; simp
    | some w => simp only; rw [step, ha]; simp

/-- How much of an argument the program sees. -/
theorem words_length (a : List UInt8) (q : Bool) (bs : Nat) (cur : Option (List UInt8)) (hc : 0 < bs → cur ≠ none) :
    (words q bs cur (escape a ++ [34])).flatten.length ≤ (cur.getD []).length + bs + a.length ∧
    ((words q bs cur (escape a ++ [34])).flatten.length = (cur.getD []).length + bs + a.length →
      PlainB bs a ∨ (words q bs cur (escape a ++ [34])).flatten.getLast? = some 34 ∧
        ((a = [] ∧ 0 < bs) ∨ a.getLast? = some 92)) := by
  induction a generalizing q bs cur with
  | nil =>
    by_cases ho : bs % 2 = 1
    · have : words q bs cur (escape [] ++ [34]) = [cur.getD [] ++ List.replicate (bs / 2) 92 ++ [34]] := by
        simp [escape, words_cons, ho]; simp [words]
      rw [this]
      refine ⟨by simp; omega, fun _ => .inr ⟨by simp, .inl ⟨rfl, by omega⟩⟩⟩
    · have : words q bs cur (escape [] ++ [34]) = [cur.getD [] ++ List.replicate (bs / 2) 92] := by
        simp [escape, words_cons, ho]; simp [words]
      rw [this]
      refine ⟨by simp; omega, fun e => .inl ?_⟩
      simp at e
      show bs = 0
      omega
  | cons c cs ih =>
    have last : ∀ {bs : Nat}, (cs = [] ∧ 0 < bs) ∨ cs.getLast? = some 92 → (c = 92 ∨ bs = 0) →
        (c :: cs).getLast? = some 92 := by
      intro bs h hb
      rcases h with ⟨rfl, h0⟩ | h
      · rcases hb with rfl | hb
        · rfl
        · omega
      · rw [List.getLast?_cons, h]; rfl
    by_cases h1 : c = 92
    · subst h1
      have e : escape (92 :: cs) = 92 :: escape cs := by rw [escape, if_neg (by decide)]
      have w : words q bs cur (escape (92 :: cs) ++ [34]) = words q (bs + 1) (some (cur.getD [])) (escape cs ++ [34]) := by
        rw [e, List.cons_append, words_cons, if_pos rfl]
      have i := ih q (bs + 1) (some (cur.getD [])) (by simp)
      rw [w]
      simp only [Option.getD_some, List.length_cons] at i ⊢
      refine ⟨by omega, fun h => ?_⟩
      rcases i.2 (by omega) with h | h
      · left; rw [PlainB, if_pos rfl]; exact h
      · right; exact ⟨h.1, .inr (last h.2 (.inl rfl))⟩
    · by_cases h2 : c = 34
      · subst h2
        have e : escape (34 :: cs) = 92 :: 34 :: escape cs := by rw [escape, if_pos rfl]
        have w : words q bs cur (escape (34 :: cs) ++ [34]) =
            (if (bs + 1) % 2 = 1 then
              words q 0 (some (cur.getD [] ++ List.replicate ((bs + 1) / 2) 92 ++ [34])) (escape cs ++ [34])
            else words (!q) 0 (some (cur.getD [] ++ List.replicate ((bs + 1) / 2) 92)) (escape cs ++ [34])) := by
          rw [e, List.cons_append, List.cons_append, words_cons, if_pos rfl, words_cons, if_neg (by decide), if_pos rfl, Option.getD_some]
        rw [w]
        split
        · have i := ih q 0 (some (cur.getD [] ++ List.replicate ((bs + 1) / 2) 92 ++ [34])) (by simp)
          simp only [Option.getD_some, List.length_cons, List.length_append, List.length_replicate, List.length_nil] at i ⊢
          refine ⟨by omega, fun h => ?_⟩
          rcases i.2 (by omega) with h' | h'
          · left; rw [PlainB, if_neg (by decide), if_pos rfl]; exact ⟨by omega, h'⟩
          · right; exact ⟨h'.1, .inr (last h'.2 (.inr rfl))⟩
        · have i := ih (!q) 0 (some (cur.getD [] ++ List.replicate ((bs + 1) / 2) 92)) (by simp)
          simp only [Option.getD_some, List.length_cons, List.length_append, List.length_replicate] at i ⊢
          exact ⟨by omega, fun h => by omega⟩
      · have e : escape (c :: cs) = c :: escape cs := by rw [escape, if_neg h2]
        rw [e, List.cons_append, words_cons, if_neg h1, if_neg h2]
        split
        · have i := ih q 0 none (by simp)
          cases cur with
          | none =>
            simp only [Option.getD_none, List.length_nil, List.length_cons] at i ⊢
            exact ⟨by omega, fun h => by omega⟩
          | some w =>
            simp only [Option.getD_none, Option.getD_some, List.length_nil, List.length_cons, List.flatten_cons,
              List.length_append, List.length_replicate] at i ⊢
            exact ⟨by omega, fun h => by omega⟩
        · have i := ih q 0 (some (cur.getD [] ++ List.replicate bs 92 ++ [c])) (by simp)
          simp only [Option.getD_some, List.length_cons, List.length_append, List.length_replicate, List.length_nil] at i ⊢
          refine ⟨by omega, fun h => ?_⟩
          rcases i.2 (by omega) with h' | h'
          · left; rw [PlainB, if_neg h1, if_neg h2]; exact h'
          · right; exact ⟨h'.1, .inr (last h'.2 (.inr rfl))⟩

theorem argvOf_cmdLine (exe : List UInt8) (args : List (List UInt8)) (he : 34 ∉ exe) :
    argvOf (cmdLine exe args) = exe :: words false 0 none ((args.map (fun a => 32 :: 34 :: escape a ++ [34])).flatten) := by
  rw [cmdLine, List.cons_append, argvOf]
  have h1 : ∀ l : List UInt8, (exe ++ 34 :: l).takeWhile (· ≠ 34) = exe := by
    intro l
    rw [List.takeWhile_append_of_pos (by intro x hx; simp; rintro rfl; exact he hx)]
    simp
  have h2 : ∀ l : List UInt8, (exe ++ 34 :: l).dropWhile (· ≠ 34) = 34 :: l := by
    intro l
    rw [List.dropWhile_append_of_pos (by intro x hx; simp; rintro rfl; exact he hx)]
    simp
  simp only [h1, h2, List.drop_one, List.tail_cons]

end Verif.Process
