import Verif.Proof.ProcMany
set_option linter.unusedSimpArgs false
/-!
# C149: starting programs from several threads at once
-/
namespace Verif.Props.ProcMany
open Verif.ProcMany
open Verif.Handle (upd)

/-- The loop that closes descriptors spares the write end of the own pipe (see `C63_exec_failure_unreported` for what happens otherwise). -/
def Spares (m : Nat → Nat) (s : St) : Prop := ∀ i, before (s.pp i) = false → m i ≤ max 3 (s.wfd i)

/-- What a call has returned. -/
def result : PPc → Option Bool
  | .done b => some b
  | .refused => some false
  | .cut => some true
  | _ => none

theorem inv {fds : Fds} (hc : Clean fds) {m : Nat → Nat} {s : St} (h : Steps m (St.start fds) s) : InvP fds s := by
  induction h with
  | refl => exact InvP.start hc
  | tail _ st ih => exact ih.step hc st

theorem Spares.back {m : Nat → Nat} {s t : St} (h : Step m s t) (hm : Spares m t) : Spares m s := by
  intro i hi
  obtain ⟨h1, h2⟩ := began h i hi
  rw [← h2]
  exact hm i h1

theorem invC {fds : Fds} (hc : Clean fds) {m : Nat → Nat} {s : St} (h : Steps m (St.start fds) s) (hm : Spares m s) : InvC s := by
  induction h with
  | refl => exact InvC.start fds
  | tail hst st ih => exact InvC.step (hm.back st) (inv hc hst) (ih (hm.back st)) st

theorem Steps.trans {m : Nat → Nat} {a b c : St} (h1 : Steps m a b) (h2 : Steps m b c) : Steps m a c := by
  induction h2 with
  | refl => exact h1
  | tail _ st ih => exact .tail ih st

/-- A call that returned has returned. -/
theorem done_keep {m : Nat → Nat} {s t : St} (h : Steps m s t) {i : Nat} {p : PPc} (hp : result p ≠ none) (hi : s.pp i = p) : t.pp i = p := by
  induction h with
  | refl => exact hi
  | tail _ st ih =>
    have key : ∀ {u : St} (k : Nat) (q : PPc), u.pp i = p → result (u.pp k) = none → upd u.pp k q i = p := by
      intro u k q h1 h2
      rw [upd_ne, h1]
      rintro rfl
      rw [h1] at h2
      exact hp h2
    cases st with
    | pipe k r w hk => exact key k _ ih (by rw [hk]; rfl)
    | pipeFails k hk => exact key k _ ih (by rw [hk]; rfl)
    | fcntl k hk => exact key k _ ih (by rw [hk]; rfl)
    | fcntlFails k hk => exact key k _ ih (by rw [hk]; rfl)
    | fork k hk => exact key k _ ih (by rw [hk]; rfl)
    | forkFails k hk => exact key k _ ih (by rw [hk]; rfl)
    | parentClose k hk => exact key k _ ih (by rw [hk]; rfl)
    | parentRead k hk => exact key k _ ih (by rw [hk]; rfl)
    | parentEof k hk => exact key k _ ih (by rw [hk]; rfl)
    | interrupted k hk => exact key k _ ih (by rw [hk]; rfl)
    | _ => exact ih

/-- C149: with any number of threads starting programs at the same time, in any interleaving: every `Start` that returns `true` and was not
interrupted by a signal has started its own program, every `Start` that returns `false` has not and never will. -/
theorem C149_reports {fds : Fds} (hc : Clean fds) {m : Nat → Nat} {s : St} (h : Steps m (St.start fds) s) (hm : Spares m s) (i : Nat) :
    (result (s.pp i) = some true → s.pp i ≠ .cut → s.cp i = .running ∨ s.cp i = .ended) ∧
    (result (s.pp i) = some false → ∀ t, Steps m s t → Spares m t → t.cp i ≠ .running ∧ t.cp i ≠ .ended) := by
  constructor
  · intro hr hn
    have hp : s.pp i = .done true := by
      revert hr hn
      cases s.pp i <;> simp [result]
    have := (invC hc h hm).yes i hp
    revert this
    cases s.cp i <;> simp [started]
  · intro hr t ht hmt
    have I := invC hc (Steps.trans h ht) hmt
    have hd := done_keep ht (p := s.pp i) (by rw [hr]; simp) rfl
    rw [← hd] at hr
    cases hf : failed (t.cp i) with
    | false =>
      have hp : t.pp i = .refused := by
        have := (I.zero i hf).2
        revert hr this
        cases t.pp i <;> simp [result]
      rw [(I.born i).2 (by rw [hp]; rfl)]
      simp
    | true =>
      revert hf
      cases t.cp i <;> simp [failed]

/-- C149: when no call is under way, the process has exactly the descriptors it had before. -/
theorem C149_descriptors {fds : Fds} (hc : Clean fds) {m : Nat → Nat} {s : St} (h : Steps m (St.start fds) s)
    (hd : ∀ i, s.pp i = .idle ∨ result (s.pp i) ≠ none) : s.par = fds := by
  have I := inv hc h
  have hR : ∀ i, hasR (s.pp i) = false := by
    intro i
    have := hd i
    revert this
    cases s.pp i <;> simp [result, hasR, hasW]
  have hW : ∀ i, hasW (s.pp i) = false := by
    intro i
    have := hd i
    revert this
    cases s.pp i <;> simp [result, hasR, hasW]
  funext fd
  cases hf : fds fd with
  | some x => rw [I.old fd (by rw [hf]; simp), hf]
  | none =>
    rcases I.new fd hf with e | ⟨i, b, e | e⟩
    · exact e
    · have := (I.wOnly fd i b e).2
      rw [hW i] at this
      cases this
    · have := (I.rOnly fd i b e).2
      rw [hR i] at this
      cases this

/-- What the tables of the children have of the descriptors the process had before. -/
structure InvK (fds : Fds) (m : Nat → Nat) (s : St) : Prop where
  idle : ∀ i, s.pp i = .idle → s.cp i = .unborn
  free : ∀ i, s.pp i = .piped ∨ s.pp i = .ready ∨ s.cp i ≠ .unborn → fds (s.rfd i) = none
  begin : ∀ i fd, s.cp i = .closeR ∨ s.cp i = .closeFds → fds fd ≠ none → s.chd i fd = fds fd
  exec : ∀ i fd, s.cp i = .exec → fds fd ≠ none → s.chd i fd = if 3 ≤ fd ∧ fd < m i then none else fds fd
  run : ∀ i fd, s.cp i = .running → fds fd ≠ none → s.chd i fd = (if 3 ≤ fd ∧ fd < m i then none else fds fd).filter (fun p => !p.2)
  closed : ∀ i fd, s.cp i = .exec ∨ s.cp i = .running → 3 ≤ fd → fd < m i → s.chd i fd = none
  flag : ∀ i fd p, s.cp i = .running → s.chd i fd = some p → p.2 = false

/-- Steps that leave the children and the own descriptors alone. -/
theorem InvK.same {fds : Fds} {m : Nat → Nat} {s t : St} (K : InvK fds m s) (hr : ∀ i, t.pp i = .piped ∨ t.pp i = .ready ∨ t.cp i ≠ .unborn →
    t.rfd i = s.rfd i ∧ (s.pp i = .piped ∨ s.pp i = .ready ∨ s.cp i ≠ .unborn) ∨ fds (t.rfd i) = none) (hi : ∀ i, t.pp i = .idle → s.pp i = .idle)
    (hc : ∀ i, (t.cp i = .closeR ∨ t.cp i = .closeFds ∨ t.cp i = .exec ∨ t.cp i = .running ∨ t.pp i = .idle) → t.chd i = s.chd i ∧ t.cp i = s.cp i) :
    InvK fds m t where
  idle := fun i h => by rw [(hc i (by simp [h])).2]; exact K.idle i (hi i h)
  free := fun i h => by
    rcases hr i h with ⟨e, h'⟩ | h'
    · rw [e]; exact K.free i h'
    · exact h'
  begin := fun i fd h => by
    obtain ⟨h1, h2⟩ := hc i (by rcases h with h | h <;> simp [h])
    rw [h1]; rw [h2] at h; exact K.begin i fd h
  exec := fun i fd h => by
    obtain ⟨h1, h2⟩ := hc i (by simp [h])
    rw [h1]; rw [h2] at h; exact K.exec i fd h
  run := fun i fd h => by
    obtain ⟨h1, h2⟩ := hc i (by simp [h])
    rw [h1]; rw [h2] at h; exact K.run i fd h
  closed := fun i fd h => by
    obtain ⟨h1, h2⟩ := hc i (by rcases h with h | h <;> simp [h])
    rw [h1]; rw [h2] at h; exact K.closed i fd h
  flag := fun i fd p h => by
    obtain ⟨h1, h2⟩ := hc i (by simp [h])
    rw [h1]; rw [h2] at h; exact K.flag i fd p h

theorem InvK.step {fds : Fds} {m : Nat → Nat} {s t : St} (P : InvP fds s) (K : InvK fds m s) (h : Step m s t) : InvK fds m t := by
  have par : ∀ {t : St} (k : Nat) (q : PPc), t.pp = upd s.pp k q → t.cp = s.cp → t.chd = s.chd → t.rfd = s.rfd → q ≠ .idle →
      (q = .ready → s.pp k = .piped) → q ≠ .piped → InvK fds m t := by
    intro t k q h1 h2 h3 h4 h5 h6 h7
    refine K.same (fun i h => .inl ⟨by rw [h4], ?_⟩) (fun i h => ?_) (fun i _ => ⟨by rw [h3], by rw [h2]⟩)
    · rw [h1, h2] at h
      by_cases e : i = k
      · subst e
        rw [upd_same] at h
        rcases h with h | h | h
        · exact absurd h h7
        · exact .inl (h6 h)
        · exact .inr (.inr h)
      · rw [upd_ne _ _ e] at h; exact h
    · rw [h1] at h
      by_cases e : i = k
      · subst e
        rw [upd_same] at h; exact absurd h h5
      · rw [upd_ne _ _ e] at h; exact h
  have gone : ∀ {t : St} (k : Nat) (f : Fds) (c : CPc), t.pp = s.pp → t.cp = upd s.cp k c → t.rfd = s.rfd →
      (∀ j, j ≠ k → t.chd j = s.chd j) → s.cp k ≠ .unborn → c = .err ∨ c = .closeW ∨ c = .exit ∨ c = .exited ∨ c = .ended → InvK fds m t := by
    intro t k f c h1 h2 h3 h4 h5 h6
    refine K.same (fun i h => .inl ⟨by rw [h3], ?_⟩) (fun i h => by rw [h1] at h; exact h) (fun i h => ?_)
    · rw [h1, h2] at h
      by_cases e : i = k
      · subst e; exact .inr (.inr h5)
      · rw [upd_ne _ _ e] at h; exact h
    · by_cases e : i = k
      · subst e
        rw [h1, h2, upd_same] at h
        rcases h with h | h | h | h | h
        · rw [h] at h6; simp at h6
        · rw [h] at h6; simp at h6
        · rw [h] at h6; simp at h6
        · rw [h] at h6; simp at h6
        · exact absurd (K.idle i h) h5
      · exact ⟨h4 i e, by rw [h2, upd_ne _ _ e]⟩
  cases h with
  | pipe k r w hk hr hw hrw =>
    have hfr : fds r = none := by
      cases hf : fds r with
      | none => rfl
      | some x => have := P.old r (by rw [hf]; simp); rw [hr, hf] at this; cases this
    refine K.same (fun i h => ?_) (fun i h => ?_) (fun i _ => ⟨rfl, rfl⟩)
    · by_cases e : i = k
      · subst e; right; simp only [upd_same]; exact hfr
      · left; simp only [upd_ne _ _ e] at h; exact ⟨upd_ne _ _ e, h⟩
    · by_cases e : i = k
      · subst e; simp [upd_same] at h
      · simp only [upd_ne _ _ e] at h; exact h
  | pipeFails k hk => exact par k .refused rfl rfl rfl rfl (by simp) (by simp) (by simp)
  | fcntlFails k hk => exact par k .refused rfl rfl rfl rfl (by simp) (by simp) (by simp)
  | forkFails k hk => exact par k .refused rfl rfl rfl rfl (by simp) (by simp) (by simp)
  | fcntl k hk => exact par k .ready rfl rfl rfl rfl (by simp) (fun _ => hk) (by simp)
  | parentClose k hk => exact par k .read rfl rfl rfl rfl (by simp) (by simp) (by simp)
  | parentRead k hk _ => exact par k (.done false) rfl rfl rfl rfl (by simp) (by simp) (by simp)
  | parentEof k hk _ _ => exact par k (.done true) rfl rfl rfl rfl (by simp) (by simp) (by simp)
  | interrupted k hk => exact par k .cut rfl rfl rfl rfl (by simp) (by simp) (by simp)
  | execFails k hk => exact gone k (s.chd k) .err rfl rfl rfl (fun _ _ => rfl) (by rw [hk]; simp) (by simp)
  | write k hk => exact gone k (s.chd k) .closeW rfl rfl rfl (fun _ _ => rfl) (by rw [hk]; simp) (by simp)
  | killed k hk _ => exact gone k (s.chd k) .exited rfl rfl rfl (fun _ e => upd_ne _ _ e) (by rw [hk]; simp) (by simp)
  | childCloseW k hk => exact gone k (s.chd k) .exit rfl rfl rfl (fun _ e => upd_ne _ _ e) (by rw [hk]; simp) (by simp)
  | exit k hk => exact gone k (s.chd k) .exited rfl rfl rfl (fun _ e => upd_ne _ _ e) (by rw [hk]; simp) (by simp)
  | ends k hk => exact gone k (s.chd k) .ended rfl rfl rfl (fun _ e => upd_ne _ _ e) (by rw [hk]; simp) (by simp)
  | fork k hk =>
    constructor <;> intro i <;> by_cases e : i = k
    · subst e; simp [upd_same]
    · simp only [upd_ne _ _ e]; exact K.idle i
    · subst e; intro _; exact K.free i (.inr (.inl hk))
    · simp only [upd_ne _ _ e]; exact K.free i
    · subst e; intro fd _ hf; simp only [upd_same]; exact P.old fd hf
    · simp only [upd_ne _ _ e]; exact K.begin i
    · subst e; simp [upd_same]
    · simp only [upd_ne _ _ e]; exact K.exec i
    · subst e; simp [upd_same]
    · simp only [upd_ne _ _ e]; exact K.run i
    · subst e; simp [upd_same]
    · simp only [upd_ne _ _ e]; exact K.closed i
    · subst e; simp [upd_same]
    · simp only [upd_ne _ _ e]; exact K.flag i
  | closeR k hk =>
    have hfr := K.free k (.inr (.inr (by rw [hk]; simp)))
    constructor <;> intro i <;> by_cases e : i = k
    · subst e; intro h; have := K.idle i h; rw [hk] at this; cases this
    · simp only [upd_ne _ _ e]; exact K.idle i
    · subst e; intro _; exact hfr
    · simp only [upd_ne _ _ e]; exact K.free i
    · subst e
      intro fd _ hf
      simp only [upd_same]
      rw [upd_ne _ _ (by rintro rfl; exact hf hfr)]
      exact K.begin i fd (.inl hk) hf
    · simp only [upd_ne _ _ e]; exact K.begin i
    · subst e; simp [upd_same]
    · simp only [upd_ne _ _ e]; exact K.exec i
    · subst e; simp [upd_same]
    · simp only [upd_ne _ _ e]; exact K.run i
    · subst e; simp [upd_same]
    · simp only [upd_ne _ _ e]; exact K.closed i
    · subst e; simp [upd_same]
    · simp only [upd_ne _ _ e]; exact K.flag i
  | closeFds k hk =>
    have hfr := K.free k (.inr (.inr (by rw [hk]; simp)))
    constructor <;> intro i <;> by_cases e : i = k
    · subst e; intro h; have := K.idle i h; rw [hk] at this; cases this
    · simp only [upd_ne _ _ e]; exact K.idle i
    · subst e; intro _; exact hfr
    · simp only [upd_ne _ _ e]; exact K.free i
    · subst e; simp [upd_same]
    · simp only [upd_ne _ _ e]; exact K.begin i
    · subst e
      intro fd _ hf
      simp only [upd_same]
      rw [K.begin i fd (.inr hk) hf]
    · simp only [upd_ne _ _ e]; exact K.exec i
    · subst e; simp [upd_same]
    · simp only [upd_ne _ _ e]; exact K.run i
    · subst e
      intro fd _ h1 h2
      simp only [upd_same, if_pos (show 3 ≤ fd ∧ fd < m i from ⟨h1, h2⟩)]
    · simp only [upd_ne _ _ e]; exact K.closed i
    · subst e; simp [upd_same]
    · simp only [upd_ne _ _ e]; exact K.flag i
  | exec k hk =>
    have hfr := K.free k (.inr (.inr (by rw [hk]; simp)))
    constructor <;> intro i <;> by_cases e : i = k
    · subst e; intro h; have := K.idle i h; rw [hk] at this; cases this
    · simp only [upd_ne _ _ e]; exact K.idle i
    · subst e; intro _; exact hfr
    · simp only [upd_ne _ _ e]; exact K.free i
    · subst e; simp [upd_same]
    · simp only [upd_ne _ _ e]; exact K.begin i
    · subst e; simp [upd_same]
    · simp only [upd_ne _ _ e]; exact K.exec i
    · subst e
      intro fd _ hf
      simp only [upd_same]
      rw [K.exec i fd hk hf]
    · simp only [upd_ne _ _ e]; exact K.run i
    · subst e
      intro fd _ h1 h2
      simp only [upd_same]
      rw [K.closed i fd (.inl hk) h1 h2]
      rfl
    · simp only [upd_ne _ _ e]; exact K.closed i
    · subst e
      intro fd p _ hp
      simp only [upd_same, Option.filter_eq_some_iff] at hp
      simpa using hp.2
    · simp only [upd_ne _ _ e]; exact K.flag i

theorem invK {fds : Fds} (hc : Clean fds) {m : Nat → Nat} {s : St} (h : Steps m (St.start fds) s) : InvK fds m s := by
  induction h with
  | refl => constructor <;> simp [St.start]
  | tail hst st ih => exact InvK.step (inv hc hst) ih st

/-- C149: a program that runs has, of the descriptors the process had before the calls, exactly those that are not marked FD_CLOEXEC and are
below 3 or not below `maxFd`, as they were; nothing from 3 below `maxFd` is open, and nothing that is open is marked. -/
theorem C149_inherits {fds : Fds} (hc : Clean fds) {m : Nat → Nat} {s : St} (h : Steps m (St.start fds) s) {i : Nat} (hi : s.cp i = .running) :
    (∀ fd o b, fds fd = some (o, b) → (s.chd i fd = some (o, b) ↔ b = false ∧ (fd < 3 ∨ m i ≤ fd)) ∧ (s.chd i fd = none ∨ s.chd i fd = some (o, b))) ∧
    (∀ fd, 3 ≤ fd → fd < m i → s.chd i fd = none) ∧ (∀ fd o, s.chd i fd ≠ some (o, true)) := by
  have K := invK hc h
  refine ⟨fun fd o b hf => ?_, fun fd h1 h2 => K.closed i fd (.inr hi) h1 h2, fun fd o he => by have := K.flag i fd _ hi he; cases this⟩
  rw [K.run i fd hi (by rw [hf]; simp), hf]
  by_cases h1 : 3 ≤ fd ∧ fd < m i
  · rw [if_pos h1]
    simp
    omega
  · rw [if_neg h1]
    cases b
    · simp [Option.filter]
      omega
    · simp [Option.filter]

/-! ### Waiting -/

/-- No call is between `pipe` and `fcntl` when another one forks. -/
def Orderly (s t : St) : Prop := (∃ i, s.cp i = .unborn ∧ t.cp i ≠ .unborn) → ∀ j, s.pp j ≠ .piped

/-- Executions in which that is so. -/
inductive OSteps (m : Nat → Nat) : St → St → Prop where
  | refl {s} : OSteps m s s
  | tail {s t u} : OSteps m s t → Step m t u → Orderly t u → OSteps m s u

theorem OSteps.steps {m : Nat → Nat} {s t : St} (h : OSteps m s t) : Steps m s t := by
  induction h with
  | refl => exact .refl
  | tail _ st _ ih => exact .tail ih st

/-- What the tables of the children have of the pipes. -/
structure InvQ (s : St) : Prop where
  born : ∀ i, s.cp i = .unborn ↔ before (s.pp i) = true
  flag : ∀ j fd i b, s.chd j fd = some (.pipeW i, b) → b = true
  quiet : ∀ j fd i b, (s.cp j = .unborn ∨ s.cp j = .exited ∨ s.cp j = .ended ∨ s.cp j = .running) → s.chd j fd ≠ some (.pipeW i, b)

theorem InvQ.one {s t : St} (Q : InvQ s) (i : Nat) (hpp : ∀ j, j ≠ i → t.pp j = s.pp j) (hcp : ∀ j, j ≠ i → t.cp j = s.cp j)
    (hch : ∀ j, j ≠ i → t.chd j = s.chd j) (h1 : t.cp i = .unborn ↔ before (t.pp i) = true)
    (h2 : ∀ fd k b, t.chd i fd = some (.pipeW k, b) → b = true)
    (h3 : ∀ fd k b, (t.cp i = .unborn ∨ t.cp i = .exited ∨ t.cp i = .ended ∨ t.cp i = .running) → t.chd i fd ≠ some (.pipeW k, b)) : InvQ t where
  born := fun j => by
    by_cases hj : j = i
    · rw [hj]; exact h1
    · rw [hpp j hj, hcp j hj]; exact Q.born j
  flag := fun j => by
    by_cases hj : j = i
    · rw [hj]; exact h2
    · rw [hch j hj]; exact Q.flag j
  quiet := fun j fd k b => by
    by_cases hj : j = i
    · rw [hj]; exact h3 fd k b
    · rw [hch j hj, hcp j hj]; exact Q.quiet j fd k b

theorem InvQ.step {fds : Fds} {m : Nat → Nat} {s t : St} (P : InvP fds s) (Q : InvQ s) (h : Step m s t) (ho : Orderly s t) : InvQ t := by
  cases h with
  | pipe i r w hi hr hw hrw =>
    have b := Q.born i
    refine Q.one i (fun j hj => upd_ne _ _ hj) (fun _ _ => rfl) (fun _ _ => rfl) ?_ (Q.flag i) (Q.quiet i)
    simp_all [upd_same, before]
  | fcntl i hi =>
    have b := Q.born i
    refine Q.one i (fun j hj => upd_ne _ _ hj) (fun _ _ => rfl) (fun _ _ => rfl) ?_ (Q.flag i) (Q.quiet i)
    simp_all [upd_same, before]
  | fork i hi =>
    have b := Q.born i
    rw [hi] at b
    have hn := ho ⟨i, b.2 rfl, by simp [upd_same]⟩
    refine Q.one i (fun j hj => upd_ne _ _ hj) (fun j hj => upd_ne _ _ hj) (fun j hj => upd_ne _ _ hj) ?_ ?_ ?_
    · simp [upd_same, before]
    · intro fd k b e
      simp only [upd_same] at e
      obtain ⟨e1, e2⟩ := P.wOnly fd k b e
      have := P.w k e2
      rw [← e1, e] at this
      injection this with this
      injection this with _ this
      rw [this]
      simp [hn k]
    · intro fd k b hx
      simp [upd_same] at hx
  | parentClose i hi =>
    have b := Q.born i
    refine Q.one i (fun j hj => upd_ne _ _ hj) (fun _ _ => rfl) (fun _ _ => rfl) ?_ (Q.flag i) (Q.quiet i)
    simp_all [upd_same, before]
  | parentRead i hi =>
    have b := Q.born i
    refine Q.one i (fun j hj => upd_ne _ _ hj) (fun _ _ => rfl) (fun _ _ => rfl) ?_ (Q.flag i) (Q.quiet i)
    simp_all [upd_same, before]
  | parentEof i hi =>
    have b := Q.born i
    refine Q.one i (fun j hj => upd_ne _ _ hj) (fun _ _ => rfl) (fun _ _ => rfl) ?_ (Q.flag i) (Q.quiet i)
    simp_all [upd_same, before]
  | pipeFails i hi =>
    have b := Q.born i
    refine Q.one i (fun j hj => upd_ne _ _ hj) (fun _ _ => rfl) (fun _ _ => rfl) ?_ (Q.flag i) (Q.quiet i)
    simp_all [upd_same, before]
  | fcntlFails i hi =>
    have b := Q.born i
    refine Q.one i (fun j hj => upd_ne _ _ hj) (fun _ _ => rfl) (fun _ _ => rfl) ?_ (Q.flag i) (Q.quiet i)
    simp_all [upd_same, before]
  | forkFails i hi =>
    have b := Q.born i
    refine Q.one i (fun j hj => upd_ne _ _ hj) (fun _ _ => rfl) (fun _ _ => rfl) ?_ (Q.flag i) (Q.quiet i)
    simp_all [upd_same, before]
  | interrupted i hi =>
    have b := Q.born i
    refine Q.one i (fun j hj => upd_ne _ _ hj) (fun _ _ => rfl) (fun _ _ => rfl) ?_ (Q.flag i) (Q.quiet i)
    simp_all [upd_same, before]
  | killed i hi hp =>
    have b := Q.born i
    refine Q.one i (fun _ _ => rfl) (fun j hj => upd_ne _ _ hj) (fun j hj => upd_ne _ _ hj) (by simp_all [upd_same]) (by simp [upd_same]) (by simp [upd_same])
  | closeR i hi =>
    have b := Q.born i
    refine Q.one i (fun _ _ => rfl) (fun j hj => upd_ne _ _ hj) (fun j hj => upd_ne _ _ hj) (by simp_all [upd_same]) ?_ (by simp [upd_same])
    intro fd k b e
    simp only [upd_same] at e
    unfold upd at e
    split at e
    · cases e
    · exact Q.flag i fd k b e
  | closeFds i hi =>
    have b := Q.born i
    refine Q.one i (fun _ _ => rfl) (fun j hj => upd_ne _ _ hj) (fun j hj => upd_ne _ _ hj) (by simp_all [upd_same]) ?_ (by simp [upd_same])
    intro fd k b e
    simp only [upd_same] at e
    split at e
    · cases e
    · exact Q.flag i fd k b e
  | exec i hi =>
    have b := Q.born i
    have key : ∀ fd k b, Option.filter (fun p => !p.2) (s.chd i fd) ≠ some (.pipeW k, b) := by
      intro fd k b e
      rw [Option.filter_eq_some_iff] at e
      rw [Q.flag i fd k b e.1] at e
      simp at e
    refine Q.one i (fun _ _ => rfl) (fun j hj => upd_ne _ _ hj) (fun j hj => upd_ne _ _ hj) (by simp_all [upd_same]) ?_ ?_
    · intro fd k b e
      simp only [upd_same] at e
      exact absurd e (key fd k b)
    · intro fd k b _
      simp only [upd_same]
      exact key fd k b
  | execFails i hi =>
    have b := Q.born i
    refine Q.one i (fun _ _ => rfl) (fun j hj => upd_ne _ _ hj) (fun _ _ => rfl) (by simp_all [upd_same]) (Q.flag i) (by simp [upd_same])
  | write i hi =>
    have b := Q.born i
    refine Q.one i (fun _ _ => rfl) (fun j hj => upd_ne _ _ hj) (fun _ _ => rfl) (by simp_all [upd_same]) (Q.flag i) (by simp [upd_same])
  | childCloseW i hi =>
    have b := Q.born i
    refine Q.one i (fun _ _ => rfl) (fun j hj => upd_ne _ _ hj) (fun j hj => upd_ne _ _ hj) (by simp_all [upd_same]) ?_ (by simp [upd_same])
    intro fd k b e
    simp only [upd_same] at e
    unfold upd at e
    split at e
    · cases e
    · exact Q.flag i fd k b e
  | exit i hi =>
    have b := Q.born i
    refine Q.one i (fun _ _ => rfl) (fun j hj => upd_ne _ _ hj) (fun j hj => upd_ne _ _ hj) (by simp_all [upd_same]) (by simp [upd_same]) (by simp [upd_same])
  | ends i hi =>
    have b := Q.born i
    refine Q.one i (fun _ _ => rfl) (fun j hj => upd_ne _ _ hj) (fun j hj => upd_ne _ _ hj) (by simp_all [upd_same]) (by simp [upd_same]) (by simp [upd_same])

theorem invQ {fds : Fds} (hc : Clean fds) {m : Nat → Nat} {s : St} (h : OSteps m (St.start fds) s) : InvQ s := by
  induction h with
  | refl => constructor <;> simp [St.start, before]
  | tail hst st ho ih => exact InvQ.step (inv hc hst.steps) ih st ho

/-- What a thread still has to do. -/
def workP : PPc → Nat
  | .idle => 6
  | .piped => 5
  | .ready => 4
  | .closeW => 3
  | .read => 2
  | .done _ | .refused | .cut => 0

/-- What a child still has to do; the program it becomes is not counted. -/
def workC : CPc → Nat
  | .unborn => 7
  | .closeR => 6
  | .closeFds => 5
  | .exec => 4
  | .err => 3
  | .closeW => 2
  | .exit => 1
  | _ => 0

/-- The work of call `i`. -/
def work (s : St) (i : Nat) : Nat := workP (s.pp i) + workC (s.cp i)

/-- C149: if no thread forks between `pipe` and `fcntl` of another one, calls do not wait for programs: as long as a call that has begun
has not returned, some call that has begun can take a step, in its thread or its child, that keeps this order and lessens its work. -/
theorem C149_returns {fds : Fds} (hc : Clean fds) {m : Nat → Nat} {s : St} (h : OSteps m (St.start fds) s) {i : Nat} (hi : s.pp i ≠ .idle)
    (hd : result (s.pp i) = none) : ∃ j t, Step m s t ∧ Orderly s t ∧ s.pp j ≠ .idle ∧ work t j < work s j := by
  have P := inv hc h.steps
  have Q := invQ hc h
  have calm : ∀ {t : St}, (∀ k, s.cp k = .unborn → t.cp k = .unborn) → Orderly s t := fun hk ⟨k, h1, h2⟩ => absurd (hk k h1) h2
  have calm1 : ∀ {t : St} (j : Nat), s.cp j ≠ .unborn → (∀ k, k ≠ j → t.cp k = s.cp k) → Orderly s t := by
    intro t j hj ht
    refine calm fun k hk => ?_
    have : k ≠ j := by rintro rfl; exact hj hk
    rw [ht k this, hk]
  by_cases hp : ∃ k, s.pp k = .piped
  · obtain ⟨k, hk⟩ := hp
    exact ⟨k, _, .fcntl k hk, calm (fun _ e => e), by rw [hk]; simp, by simp [work, upd_same, hk, workP]⟩
  · have hnp : ∀ k, s.pp k ≠ .piped := fun k e => hp ⟨k, e⟩
    have child : ∀ j, s.cp j ≠ .unborn → s.cp j ≠ .exited → s.cp j ≠ .ended → s.cp j ≠ .running →
        ∃ t, Step m s t ∧ Orderly s t ∧ s.pp j ≠ .idle ∧ work t j < work s j := by
      intro j h1 h2 h3 h4
      have hidle : s.pp j ≠ .idle := by
        intro e
        exact h1 ((Q.born j).2 (by rw [e]; rfl))
      cases hcp : s.cp j with
      | unborn => exact absurd hcp h1
      | exited => exact absurd hcp h2
      | ended => exact absurd hcp h3
      | running => exact absurd hcp h4
      | closeR => exact ⟨_, .closeR j hcp, calm1 j h1 (fun k hk => upd_ne _ _ hk), hidle, by simp [work, upd_same, hcp, workC]⟩
      | closeFds => exact ⟨_, .closeFds j hcp, calm1 j h1 (fun k hk => upd_ne _ _ hk), hidle, by simp [work, upd_same, hcp, workC]⟩
      | exec => exact ⟨_, .exec j hcp, calm1 j h1 (fun k hk => upd_ne _ _ hk), hidle, by simp [work, upd_same, hcp, workC]⟩
      | err => exact ⟨_, .write j hcp, calm1 j h1 (fun k hk => upd_ne _ _ hk), hidle, by simp [work, upd_same, hcp, workC]⟩
      | closeW => exact ⟨_, .childCloseW j hcp, calm1 j h1 (fun k hk => upd_ne _ _ hk), hidle, by simp [work, upd_same, hcp, workC]⟩
      | exit => exact ⟨_, .exit j hcp, calm1 j h1 (fun k hk => upd_ne _ _ hk), hidle, by simp [work, upd_same, hcp, workC]⟩
    cases hpp : s.pp i with
    | idle => exact absurd hpp hi
    | piped => exact absurd hpp (hnp i)
    | done b => rw [hpp] at hd; cases hd
    | refused => rw [hpp] at hd; cases hd
    | cut => rw [hpp] at hd; cases hd
    | ready =>
      have hu := (Q.born i).2 (by rw [hpp]; rfl)
      exact ⟨i, _, .fork i hpp, fun _ => hnp, hi, by simp [work, upd_same, hpp, hu, workP, workC]⟩
    | closeW => exact ⟨i, _, .parentClose i hpp, calm (fun _ e => e), hi, by simp [work, upd_same, hpp, workP]⟩
    | read =>
      by_cases hb : 0 < s.buf i
      · exact ⟨i, _, .parentRead i hpp hb, calm (fun _ e => e), hi, by simp [work, upd_same, hpp, workP]⟩
      · by_cases hn : NoWriter s i
        · exact ⟨i, _, .parentEof i hpp (by omega) hn, calm (fun _ e => e), hi, by simp [work, upd_same, hpp, workP]⟩
        · have hpar : ∀ fd b, s.par fd ≠ some (.pipeW i, b) := by
            intro fd b e
            have := (P.wOnly fd i b e).2
            rw [hpp] at this
            cases this
          have : ∃ j fd b, s.chd j fd = some (.pipeW i, b) := by
            apply Classical.byContradiction
            intro hx
            exact hn ⟨hpar, fun j fd b e => hx ⟨j, fd, b, e⟩⟩
          obtain ⟨j, fd, b, e⟩ := this
          have hq := Q.quiet j fd i b
          obtain ⟨t, ht⟩ := child j (fun x => hq (Or.inl x) e) (fun x => hq (Or.inr (Or.inl x)) e) (fun x => hq (Or.inr (Or.inr (Or.inl x))) e)
            (fun x => hq (Or.inr (Or.inr (Or.inr x))) e)
          exact ⟨j, t, ht⟩

/-- C149: every step lessens the work of one call, of which there is at most 13, and leaves the others theirs; only the end of a program
changes no work.  With `C149_returns`: of any finite number of calls that have begun all return. -/
theorem C149_work {fds : Fds} (hc : Clean fds) {m : Nat → Nat} {s t : St} (h : OSteps m (St.start fds) s) (st : Step m s t) :
    (∀ i, work s i ≤ 13) ∧
    ((∃ j, work t j < work s j ∧ ∀ k, k ≠ j → work t k = work s k) ∨
      (∃ j, s.cp j = .running ∧ t.cp j = .ended ∧ ∀ k, work t k = work s k)) := by
  have Q := invQ hc h
  refine ⟨fun i => ?_, ?_⟩
  · have hP : workP (s.pp i) ≤ 6 := by cases s.pp i <;> simp [workP]
    have hC : workC (s.cp i) ≤ 7 := by cases s.cp i <;> simp [workC]
    unfold work
    omega
  · cases st with
    | pipe i r w hi hr hw hrw => exact Or.inl ⟨i, by simp [work, upd_same, hi, workP], fun k hk => by simp [work, upd_ne _ _ hk]⟩
    | fcntl i hi => exact Or.inl ⟨i, by simp [work, upd_same, hi, workP], fun k hk => by simp [work, upd_ne _ _ hk]⟩
    | fork i hi =>
      have hu := (Q.born i).2 (by rw [hi]; rfl)
      exact Or.inl ⟨i, by simp [work, upd_same, hi, hu, workP, workC], fun k hk => by simp [work, upd_ne _ _ hk]⟩
    | parentClose i hi => exact Or.inl ⟨i, by simp [work, upd_same, hi, workP], fun k hk => by simp [work, upd_ne _ _ hk]⟩
    | parentRead i hi => exact Or.inl ⟨i, by simp [work, upd_same, hi, workP], fun k hk => by simp [work, upd_ne _ _ hk]⟩
    | parentEof i hi => exact Or.inl ⟨i, by simp [work, upd_same, hi, workP], fun k hk => by simp [work, upd_ne _ _ hk]⟩
    | pipeFails i hi => exact Or.inl ⟨i, by simp [work, upd_same, hi, workP], fun k hk => by simp [work, upd_ne _ _ hk]⟩
    | fcntlFails i hi => exact Or.inl ⟨i, by simp [work, upd_same, hi, workP], fun k hk => by simp [work, upd_ne _ _ hk]⟩
    | forkFails i hi => exact Or.inl ⟨i, by simp [work, upd_same, hi, workP], fun k hk => by simp [work, upd_ne _ _ hk]⟩
    | interrupted i hi => exact Or.inl ⟨i, by simp [work, upd_same, hi, workP], fun k hk => by simp [work, upd_ne _ _ hk]⟩
    | killed i hi hp => exact Or.inl ⟨i, by simp [work, upd_same, hi, workC], fun k hk => by simp [work, upd_ne _ _ hk]⟩
    | closeR i hi => exact Or.inl ⟨i, by simp [work, upd_same, hi, workC], fun k hk => by simp [work, upd_ne _ _ hk]⟩
    | closeFds i hi => exact Or.inl ⟨i, by simp [work, upd_same, hi, workC], fun k hk => by simp [work, upd_ne _ _ hk]⟩
    | exec i hi => exact Or.inl ⟨i, by simp [work, upd_same, hi, workC], fun k hk => by simp [work, upd_ne _ _ hk]⟩
    | execFails i hi => exact Or.inl ⟨i, by simp [work, upd_same, hi, workC], fun k hk => by simp [work, upd_ne _ _ hk]⟩
    | write i hi => exact Or.inl ⟨i, by simp [work, upd_same, hi, workC], fun k hk => by simp [work, upd_ne _ _ hk]⟩
    | childCloseW i hi => exact Or.inl ⟨i, by simp [work, upd_same, hi, workC], fun k hk => by simp [work, upd_ne _ _ hk]⟩
    | exit i hi => exact Or.inl ⟨i, by simp [work, upd_same, hi, workC], fun k hk => by simp [work, upd_ne _ _ hk]⟩
    | ends i hi =>
      refine Or.inr ⟨i, hi, upd_same _ _ _, fun k => ?_⟩
      by_cases hk : k = i
      · subst hk; simp [work, upd_same, hi, workC]
      · simp [work, upd_ne _ _ hk]

/-- The caller has its standard descriptors and nothing else. -/
def caller : Fds := fun fd => if fd < 3 then some (.other, false) else none

theorem caller_clean : Clean caller := by
  intro fd i b
  unfold caller
  split <;> simp

/-- Two threads: the second forks between `pipe` and `fcntl` of the first. -/
theorem raced : ∃ s, Steps (fun _ => 0) (St.start caller) s ∧ s.pp 0 = .read ∧ s.pp 1 = .done true ∧ s.cp 0 = .running ∧ s.cp 1 = .running ∧
    s.wfd 0 = 4 ∧ s.chd 1 4 = some (.pipeW 0, false) ∧ s.chd 1 3 = some (.pipeR 0, false) := by
  refine ⟨_, .tail (.tail (.tail (.tail (.tail (.tail (.tail (.tail (.tail (.tail (.tail (.tail (.tail (.tail (.tail .refl
    (.pipe 0 3 4 rfl rfl rfl (by decide))) (.pipe 1 5 6 rfl rfl rfl (by decide))) (.fcntl 1 rfl)) (.fork 1 rfl)) (.fcntl 0 rfl)) (.fork 0 rfl))
    (.closeR 1 rfl)) (.closeFds 1 rfl)) (.exec 1 rfl)) (.closeR 0 rfl)) (.closeFds 0 rfl)) (.exec 0 rfl)) (.parentClose 1 rfl)) (.parentClose 0 rfl))
    (.parentEof 1 rfl rfl ⟨?_, ?_⟩), rfl, rfl, rfl, rfl, rfl, rfl, rfl⟩
  · intro fd b
    simp only [St.start, upd, setCloexec, caller]
    simp
    intro _ _
    repeat' split
    all_goals simp
  · intro j fd b
    simp only [St.start, upd, setCloexec, caller]
    by_cases hj0 : j = 0
    · subst hj0
      simp only [if_true, Nat.reduceEqDiff, if_false, upd, caller]
      repeat' split
      all_goals simp_all [upd, caller]
    · by_cases hj1 : j = 1
      · subst hj1
        simp only [if_true, Nat.reduceEqDiff, if_false, upd, caller]
        repeat' split
        all_goals simp_all [upd, caller]
      · simp [hj0, hj1]

/-- A running program keeps its descriptors. -/
theorem program_keeps {m : Nat → Nat} {s t : St} (st : Step m s t) {j : Nat} (ht : t.cp j = .running) (hs : s.cp j = .running) : t.chd j = s.chd j := by
  have key : ∀ {k : Nat} {f : Fds}, s.cp k ≠ .running → upd s.chd k f j = s.chd j := by
    intro k f hk
    rw [upd_ne]
    rintro rfl
    exact hk hs
  cases st with
  | fork k hk =>
    by_cases e : j = k
    · subst e
      simp [upd_same] at ht
    · exact upd_ne _ _ e
  | closeR k hk => exact key (by rw [hk]; simp)
  | closeFds k hk => exact key (by rw [hk]; simp)
  | exec k hk => exact key (by rw [hk]; simp)
  | childCloseW k hk => exact key (by rw [hk]; simp)
  | exit k hk => exact key (by rw [hk]; simp)
  | killed k hk => exact key (by rw [hk]; simp)
  | ends k hk =>
    by_cases e : j = k
    · subst e
      simp [upd_same] at ht
    · exact upd_ne _ _ e
  | _ => rfl

theorem started_keeps {fds : Fds} (hc : Clean fds) {m : Nat → Nat} {s t : St} (h : Steps m (St.start fds) s) (hm : Spares m s) (st : Step m s t)
    {j : Nat} (hs : started (s.cp j) = true) : started (t.cp j) = true ∧ (s.cp j = .ended → t.cp j = .ended) := by
  have B := (invC hc h hm).born
  have key : ∀ {k : Nat} {c : CPc}, started (s.cp k) = false → started (upd s.cp k c j) = true ∧ (s.cp j = .ended → upd s.cp k c j = .ended) := by
    intro k c hk
    rw [upd_ne]
    · exact ⟨hs, fun e => e⟩
    · rintro rfl
      rw [hs] at hk
      cases hk
  cases st with
  | fork k hk => exact key (by rw [(B k).2 (by rw [hk]; rfl)]; rfl)
  | closeR k hk => exact key (by rw [hk]; rfl)
  | closeFds k hk => exact key (by rw [hk]; rfl)
  | exec k hk => exact key (by rw [hk]; rfl)
  | execFails k hk => exact key (by rw [hk]; rfl)
  | write k hk => exact key (by rw [hk]; rfl)
  | childCloseW k hk => exact key (by rw [hk]; rfl)
  | exit k hk => exact key (by rw [hk]; rfl)
  | killed k hk => exact key (by rw [hk]; rfl)
  | ends k hk =>
    by_cases e : j = k
    · subst e
      simp [upd_same, started]
    · simp only [upd_ne _ _ e]
      exact ⟨hs, fun x => x⟩
  | _ => exact ⟨hs, fun x => x⟩

/-- C149, finding: otherwise a call can wait for a program that has nothing to do with it.  Two threads start programs, the second forks
between `pipe` and `fcntl` of the first, both programs run: the first call does not return before the program of the second has ended, if
no signal interrupts it; that program also has both ends of the pipe of the first open. -/
theorem C149_finding_waits : ∃ s, Steps (fun _ => 0) (St.start caller) s ∧ s.cp 0 = .running ∧ s.cp 1 = .running ∧ s.pp 1 = .done true ∧
    s.chd 1 4 = some (.pipeW 0, false) ∧ s.chd 1 3 = some (.pipeR 0, false) ∧
    ∀ t, Steps (fun _ => 0) s t → t.cp 1 = .running → t.pp 0 = .read ∨ t.pp 0 = .cut := by
  obtain ⟨s, hs, h1, h2, h3, h4, h5, h6, h7⟩ := raced
  refine ⟨s, hs, h3, h4, h2, h6, h7, ?_⟩
  have sp : ∀ t, Spares (fun _ => 0) t := fun t i _ => Nat.zero_le _
  suffices H : ∀ t, Steps (fun _ => 0) s t → started (t.cp 0) = true ∧ started (t.cp 1) = true ∧
      (t.cp 1 = .running → (t.pp 0 = .read ∨ t.pp 0 = .cut) ∧ t.chd 1 = s.chd 1) from fun t ht hr => ((H t ht).2.2 hr).1
  intro t ht
  induction ht with
  | refl => exact ⟨by rw [h3]; rfl, by rw [h4]; rfl, fun _ => ⟨Or.inl h1, rfl⟩⟩
  | @tail t u hst st ih =>
    obtain ⟨i1, i2, i3⟩ := ih
    have ht := Steps.trans hs hst
    have C := invC caller_clean ht (sp t)
    have k0 := started_keeps caller_clean ht (sp t) st i1
    have k1 := started_keeps caller_clean ht (sp t) st i2
    refine ⟨k0.1, k1.1, fun hr => ?_⟩
    have hr' : t.cp 1 = .running := by
      revert i2 k1
      cases hx : t.cp 1 with
      | running => intros; rfl
      | ended => intro _ k1; rw [k1.2 rfl] at hr; cases hr
      | _ => intro i2; simp [started] at i2
    obtain ⟨j1, j2⟩ := i3 hr'
    refine ⟨?_, (program_keeps st hr hr').trans j2⟩
    rcases j1 with j1 | j1
    · have hf : failed (t.cp 0) = false := by
        revert i1
        cases t.cp 0 <;> simp [started, failed]
      have hb := (C.zero 0 hf).1
      have hw : t.chd 1 4 = some (.pipeW 0, false) := by rw [j2]; exact h6
      have key : ∀ {k : Nat} {p : PPc}, t.pp k ≠ .read → upd t.pp k p 0 = .read ∨ upd t.pp k p 0 = .cut := by
        intro k p hk
        rw [upd_ne]
        · exact Or.inl j1
        · rintro rfl; exact hk j1
      cases st with
      | pipe k r w hk => exact key (by rw [hk]; simp)
      | pipeFails k hk => exact key (by rw [hk]; simp)
      | fcntl k hk => exact key (by rw [hk]; simp)
      | fcntlFails k hk => exact key (by rw [hk]; simp)
      | fork k hk => exact key (by rw [hk]; simp)
      | forkFails k hk => exact key (by rw [hk]; simp)
      | parentClose k hk => exact key (by rw [hk]; simp)
      | parentRead k hk hb' =>
        by_cases e : 0 = k
        · subst e; omega
        · exact Or.inl ((upd_ne _ _ e).trans j1)
      | parentEof k hk hb' hn =>
        by_cases e : 0 = k
        · subst e; exact absurd hw (hn.2 1 4 false)
        · exact Or.inl ((upd_ne _ _ e).trans j1)
      | interrupted k hk =>
        by_cases e : 0 = k
        · subst e; exact Or.inr (upd_same t.pp 0 _)
        · exact Or.inl ((upd_ne _ _ e).trans j1)
      | _ => exact Or.inl j1
    · exact Or.inr (done_keep (.tail .refl st) (by simp [result]) j1)

/-- A child that has failed stays so. -/
theorem exited_keeps {fds : Fds} (hc : Clean fds) {m : Nat → Nat} {s t : St} (h : Steps m (St.start fds) s) (hm : ∀ t, Spares m t) (ht : Steps m s t)
    {j : Nat} (hs : s.cp j = .exited) : t.cp j = .exited := by
  induction ht with
  | refl => exact hs
  | @tail t u hst st ih =>
    have B := (invC hc (Steps.trans h hst) (hm t)).born
    have key : ∀ {k : Nat} {c : CPc}, t.cp k ≠ .exited → upd t.cp k c j = .exited := by
      intro k c hk
      rw [upd_ne]
      · exact ih
      · rintro rfl; exact hk ih
    cases st with
    | fork k hk => exact key (by rw [(B k).2 (by rw [hk]; rfl)]; simp)
    | closeR k hk => exact key (by rw [hk]; simp)
    | closeFds k hk => exact key (by rw [hk]; simp)
    | exec k hk => exact key (by rw [hk]; simp)
    | execFails k hk => exact key (by rw [hk]; simp)
    | write k hk => exact key (by rw [hk]; simp)
    | killed k hk => exact key (by rw [hk]; simp)
    | childCloseW k hk => exact key (by rw [hk]; simp)
    | exit k hk => exact key (by rw [hk]; simp)
    | ends k hk => exact key (by rw [hk]; simp)
    | _ => exact ih

/-- C149, finding: a call that a signal interrupts returns `true` whether or not its program is ever started.  The handlers of
`QuitSignalHandler` are installed without `SA_RESTART`. -/
theorem C149_finding_signal : ∃ s, Steps (fun _ => 0) (St.start caller) s ∧ result (s.pp 0) = some true ∧
    ∀ t, Steps (fun _ => 0) s t → t.cp 0 = .exited := by
  refine ⟨_, .tail (.tail (.tail (.tail (.tail (.tail (.tail (.tail (.tail .refl
    (.pipe 0 3 4 rfl rfl rfl (by decide))) (.fcntl 0 rfl)) (.fork 0 rfl)) (.parentClose 0 rfl)) (.interrupted 0 rfl))
    (.closeR 0 rfl)) (.closeFds 0 rfl)) (.execFails 0 rfl)) (.killed 0 rfl rfl), rfl, fun t ht => ?_⟩
  refine exited_keeps caller_clean (.tail (.tail (.tail (.tail (.tail (.tail (.tail (.tail (.tail .refl
    (.pipe 0 3 4 rfl rfl rfl (by decide))) (.fcntl 0 rfl)) (.fork 0 rfl)) (.parentClose 0 rfl)) (.interrupted 0 rfl))
    (.closeR 0 rfl)) (.closeFds 0 rfl)) (.execFails 0 rfl)) (.killed 0 rfl rfl)) (fun t i _ => Nat.zero_le _) ht rfl

/-- The hypotheses of `C149_returns` hold in a state in which nothing has returned. -/
example : ∃ s, OSteps (fun _ => 0) (St.start caller) s ∧ s.pp 0 = .read ∧ s.pp 1 = .ready :=
  ⟨_, .tail (.tail (.tail (.tail (.tail (.tail .refl (.pipe 0 3 4 rfl rfl rfl (by decide)) (by rintro ⟨i, h1, h2⟩; exact absurd h1 h2))
    (.fcntl 0 rfl) (by rintro ⟨i, h1, h2⟩; exact absurd h1 h2)) (.fork 0 rfl) (by
      intro _ j
      simp only [St.start, upd]
      split <;> simp)) (.parentClose 0 rfl) (by rintro ⟨i, h1, h2⟩; exact absurd h1 h2))
    (.pipe 1 5 6 rfl rfl rfl (by decide)) (by rintro ⟨i, h1, h2⟩; exact absurd h1 h2)) (.fcntl 1 rfl) (by rintro ⟨i, h1, h2⟩; exact absurd h1 h2), rfl, rfl⟩

/-- The hypotheses of `C149_reports` hold where a call has returned. -/
example : ∃ s, Steps (fun _ => 0) (St.start caller) s ∧ Spares (fun _ => 0) s ∧ s.pp 1 = .done true := by
  obtain ⟨s, hs, _, h2, _⟩ := raced
  exact ⟨s, hs, fun _ _ => Nat.zero_le _, h2⟩

/-- The hypothesis of `C149_inherits` holds after `exec`, with descriptor 1 of the caller open in the program. -/
example : ∃ s, Steps (fun _ => 4) (St.start caller) s ∧ s.cp 0 = .running ∧ s.chd 0 1 = caller 1 ∧ caller 1 ≠ none :=
  ⟨_, .tail (.tail (.tail (.tail (.tail (.tail .refl (.pipe 0 3 4 rfl rfl rfl (by decide))) (.fcntl 0 rfl)) (.fork 0 rfl))
    (.closeR 0 rfl)) (.closeFds 0 rfl)) (.exec 0 rfl), rfl, rfl, by decide⟩

#print axioms C149_reports
#print axioms C149_descriptors
#print axioms C149_returns
#print axioms C149_inherits
#print axioms C149_work
#print axioms C149_finding_waits
#print axioms C149_finding_signal

end Verif.Props.ProcMany
