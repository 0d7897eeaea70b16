import Verif.Model.ProcMany
set_option linter.unusedSimpArgs false
namespace Verif.ProcMany
open Verif.Handle (upd)

/-- The thread has the write end open. -/
def hasW : PPc → Bool
  | .piped | .ready | .closeW => true
  | _ => false

/-- The thread has the read end open. -/
def hasR : PPc → Bool
  | .piped | .ready | .closeW | .read => true
  | _ => false

/-- The child is not born yet. -/
def before : PPc → Bool
  | .idle | .piped | .ready | .refused => true
  | _ => false

/-- The child has not come to `pipe.write` and has not become the program. -/
def early : CPc → Bool
  | .closeR | .closeFds | .exec | .err => true
  | _ => false

/-- The child failed and has told so. -/
def failed : CPc → Bool
  | .closeW | .exit | .exited => true
  | _ => false

/-- The program was started. -/
def started : CPc → Bool
  | .running | .ended => true
  | _ => false

theorem upd_same {A : Type} (f : Nat → A) (k : Nat) (a : A) : upd f k a k = a := by simp [upd]
theorem upd_comm {A : Type} (f : Nat → A) (j k : Nat) (a : A) : upd (upd f j a) k a = upd (upd f k a) j a := by
  funext i
  simp only [upd]
  split <;> split <;> rfl
theorem upd_ne {A : Type} (f : Nat → A) {k j : Nat} (a : A) (h : j ≠ k) : upd f k a j = f j := by simp [upd, h]

/-- The table of the process. -/
structure InvP (fds : Fds) (s : St) : Prop where
  w : ∀ i, hasW (s.pp i) = true → s.par (s.wfd i) = some (.pipeW i, decide (s.pp i ≠ .piped))
  r : ∀ i, hasR (s.pp i) = true → s.par (s.rfd i) = some (.pipeR i, false)
  wOnly : ∀ fd i b, s.par fd = some (.pipeW i, b) → fd = s.wfd i ∧ hasW (s.pp i) = true
  rOnly : ∀ fd i b, s.par fd = some (.pipeR i, b) → fd = s.rfd i ∧ hasR (s.pp i) = true
  old : ∀ fd, fds fd ≠ none → s.par fd = fds fd
  new : ∀ fd, fds fd = none → s.par fd = none ∨ ∃ i b, s.par fd = some (.pipeW i, b) ∨ s.par fd = some (.pipeR i, b)

/-- The caller's table has no pipe of these calls. -/
def Clean (fds : Fds) : Prop := ∀ fd i b, fds fd ≠ some (.pipeW i, b) ∧ fds fd ≠ some (.pipeR i, b)

theorem InvP.start {fds : Fds} (h : Clean fds) : InvP fds (St.start fds) where
  w := by intro i h; simp [St.start, hasW] at h
  r := by intro i h; simp [St.start, hasR] at h
  wOnly := fun fd i b e => absurd e (h fd i b).1
  rOnly := fun fd i b e => absurd e (h fd i b).2
  old := fun _ _ => rfl
  new := fun fd e => Or.inl e

/-- A thread that opens nothing and closes nothing. -/
theorem InvP.same {fds : Fds} {s t : St} (I : InvP fds s) (hp : t.par = s.par) (hr : t.rfd = s.rfd) (hw : t.wfd = s.wfd)
    (h1 : ∀ i, hasW (t.pp i) = hasW (s.pp i)) (h2 : ∀ i, hasR (t.pp i) = hasR (s.pp i)) (h3 : ∀ i, t.pp i = .piped ↔ s.pp i = .piped) : InvP fds t where
  w := by intro i h; rw [hp, hw, I.w i (by rw [← h1]; exact h)]; simp [h3]
  r := by intro i h; rw [hp, hr, I.r i (by rw [← h2]; exact h)]
  wOnly := by intro fd i b e; rw [hw, h1]; rw [hp] at e; exact I.wOnly fd i b e
  rOnly := by intro fd i b e; rw [hr, h2]; rw [hp] at e; exact I.rOnly fd i b e
  old := by rw [hp]; exact I.old
  new := by rw [hp]; exact I.new

/-- A thread closes one end of its pipe. -/
theorem InvP.close {fds : Fds} {s t : St} (hc : Clean fds) (I : InvP fds s) {i fd0 : Nat} {o : Obj} {b0 : Bool} (hfd : s.par fd0 = some (o, b0))
    (ho : o = .pipeW i ∨ o = .pipeR i)
    (hp : t.par = upd s.par fd0 none) (hr : t.rfd = s.rfd) (hw : t.wfd = s.wfd) (hpp : ∀ j, j ≠ i → t.pp j = s.pp j)
    (h1 : hasW (t.pp i) = (hasW (s.pp i) && decide (o ≠ .pipeW i))) (h2 : hasR (t.pp i) = (hasR (s.pp i) && decide (o ≠ .pipeR i)))
    (h3 : o = .pipeR i → hasW (t.pp i) = false) : InvP fds t where
  w := by
    intro j h
    by_cases hj : j = i
    · subst hj
      rcases ho with rfl | rfl
      · rw [h1] at h; simp at h
      · rw [h3 rfl] at h; cases h
    · rw [hpp j hj] at h ⊢
      have e := I.w j h
      rw [hp, hw, upd_ne, e]
      intro e2
      rw [e2, hfd] at e
      rcases ho with rfl | rfl
      · injection e with e; injection e with e; injection e with e; exact hj e.symm
      · injection e with e; injection e with e; cases e
  r := by
    intro j h
    by_cases hj : j = i
    · subst hj
      rcases ho with rfl | rfl
      · rw [h2] at h
        simp at h
        have e := I.r j h
        rw [hp, hr, upd_ne, e]
        intro e2
        rw [e2, hfd] at e
        injection e with e; injection e with e; cases e
      · rw [h2] at h; simp at h
    · rw [hpp j hj] at h
      have e := I.r j h
      rw [hp, hr, upd_ne, e]
      intro e2
      rw [e2, hfd] at e
      rcases ho with rfl | rfl
      · injection e with e; injection e with e; cases e
      · injection e with e; injection e with e; injection e with e; exact hj e.symm
  wOnly := by
    intro fd j b e
    rw [hp] at e
    by_cases hf : fd = fd0
    · rw [hf, upd_same] at e; cases e
    · rw [upd_ne _ _ hf] at e
      obtain ⟨e1, e2⟩ := I.wOnly fd j b e
      rw [hw]
      refine ⟨e1, ?_⟩
      by_cases hj : j = i
      · subst hj
        rw [h1, e2]
        rcases ho with rfl | rfl
        · exact absurd (e1.trans (I.wOnly fd0 j b0 hfd).1.symm) hf
        · simp
      · rw [hpp j hj]; exact e2
  rOnly := by
    intro fd j b e
    rw [hp] at e
    by_cases hf : fd = fd0
    · rw [hf, upd_same] at e; cases e
    · rw [upd_ne _ _ hf] at e
      obtain ⟨e1, e2⟩ := I.rOnly fd j b e
      rw [hr]
      refine ⟨e1, ?_⟩
      by_cases hj : j = i
      · subst hj
        rw [h2, e2]
        rcases ho with rfl | rfl
        · simp
        · exact absurd (e1.trans (I.rOnly fd0 j b0 hfd).1.symm) hf
      · rw [hpp j hj]; exact e2
  old := by
    intro fd e
    have e1 := I.old fd e
    rw [hp, upd_ne, e1]
    intro e2
    rw [e2, hfd] at e1
    rcases ho with rfl | rfl
    · exact (hc fd0 i b0).1 e1.symm
    · exact (hc fd0 i b0).2 e1.symm
  new := by
    intro fd e
    rw [hp]
    by_cases hf : fd = fd0
    · rw [hf, upd_same]; exact Or.inl rfl
    · rw [upd_ne _ _ hf]; exact I.new fd e

/-- A thread closes both ends of its pipe and gives up. -/
theorem InvP.closeBoth {fds : Fds} {s : St} (hc : Clean fds) (I : InvP fds s) {i : Nat} (h1 : hasW (s.pp i) = true) (h2 : hasR (s.pp i) = true) :
    InvP fds { s with par := upd (upd s.par (s.rfd i) none) (s.wfd i) none, pp := upd s.pp i .refused } := by
  have J : InvP fds { s with par := upd s.par (s.wfd i) none, pp := upd s.pp i .read } :=
    I.close hc (I.w i h1) (Or.inl rfl) rfl rfl rfl (fun j hj => upd_ne _ _ hj) (by simp [upd_same, hasW])
      (by rw [h2]; simp [upd_same, hasR]) (fun e => by cases e)
  refine J.close hc (J.r i (by simp [upd_same, hasR])) (Or.inr rfl) (upd_comm _ _ _ _) rfl rfl (fun j hj => ?_) (by simp [upd_same, hasW])
    (by simp [upd_same, hasR]) (fun _ => by simp [upd_same, hasW])
  simp only [upd_ne _ _ hj]

theorem InvP.step {fds : Fds} (hc : Clean fds) {m : Nat → Nat} {s t : St} (I : InvP fds s) (h : Step m s t) : InvP fds t := by
  have keep : ∀ {i : Nat} {p : PPc}, hasW p = hasW (s.pp i) → ∀ j, hasW (upd s.pp i p j) = hasW (s.pp j) := by
    intro i p h j
    by_cases hj : j = i
    · subst hj; rw [upd_same]; exact h
    · rw [upd_ne _ _ hj]
  have keepR : ∀ {i : Nat} {p : PPc}, hasR p = hasR (s.pp i) → ∀ j, hasR (upd s.pp i p j) = hasR (s.pp j) := by
    intro i p h j
    by_cases hj : j = i
    · subst hj; rw [upd_same]; exact h
    · rw [upd_ne _ _ hj]
  cases h with
  | pipe i r w hi hr hw hrw =>
    have hidle : ∀ {j : Nat}, hasW (s.pp j) = true → j ≠ i := by rintro j h rfl; rw [hi] at h; cases h
    have hidleR : ∀ {j : Nat}, hasR (s.pp j) = true → j ≠ i := by rintro j h rfl; rw [hi] at h; cases h
    refine ⟨?_, ?_, ?_, ?_, ?_, ?_⟩
    · intro j h
      by_cases hj : j = i
      · subst hj; simp [upd]
      · simp only [upd_ne _ _ hj] at h ⊢
        have e := I.w j h
        rw [upd_ne, upd_ne, e]
        · rintro e2; rw [e2, hr] at e; cases e
        · rintro e2; rw [e2, hw] at e; cases e
    · intro j h
      by_cases hj : j = i
      · subst hj; simp [upd, hrw]
      · simp only [upd_ne _ _ hj] at h ⊢
        have e := I.r j h
        rw [upd_ne, upd_ne, e]
        · rintro e2; rw [e2, hr] at e; cases e
        · rintro e2; rw [e2, hw] at e; cases e
    · intro fd j b e
      simp only at e ⊢
      by_cases h1 : fd = w
      · rw [h1, upd_same] at e
        injection e with e; injection e with e; injection e with e
        rw [← e, upd_same, upd_same]
        exact ⟨h1, rfl⟩
      · rw [upd_ne _ _ h1] at e
        by_cases h2 : fd = r
        · rw [h2, upd_same] at e
          injection e with e; injection e with e; cases e
        · rw [upd_ne _ _ h2] at e
          have e1 := I.wOnly fd j b e
          rw [upd_ne _ _ (hidle e1.2), upd_ne _ _ (hidle e1.2)]
          exact e1
    · intro fd j b e
      simp only at e ⊢
      by_cases h1 : fd = w
      · rw [h1, upd_same] at e
        injection e with e; injection e with e; cases e
      · rw [upd_ne _ _ h1] at e
        by_cases h2 : fd = r
        · rw [h2, upd_same] at e
          injection e with e; injection e with e; injection e with e
          rw [← e, upd_same, upd_same]
          exact ⟨h2, rfl⟩
        · rw [upd_ne _ _ h2] at e
          have e1 := I.rOnly fd j b e
          rw [upd_ne _ _ (hidleR e1.2), upd_ne _ _ (hidleR e1.2)]
          exact e1
    · intro fd e
      have e1 := I.old fd e
      show upd (upd s.par r _) w _ fd = _
      rw [upd_ne, upd_ne, e1]
      · rintro rfl; rw [hr] at e1; exact e e1.symm
      · rintro rfl; rw [hw] at e1; exact e e1.symm
    · intro fd e
      show upd (upd s.par r _) w _ fd = _ ∨ ∃ k b, upd (upd s.par r _) w _ fd = _ ∨ upd (upd s.par r _) w _ fd = _
      by_cases h1 : fd = w
      · rw [h1, upd_same]; exact Or.inr ⟨i, false, Or.inl rfl⟩
      · rw [upd_ne _ _ h1]
        by_cases h2 : fd = r
        · rw [h2, upd_same]; exact Or.inr ⟨i, false, Or.inr rfl⟩
        · rw [upd_ne _ _ h2]; exact I.new fd e
  | fcntl i hi =>
    have hwi := I.w i (by rw [hi]; rfl)
    have hset : ∀ fd, setCloexec s.par (s.wfd i) fd = if fd = s.wfd i then some (.pipeW i, true) else s.par fd := by
      intro fd
      unfold setCloexec
      by_cases h : fd = s.wfd i
      · rw [if_pos h, h, upd_same, hwi]; rfl
      · rw [if_neg h, upd_ne _ _ h]
    have hkW := keep (i := i) (p := .ready) (by rw [hi]; rfl)
    have hkR := keepR (i := i) (p := .ready) (by rw [hi]; rfl)
    refine ⟨?_, ?_, ?_, ?_, ?_, ?_⟩
    · intro j h
      simp only at h ⊢
      rw [hkW] at h
      rw [hset]
      have e := I.w j h
      by_cases hj : j = i
      · subst hj; simp [upd_same]
      · simp only [upd_ne _ _ hj]
        rw [if_neg, e]
        intro e2
        rw [e2, hwi] at e
        injection e with e; injection e with e; injection e with e; exact hj e.symm
    · intro j h
      simp only at h ⊢
      rw [hkR] at h
      have e := I.r j h
      rw [hset, if_neg, e]
      intro e2
      rw [e2, hwi] at e
      injection e with e; injection e with e; cases e
    · intro fd j b e
      simp only at e ⊢
      rw [hset] at e
      rw [hkW]
      split at e
      · next hf =>
        injection e with e; injection e with e; injection e with e
        rw [← e]
        exact ⟨hf, by rw [hi]; rfl⟩
      · exact I.wOnly fd j b e
    · intro fd j b e
      simp only at e ⊢
      rw [hset] at e
      rw [hkR]
      split at e
      · injection e with e; injection e with e; cases e
      · exact I.rOnly fd j b e
    · intro fd e
      have e1 := I.old fd e
      show setCloexec _ _ fd = _
      rw [hset, if_neg, e1]
      rintro rfl
      rw [hwi] at e1
      exact (hc _ i _).1 e1.symm
    · intro fd e
      show setCloexec _ _ fd = _ ∨ ∃ k b, setCloexec _ _ fd = _ ∨ setCloexec _ _ fd = _
      rw [hset]
      split
      · exact Or.inr ⟨i, true, Or.inl rfl⟩
      · exact I.new fd e
  | fork i hi =>
    refine I.same rfl rfl rfl (keep (by rw [hi]; rfl)) (keepR (by rw [hi]; rfl)) (fun j => ?_)
    by_cases hj : j = i
    · subst hj; simp only [upd_same, hi]; simp
    · simp only [upd_ne _ _ hj]
  | parentClose i hi =>
    exact I.close hc (I.w i (by rw [hi]; rfl)) (Or.inl rfl) rfl rfl rfl (fun j hj => upd_ne _ _ hj) (by simp [upd_same, hi, hasW])
      (by simp [upd_same, hi, hasR]) (fun e => by cases e)
  | parentRead i hi hb =>
    exact I.close hc (I.r i (by rw [hi]; rfl)) (Or.inr rfl) rfl rfl rfl (fun j hj => upd_ne _ _ hj) (by simp [upd_same, hi, hasW])
      (by simp [upd_same, hi, hasR]) (fun _ => by simp [upd_same, hasW])
  | parentEof i hi hb hn =>
    exact I.close hc (I.r i (by rw [hi]; rfl)) (Or.inr rfl) rfl rfl rfl (fun j hj => upd_ne _ _ hj) (by simp [upd_same, hi, hasW])
      (by simp [upd_same, hi, hasR]) (fun _ => by simp [upd_same, hasW])
  | pipeFails i hi =>
    refine I.same rfl rfl rfl (keep (by rw [hi]; rfl)) (keepR (by rw [hi]; rfl)) (fun j => ?_)
    by_cases hj : j = i
    · subst hj; simp only [upd_same, hi]; simp
    · simp only [upd_ne _ _ hj]
  | fcntlFails i hi => exact I.closeBoth hc (by rw [hi]; rfl) (by rw [hi]; rfl)
  | forkFails i hi => exact I.closeBoth hc (by rw [hi]; rfl) (by rw [hi]; rfl)
  | interrupted i hi =>
    exact I.close hc (I.r i (by rw [hi]; rfl)) (Or.inr rfl) rfl rfl rfl (fun j hj => upd_ne _ _ hj) (by simp [upd_same, hi, hasW])
      (by simp [upd_same, hi, hasR]) (fun _ => by simp [upd_same, hasW])
  | killed i hi => exact I.same rfl rfl rfl (fun _ => rfl) (fun _ => rfl) (fun _ => Iff.rfl)
  | closeR i hi => exact I.same rfl rfl rfl (fun _ => rfl) (fun _ => rfl) (fun _ => Iff.rfl)
  | closeFds i hi => exact I.same rfl rfl rfl (fun _ => rfl) (fun _ => rfl) (fun _ => Iff.rfl)
  | exec i hi => exact I.same rfl rfl rfl (fun _ => rfl) (fun _ => rfl) (fun _ => Iff.rfl)
  | execFails i hi => exact I.same rfl rfl rfl (fun _ => rfl) (fun _ => rfl) (fun _ => Iff.rfl)
  | write i hi => exact I.same rfl rfl rfl (fun _ => rfl) (fun _ => rfl) (fun _ => Iff.rfl)
  | childCloseW i hi => exact I.same rfl rfl rfl (fun _ => rfl) (fun _ => rfl) (fun _ => Iff.rfl)
  | exit i hi => exact I.same rfl rfl rfl (fun _ => rfl) (fun _ => rfl) (fun _ => Iff.rfl)
  | ends i hi => exact I.same rfl rfl rfl (fun _ => rfl) (fun _ => rfl) (fun _ => Iff.rfl)

/-- The children and what they tell. -/
structure InvC (s : St) : Prop where
  born : ∀ i, s.cp i = .unborn ↔ before (s.pp i) = true
  ne : ∀ i, s.pp i ≠ .idle → s.pp i ≠ .refused → s.rfd i ≠ s.wfd i
  keepW : ∀ i, early (s.cp i) = true → s.chd i (s.wfd i) = some (.pipeW i, true)
  zero : ∀ i, failed (s.cp i) = false → s.buf i = 0 ∧ s.pp i ≠ .done false
  told : ∀ i, failed (s.cp i) = true →
    (s.buf i = 1 ∧ (s.pp i = .closeW ∨ s.pp i = .read ∨ s.pp i = .cut)) ∨ (s.buf i = 0 ∧ (s.pp i = .done false ∨ s.pp i = .cut))
  yes : ∀ i, s.pp i = .done true → started (s.cp i) = true

theorem InvC.start (fds : Fds) : InvC (St.start fds) := by
  constructor <;> simp [St.start, before, early, failed]

/-- A call that has forked keeps its descriptor. -/
theorem began {m : Nat → Nat} {s t : St} (h : Step m s t) (i : Nat) (hi : before (s.pp i) = false) : before (t.pp i) = false ∧ t.wfd i = s.wfd i := by
  have key : ∀ (k : Nat) (p : PPc), before p = false → before (upd s.pp k p i) = false := by
    intro k p hp
    by_cases e : i = k
    · rw [e, upd_same]; exact hp
    · rw [upd_ne _ _ e]; exact hi
  have other : ∀ (k : Nat) (p : PPc), before (s.pp k) = true → before (upd s.pp k p i) = false := by
    intro k p hp
    rw [upd_ne]
    · exact hi
    · rintro rfl; rw [hp] at hi; cases hi
  cases h with
  | pipe k r w hk => exact ⟨other k _ (by rw [hk]; rfl), upd_ne _ _ (by rintro rfl; rw [hk] at hi; cases hi)⟩
  | pipeFails k hk => exact ⟨other k _ (by rw [hk]; rfl), rfl⟩
  | fcntl k hk => exact ⟨other k _ (by rw [hk]; rfl), rfl⟩
  | fcntlFails k hk => exact ⟨other k _ (by rw [hk]; rfl), rfl⟩
  | forkFails k hk => exact ⟨other k _ (by rw [hk]; rfl), rfl⟩
  | fork k => exact ⟨key k _ rfl, rfl⟩
  | parentClose k => exact ⟨key k _ rfl, rfl⟩
  | parentRead k => exact ⟨key k _ rfl, rfl⟩
  | parentEof k => exact ⟨key k _ rfl, rfl⟩
  | interrupted k => exact ⟨key k _ rfl, rfl⟩
  | _ => exact ⟨hi, rfl⟩

/-- One call changes. -/
theorem InvC.one {s t : St} (I : InvC s) (i : Nat) (hpp : ∀ j, j ≠ i → t.pp j = s.pp j) (hcp : ∀ j, j ≠ i → t.cp j = s.cp j)
    (hr : ∀ j, j ≠ i → t.rfd j = s.rfd j) (hw : ∀ j, j ≠ i → t.wfd j = s.wfd j) (hch : ∀ j, j ≠ i → t.chd j = s.chd j)
    (hb : ∀ j, j ≠ i → t.buf j = s.buf j)
    (h1 : t.cp i = .unborn ↔ before (t.pp i) = true) (h2 : t.pp i ≠ .idle → t.pp i ≠ .refused → t.rfd i ≠ t.wfd i)
    (h3 : early (t.cp i) = true → t.chd i (t.wfd i) = some (.pipeW i, true)) (h4 : failed (t.cp i) = false → t.buf i = 0 ∧ t.pp i ≠ .done false)
    (h5 : failed (t.cp i) = true →
      (t.buf i = 1 ∧ (t.pp i = .closeW ∨ t.pp i = .read ∨ t.pp i = .cut)) ∨ (t.buf i = 0 ∧ (t.pp i = .done false ∨ t.pp i = .cut)))
    (h6 : t.pp i = .done true → started (t.cp i) = true) : InvC t where
  born := fun j => by
    by_cases hj : j = i
    · rw [hj]; exact h1
    · rw [hpp j hj, hcp j hj]; exact I.born j
  ne := fun j => by
    by_cases hj : j = i
    · rw [hj]; exact h2
    · rw [hpp j hj, hr j hj, hw j hj]; exact I.ne j
  keepW := fun j => by
    by_cases hj : j = i
    · rw [hj]; exact h3
    · rw [hcp j hj, hch j hj, hw j hj]; exact I.keepW j
  zero := fun j => by
    by_cases hj : j = i
    · rw [hj]; exact h4
    · rw [hcp j hj, hpp j hj, hb j hj]; exact I.zero j
  told := fun j => by
    by_cases hj : j = i
    · rw [hj]; exact h5
    · rw [hcp j hj, hpp j hj, hb j hj]; exact I.told j
  yes := fun j => by
    by_cases hj : j = i
    · rw [hj]; exact h6
    · rw [hcp j hj, hpp j hj]; exact I.yes j

theorem InvC.step {fds : Fds} {m : Nat → Nat} {s t : St} (hm : ∀ i, before (s.pp i) = false → m i ≤ max 3 (s.wfd i)) (P : InvP fds s) (I : InvC s) (h : Step m s t) : InvC t := by
  cases h with
  | pipe i r w hi hr hw hrw =>
    have b := I.born i
    have z := I.zero i
    refine I.one i (fun j hj => upd_ne _ _ hj) (fun _ _ => rfl) (fun j hj => upd_ne _ _ hj) (fun j hj => upd_ne _ _ hj) (fun _ _ => rfl) (fun _ _ => rfl)
      ?_ ?_ ?_ ?_ ?_ ?_ <;> simp_all [upd_same, before, early, failed, started]
  | fcntl i hi =>
    have b := I.born i
    have z := I.zero i
    have n := I.ne i
    refine I.one i (fun j hj => upd_ne _ _ hj) (fun _ _ => rfl) (fun _ _ => rfl) (fun _ _ => rfl) (fun _ _ => rfl) (fun _ _ => rfl)
      ?_ ?_ ?_ ?_ ?_ ?_ <;> simp_all [upd_same, before, early, failed, started]
  | fork i hi =>
    have b := I.born i
    have z := I.zero i
    have n := I.ne i
    have w := P.w i
    refine I.one i (fun j hj => upd_ne _ _ hj) (fun j hj => upd_ne _ _ hj) (fun _ _ => rfl) (fun _ _ => rfl) (fun j hj => upd_ne _ _ hj) (fun _ _ => rfl)
      ?_ ?_ ?_ ?_ ?_ ?_ <;> simp_all [upd_same, before, early, failed, started, hasW]
  | parentClose i hi =>
    have b := I.born i
    have z := I.zero i
    have n := I.ne i
    have w := I.keepW i
    have d := I.told i
    refine I.one i (fun j hj => upd_ne _ _ hj) (fun _ _ => rfl) (fun _ _ => rfl) (fun _ _ => rfl) (fun _ _ => rfl) (fun _ _ => rfl)
      ?_ ?_ ?_ ?_ ?_ ?_ <;> simp_all [upd_same, before]
  | parentRead i hi hb =>
    have b := I.born i
    have z := I.zero i
    have n := I.ne i
    have w := I.keepW i
    have d := I.told i
    have hf : failed (s.cp i) = true := by
      cases hf : failed (s.cp i) with
      | true => rfl
      | false => have := (z hf).1; omega
    have hb1 : s.buf i = 1 := by
      rcases d hf with d | d
      · exact d.1
      · omega
    refine I.one i (fun j hj => upd_ne _ _ hj) (fun _ _ => rfl) (fun _ _ => rfl) (fun _ _ => rfl) (fun _ _ => rfl) (fun j hj => upd_ne _ _ hj)
      ?_ ?_ ?_ ?_ ?_ ?_ <;> simp_all [upd_same, before]
  | parentEof i hi hb hn =>
    have b := I.born i
    have z := I.zero i
    have n := I.ne i
    have w := I.keepW i
    have d := I.told i
    have hs : started (s.cp i) = true := by
      have he : early (s.cp i) = false := by
        cases he : early (s.cp i) with
        | false => rfl
        | true => exact absurd (w he) (hn.2 i _ _)
      have hf : failed (s.cp i) = false := by
        cases hf : failed (s.cp i) with
        | false => rfl
        | true =>
          rcases d hf with d | d
          · omega
          · rw [hi] at d; rcases d.2 with d | d <;> cases d
      have hu : s.cp i ≠ .unborn := by
        rw [Ne, b, hi]; simp [before]
      revert he hf hu
      cases s.cp i <;> simp [early, failed, started]
    have hf : failed (s.cp i) = false := by
      revert hs
      cases s.cp i <;> simp [failed, started]
    refine I.one i (fun j hj => upd_ne _ _ hj) (fun _ _ => rfl) (fun _ _ => rfl) (fun _ _ => rfl) (fun _ _ => rfl) (fun _ _ => rfl)
      ?_ ?_ ?_ ?_ ?_ ?_ <;> simp_all [upd_same, before]
  | pipeFails i hi =>
    have b := I.born i
    have z := I.zero i
    refine I.one i (fun j hj => upd_ne _ _ hj) (fun _ _ => rfl) (fun _ _ => rfl) (fun _ _ => rfl) (fun _ _ => rfl) (fun _ _ => rfl)
      ?_ ?_ ?_ ?_ ?_ ?_ <;> simp_all [upd_same, before, early, failed, started]
  | fcntlFails i hi =>
    have b := I.born i
    have z := I.zero i
    refine I.one i (fun j hj => upd_ne _ _ hj) (fun _ _ => rfl) (fun _ _ => rfl) (fun _ _ => rfl) (fun _ _ => rfl) (fun _ _ => rfl)
      ?_ ?_ ?_ ?_ ?_ ?_ <;> simp_all [upd_same, before, early, failed, started]
  | forkFails i hi =>
    have b := I.born i
    have z := I.zero i
    refine I.one i (fun j hj => upd_ne _ _ hj) (fun _ _ => rfl) (fun _ _ => rfl) (fun _ _ => rfl) (fun _ _ => rfl) (fun _ _ => rfl)
      ?_ ?_ ?_ ?_ ?_ ?_ <;> simp_all [upd_same, before, early, failed, started]
  | interrupted i hi =>
    have b := I.born i
    have z := I.zero i
    have n := I.ne i
    have w := I.keepW i
    have d := I.told i
    refine I.one i (fun j hj => upd_ne _ _ hj) (fun _ _ => rfl) (fun _ _ => rfl) (fun _ _ => rfl) (fun _ _ => rfl) (fun _ _ => rfl)
      ?_ ?_ ?_ ?_ ?_ ?_ <;> simp_all [upd_same, before]
  | killed i hi hp =>
    have b := I.born i
    have z := I.zero i
    have n := I.ne i
    have y := I.yes i
    refine I.one i (fun _ _ => rfl) (fun j hj => upd_ne _ _ hj) (fun _ _ => rfl) (fun _ _ => rfl) (fun j hj => upd_ne _ _ hj) (fun _ _ => rfl)
      ?_ ?_ ?_ ?_ ?_ ?_ <;> simp_all [upd_same, early, failed, started]
  | closeR i hi =>
    have b := I.born i
    have z := I.zero i
    have n := I.ne i
    have w := I.keepW i
    have y := I.yes i
    have hid : s.pp i ≠ .idle := by intro e; rw [e] at b; simp [before, hi] at b
    have hid2 : s.pp i ≠ .refused := by intro e; rw [e] at b; simp [before, hi] at b
    refine I.one i (fun _ _ => rfl) (fun j hj => upd_ne _ _ hj) (fun _ _ => rfl) (fun _ _ => rfl) (fun j hj => upd_ne _ _ hj) (fun _ _ => rfl)
      ?_ ?_ ?_ ?_ ?_ ?_ <;> simp_all [upd_same, early, failed, started]
    rw [upd_ne _ _ (Ne.symm n), w]
  | closeFds i hi =>
    have b := I.born i
    have z := I.zero i
    have n := I.ne i
    have w := I.keepW i
    have y := I.yes i
    have hmi := hm i (by
      cases e : before (s.pp i) with
      | false => rfl
      | true => rw [e] at b; simp [hi] at b)
    clear hm
    refine I.one i (fun _ _ => rfl) (fun j hj => upd_ne _ _ hj) (fun _ _ => rfl) (fun _ _ => rfl) (fun j hj => upd_ne _ _ hj) (fun _ _ => rfl)
      ?_ ?_ ?_ ?_ ?_ ?_ <;> simp_all [upd_same, early, failed, started]
    intro h1
    omega
  | exec i hi =>
    have b := I.born i
    have z := I.zero i
    have n := I.ne i
    have y := I.yes i
    refine I.one i (fun _ _ => rfl) (fun j hj => upd_ne _ _ hj) (fun _ _ => rfl) (fun _ _ => rfl) (fun j hj => upd_ne _ _ hj) (fun _ _ => rfl)
      ?_ ?_ ?_ ?_ ?_ ?_ <;> simp_all [upd_same, early, failed, started]
  | execFails i hi =>
    have b := I.born i
    have z := I.zero i
    have n := I.ne i
    have w := I.keepW i
    have y := I.yes i
    refine I.one i (fun _ _ => rfl) (fun j hj => upd_ne _ _ hj) (fun _ _ => rfl) (fun _ _ => rfl) (fun _ _ => rfl) (fun _ _ => rfl)
      ?_ ?_ ?_ ?_ ?_ ?_ <;> simp_all [upd_same, early, failed, started]
  | write i hi =>
    have b := I.born i
    have z := I.zero i
    have n := I.ne i
    have w := I.keepW i (by rw [hi]; rfl)
    have y := I.yes i
    have hz := z (by rw [hi]; rfl)
    have hp : s.pp i = .closeW ∨ s.pp i = .read ∨ s.pp i = .cut := by
      revert b y hz
      rw [hi]
      cases s.pp i with
      | done d => cases d <;> simp [before, started]
      | _ => simp [before]
    rw [w]
    refine I.one i (fun _ _ => rfl) (fun j hj => upd_ne _ _ hj) (fun _ _ => rfl) (fun _ _ => rfl) (fun _ _ => rfl) (fun j hj => upd_ne _ _ hj)
      ?_ ?_ ?_ ?_ ?_ ?_ <;> simp_all [upd_same, early, failed, started, writeTo]
  | childCloseW i hi =>
    have b := I.born i
    have n := I.ne i
    have d := I.told i
    have y := I.yes i
    refine I.one i (fun _ _ => rfl) (fun j hj => upd_ne _ _ hj) (fun _ _ => rfl) (fun _ _ => rfl) (fun j hj => upd_ne _ _ hj) (fun _ _ => rfl)
      ?_ ?_ ?_ ?_ ?_ ?_ <;> simp_all [upd_same, early, failed, started]
  | exit i hi =>
    have b := I.born i
    have n := I.ne i
    have d := I.told i
    have y := I.yes i
    refine I.one i (fun _ _ => rfl) (fun j hj => upd_ne _ _ hj) (fun _ _ => rfl) (fun _ _ => rfl) (fun j hj => upd_ne _ _ hj) (fun _ _ => rfl)
      ?_ ?_ ?_ ?_ ?_ ?_ <;> simp_all [upd_same, early, failed, started]
  | ends i hi =>
    have b := I.born i
    have n := I.ne i
    have z := I.zero i
    have y := I.yes i
    refine I.one i (fun _ _ => rfl) (fun j hj => upd_ne _ _ hj) (fun _ _ => rfl) (fun _ _ => rfl) (fun j hj => upd_ne _ _ hj) (fun _ _ => rfl)
      ?_ ?_ ?_ ?_ ?_ ?_ <;> simp_all [upd_same, early, failed, started]

end Verif.ProcMany
