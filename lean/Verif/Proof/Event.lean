import Verif.Model.Event
import Verif.Spec.Event
set_option linter.unusedSimpArgs false
/-! Lemmas for C48. -/
namespace Verif.Event

/-- The thread holds the mutex. -/
def Pc.holds : Pc → Bool
  | .wSet | .wNotify | .wUnlock | .aCheck | .aClear | .aUnlock => true
  | _ => false

/-- The thread will notify or see the flag. -/
def Pc.flying : Pc → Bool
  | .wNotify | .woken | .aCheck | .aClear => true
  | _ => false

structure Inv (s : St) : Prop where
  holder : ∀ t, (s.pc t).holds = true ↔ s.lock = some t
  clear : ∀ t, s.pc t = .aClear → s.signaled = true
  nolost : s.signaled = true → (∃ u, s.pc u = .asleep) → ∃ t, (s.pc t).flying = true

theorem inv_init : Inv St.init := ⟨by simp [St.init, Pc.holds], by simp [St.init], by simp [St.init]⟩

theorem upd_self (f : Nat → Pc) (t : Nat) (p : Pc) : upd f t p t = p := by simp [upd]
theorem upd_ne (f : Nat → Pc) {t u : Nat} (p : Pc) (h : u ≠ t) : upd f t p u = f u := by simp [upd, h]

/-- A step of `t` that neither takes nor releases the mutex. -/
theorem holder_keep {s : St} (h : Inv s) (t : Nat) (p : Pc) (hp : p.holds = (s.pc t).holds) :
    ∀ u, (upd s.pc t p u).holds = true ↔ s.lock = some u := by
  intro u
  by_cases hu : u = t
  · subst hu; rw [upd_self, hp]; exact h.holder u
  · rw [upd_ne _ _ hu]; exact h.holder u

theorem holder_take {s : St} (h : Inv s) (t : Nat) (p : Pc) (hl : s.lock = none) (hp : p.holds = true) :
    ∀ u, (upd s.pc t p u).holds = true ↔ some t = some u := by
  intro u
  by_cases hu : u = t
  · subst hu; rw [upd_self, hp]; simp
  · rw [upd_ne _ _ hu, h.holder u, hl]; simp; exact fun h => hu h.symm

theorem holder_drop {s : St} (h : Inv s) (t : Nat) (p : Pc) (hh : (s.pc t).holds = true) (hp : p.holds = false) :
    ∀ u, (upd s.pc t p u).holds = true ↔ none = some u := by
  intro u
  by_cases hu : u = t
  · subst hu; rw [upd_self, hp]; simp
  · rw [upd_ne _ _ hu, h.holder u, (h.holder t).1 hh]; simp; exact fun h => hu h.symm

theorem clear_keep {s : St} (h : Inv s) (t : Nat) (p : Pc) (hp : p ≠ .aClear) :
    ∀ u, upd s.pc t p u = .aClear → s.signaled = true := by
  intro u hu
  by_cases e : u = t
  · subst e; rw [upd_self] at hu; exact absurd hu hp
  · rw [upd_ne _ _ e] at hu; exact h.clear u hu

theorem nolost_keep {s : St} (h : Inv s) (t : Nat) (p : Pc) (hp : p ≠ .asleep)
    (hf : (s.pc t).flying = true → p.flying = true) :
    s.signaled = true → (∃ u, upd s.pc t p u = .asleep) → ∃ u, (upd s.pc t p u).flying = true := by
  rintro hs ⟨u, hu⟩
  by_cases e : u = t
  · subst e; rw [upd_self] at hu; exact absurd hu hp
  · rw [upd_ne _ _ e] at hu
    obtain ⟨v, hv⟩ := h.nolost hs ⟨u, hu⟩
    by_cases ev : v = t
    · subst ev; exact ⟨v, by rw [upd_self]; exact hf hv⟩
    · exact ⟨v, by rw [upd_ne _ _ ev]; exact hv⟩

theorem inv_step {s s' : St} {t : Nat} {a : Act} (h : Inv s) (hs : Step s t a s') : Inv s' := by
  cases hs with
  | callWakeup hp => exact ⟨holder_keep h t _ (by rw [hp]; rfl), clear_keep h t _ (by simp), nolost_keep h t _ (by simp) (by simp [hp, Pc.flying])⟩
  | wLock hp hl => exact ⟨holder_take h t _ hl rfl, clear_keep h t _ (by simp), nolost_keep h t _ (by simp) (by simp [hp, Pc.flying])⟩
  | wSet hp => exact ⟨holder_keep h t _ (by rw [hp]; rfl), fun _ _ => rfl, fun _ _ => ⟨t, by simp [upd_self, Pc.flying]⟩⟩
  | @wNotify u hp hu =>
    have hut : u ≠ t := by rintro rfl; rw [hp] at hu; simp at hu
    have h1 := holder_keep h t .wUnlock (by rw [hp]; rfl)
    refine ⟨fun v => ?_, fun v hv => ?_, fun _ _ => ⟨u, by simp [upd_self, Pc.flying]⟩⟩
    · by_cases e : v = u
      · subst e
        have := h.holder v
        rw [hu] at this
        simpa [upd_self, Pc.holds] using this
      · simp only [upd_ne _ _ e]; exact h1 v
    · by_cases e : v = u
      · subst e; simp [upd_self] at hv
      · simp only [upd_ne _ _ e] at hv; exact clear_keep (s := s) h t .wUnlock (by simp) v hv
  | wNotifyNone hp hn =>
    refine ⟨holder_keep h t _ (by rw [hp]; rfl), clear_keep h t _ (by simp), ?_⟩
    rintro - ⟨u, hu⟩
    by_cases e : u = t
    · subst e; simp [upd_self] at hu
    · simp only [upd_ne _ _ e] at hu; exact absurd hu (hn u)
  | wUnlock hp => exact ⟨holder_drop h t _ (by rw [hp]; rfl) rfl, clear_keep h t _ (by simp), nolost_keep h t _ (by simp) (by simp [hp, Pc.flying])⟩
  | callWait hp => exact ⟨holder_keep h t _ (by rw [hp]; rfl), clear_keep h t _ (by simp), nolost_keep h t _ (by simp) (by simp [hp, Pc.flying])⟩
  | aLock hp hl => exact ⟨holder_take h t _ hl rfl, clear_keep h t _ (by simp), nolost_keep h t _ (by simp) (by simp [hp, Pc.flying])⟩
  | aTrue hp hsig => exact ⟨holder_keep h t _ (by rw [hp]; rfl), fun _ _ => hsig, nolost_keep h t _ (by simp) (by simp [hp, Pc.flying])⟩
  | aSleep hp hsig =>
    exact ⟨holder_drop h t _ (by rw [hp]; rfl) rfl, clear_keep h t _ (by simp), fun hs => by rw [show s.signaled = false from hsig] at hs; simp at hs⟩
  | spurious hp => exact ⟨holder_keep h t _ (by rw [hp]; rfl), clear_keep h t _ (by simp), nolost_keep h t _ (by simp) (by simp [hp, Pc.flying])⟩
  | aRelock hp hl => exact ⟨holder_take h t _ hl rfl, clear_keep h t _ (by simp), nolost_keep h t _ (by simp) (by simp [hp, Pc.flying])⟩
  | aClear hp =>
    refine ⟨holder_keep h t _ (by rw [hp]; rfl), fun u hu => ?_, fun hs => by simp at hs⟩
    by_cases e : u = t
    · subst e; simp [upd_self] at hu
    · simp only [upd_ne _ _ e] at hu
      have h1 := (h.holder u).1 (by rw [hu]; rfl)
      have h2 := (h.holder t).1 (by rw [hp]; rfl)
      rw [h1] at h2
      simp at h2
      exact absurd h2 e
  | aUnlock hp => exact ⟨holder_drop h t _ (by rw [hp]; rfl) rfl, clear_keep h t _ (by simp), nolost_keep h t _ (by simp) (by simp [hp, Pc.flying])⟩

theorem inv_steps {s s' : St} {l : List Act} (h : Steps s l s') : Inv s → Inv s' := by
  induction h with
  | nil => exact id
  | snoc _ hs ih => exact fun hi => inv_step (ih hi) hs

/-- A step of another thread leaves a thread that does not sleep where it is. -/
theorem step_other {s s' : St} {t u : Nat} {a : Act} (hs : Step s t a s') (hu : u ≠ t) (ha : s.pc u ≠ .asleep) : s'.pc u = s.pc u := by
  cases hs with
  | @wNotify v hp hv =>
    have : u ≠ v := by rintro rfl; exact ha hv
    simp only [upd_ne _ _ this, upd_ne _ _ hu]
  | _ => simp only [upd_ne _ _ hu]

/-- The flag changes only by `set` and `clear`. -/
theorem step_flag {s s' : St} {t : Nat} {a : Act} (hs : Step s t a s') (ha : a ≠ .clear) (h : s.signaled = true) : s'.signaled = true := by
  cases hs <;> first | exact h | rfl | exact absurd rfl ha

/-! ### Fair executions -/

section
variable (e : Exec)

theorem exec_inv (n : Nat) : Inv (e.st n) := by
  induction n with
  | zero => rw [e.init]; exact inv_init
  | succ n ih =>
    have h := e.step n
    cases hw : e.who n with
    | none => rw [hw] at h; simp only at h; rw [h.1]; exact ih
    | some t => rw [hw] at h; exact inv_step ih h

theorem exec_step {n t : Nat} (h : e.who n = some t) : Step (e.st n) t (e.act n) (e.st (n + 1)) := by
  have := e.step n
  rw [h] at this
  exact this

theorem exec_other {n t : Nat} (h : e.who n ≠ some t) (ha : (e.st n).pc t ≠ .asleep) : (e.st (n + 1)).pc t = (e.st n).pc t := by
  have := e.step n
  cases hw : e.who n with
  | none => rw [hw] at this; simp only at this; rw [this.1]
  | some u =>
    rw [hw] at this
    exact step_other this (by rintro rfl; exact h hw) ha

theorem exec_stay {t m : Nat} (ha : (e.st m).pc t ≠ .asleep) (k : Nat) (h : ∀ j, m ≤ j → j < m + k → e.who j ≠ some t) :
    (e.st (m + k)).pc t = (e.st m).pc t := by
  induction k with
  | zero => rfl
  | succ k ih =>
    have h1 := ih (fun j hj hk => h j hj (by omega))
    rw [← h1]
    exact exec_other e (h (m + k) (by omega) (by omega)) (fun hx => ha (h1.symm.trans hx))

/-- A thread that does not sleep, and can go on again and again as long as it does not move, moves. -/
theorem fair_move (hf : e.Fair) {t m : Nat} (ha : (e.st m).pc t ≠ .asleep)
    (hen : (∀ j, m ≤ j → (e.st j).pc t = (e.st m).pc t) → ∀ n, ∃ j, n ≤ j ∧ Enabled (e.st j) t) :
    ∃ j, m ≤ j ∧ e.who j = some t ∧ (e.st j).pc t = (e.st m).pc t := by
  have hex : ∃ k, e.who (m + k) = some t := by
    apply Classical.byContradiction
    intro hc
    have hn : ∀ j, m ≤ j → e.who j ≠ some t := fun j hj h => hc ⟨j - m, by rw [show m + (j - m) = j by omega]; exact h⟩
    obtain ⟨j, hj, hw⟩ := hf t (hen (fun j hj => by
      have := exec_stay e ha (j - m) (fun i hi _ => hn i hi)
      rwa [show m + (j - m) = j by omega] at this)) m
    exact hn j hj hw
  -- the first time
  have hmin : ∃ k, e.who (m + k) = some t ∧ ∀ i, i < k → e.who (m + i) ≠ some t := by
    obtain ⟨k, hk⟩ := hex
    induction k using Nat.strongRecOn with
    | _ k ih =>
      by_cases h : ∃ i, i < k ∧ e.who (m + i) = some t
      · obtain ⟨i, hi, hw⟩ := h
        exact ih i hi hw
      · exact ⟨k, hk, fun i hi hw => h ⟨i, hi, hw⟩⟩
  obtain ⟨k, hk, hkm⟩ := hmin
  refine ⟨m + k, by omega, hk, exec_stay e ha k (fun j hj hjk => ?_)⟩
  have := hkm (j - m) (by omega)
  rwa [show m + (j - m) = j by omega] at this

/-- The holder moves. -/
theorem holder_move (hf : e.Fair) {t m : Nat} (hh : ((e.st m).pc t).holds = true) :
    ∃ j, m ≤ j ∧ e.who j = some t ∧ (e.st j).pc t = (e.st m).pc t := by
  apply fair_move e hf
  · intro h; rw [h] at hh; simp [Pc.holds] at hh
  · intro hst n
    refine ⟨m + n, by omega, ?_⟩
    rw [Enabled, hst (m + n) (by omega)]
    generalize (e.st m).pc t = p at hh
    cases p <;> simp_all [Pc.holds]

theorem release_unlock (hf : e.Fair) {t m : Nat} (hp : (e.st m).pc t = .wUnlock ∨ (e.st m).pc t = .aUnlock) :
    ∃ j, m ≤ j ∧ (e.st j).lock = none := by
  obtain ⟨j, hj, hw, hs⟩ := holder_move e hf (t := t) (m := m) (by obtain h | h := hp <;> rw [h] <;> rfl)
  refine ⟨j + 1, by omega, ?_⟩
  have := exec_step e hw
  obtain h | h := hp
  · rw [h] at hs
    generalize e.st (j + 1) = s' at this ⊢
    generalize e.act j = a at this
    cases this <;> simp_all
  · rw [h] at hs
    generalize e.st (j + 1) = s' at this ⊢
    generalize e.act j = a at this
    cases this <;> simp_all

theorem release_notify (hf : e.Fair) {t m : Nat} (hp : (e.st m).pc t = .wNotify) : ∃ j, m ≤ j ∧ (e.st j).lock = none := by
  obtain ⟨j, hj, hw, hs⟩ := holder_move e hf (t := t) (m := m) (by rw [hp]; rfl)
  have h := exec_step e hw
  rw [hp] at hs
  have : (e.st (j + 1)).pc t = .wUnlock := by
    generalize e.st (j + 1) = s' at h ⊢
    generalize e.act j = a at h
    cases h <;> simp_all [upd_self]
    rename_i u hx hu
    have : t ≠ u := by intro hc; rw [hc, hu] at hx; simp at hx
    simp [upd, this]
  obtain ⟨k, hk, hl⟩ := release_unlock e hf (.inl this)
  exact ⟨k, by omega, hl⟩

theorem release_set (hf : e.Fair) {t m : Nat} (hp : (e.st m).pc t = .wSet) : ∃ j, m ≤ j ∧ (e.st j).lock = none := by
  obtain ⟨j, hj, hw, hs⟩ := holder_move e hf (t := t) (m := m) (by rw [hp]; rfl)
  have h := exec_step e hw
  rw [hp] at hs
  have : (e.st (j + 1)).pc t = .wNotify := by
    generalize e.st (j + 1) = s' at h ⊢
    generalize e.act j = a at h
    cases h <;> simp_all [upd_self]
  obtain ⟨k, hk, hl⟩ := release_notify e hf this
  exact ⟨k, by omega, hl⟩

theorem clear_act (hf : e.Fair) {t m : Nat} (hp : (e.st m).pc t = .aClear) :
    ∃ j, m ≤ j ∧ e.act j = .clear ∧ (e.st (j + 1)).pc t = .aUnlock := by
  obtain ⟨j, hj, hw, hs⟩ := holder_move e hf (t := t) (m := m) (by rw [hp]; rfl)
  have h := exec_step e hw
  rw [hp] at hs
  refine ⟨j, hj, ?_⟩
  generalize e.st (j + 1) = s' at h ⊢
  generalize e.act j = a at h ⊢
  cases h <;> simp_all [upd_self]

theorem check_move (hf : e.Fair) {t m : Nat} (hp : (e.st m).pc t = .aCheck) :
    ∃ j, m ≤ j ∧ ((e.st j).signaled = true ∧ (e.st (j + 1)).pc t = .aClear ∨ (e.st j).signaled = false ∧ (e.st (j + 1)).lock = none) := by
  obtain ⟨j, hj, hw, hs⟩ := holder_move e hf (t := t) (m := m) (by rw [hp]; rfl)
  have h := exec_step e hw
  rw [hp] at hs
  refine ⟨j, hj, ?_⟩
  generalize e.st (j + 1) = s' at h ⊢
  generalize e.act j = a at h
  generalize e.st j = s at h hs ⊢
  cases h <;> simp_all [upd_self]

/-- The mutex becomes free. -/
theorem release (hf : e.Fair) (m : Nat) : ∃ j, m ≤ j ∧ (e.st j).lock = none := by
  cases hl : (e.st m).lock with
  | none => exact ⟨m, by omega, hl⟩
  | some t =>
    have hh := ((exec_inv e m).holder t).2 hl
    cases hp : (e.st m).pc t with
    | wSet => exact release_set e hf hp
    | wNotify => exact release_notify e hf hp
    | wUnlock => exact release_unlock e hf (.inl hp)
    | aUnlock => exact release_unlock e hf (.inr hp)
    | aClear =>
      obtain ⟨j, hj, -, h⟩ := clear_act e hf hp
      obtain ⟨k, hk, hl⟩ := release_unlock e hf (.inr h)
      exact ⟨k, by omega, hl⟩
    | aCheck =>
      obtain ⟨j, hj, ⟨-, h⟩ | ⟨-, h⟩⟩ := check_move e hf hp
      · obtain ⟨j', hj', -, h⟩ := clear_act e hf h
        obtain ⟨k, hk, hl⟩ := release_unlock e hf (.inr h)
        exact ⟨k, by omega, hl⟩
      · exact ⟨j + 1, by omega, h⟩
    | _ => rw [hp] at hh; simp [Pc.holds] at hh

/-- A thread that wants the mutex gets it. -/
theorem lock_move (hf : e.Fair) {t m : Nat} (hp : (e.st m).pc t = .aLock ∨ (e.st m).pc t = .woken) :
    ∃ j, m ≤ j ∧ (e.st j).pc t = .aCheck := by
  obtain ⟨j, hj, hw, hs⟩ := fair_move e hf (t := t) (m := m) (by obtain h | h := hp <;> simp [h]) (by
    intro hst n
    obtain ⟨k, hk, hl⟩ := release e hf (m + n)
    refine ⟨k, by omega, ?_⟩
    rw [Enabled, hst k (by omega)]
    obtain h | h := hp <;> rw [h] <;> exact hl)
  have h := exec_step e hw
  refine ⟨j + 1, by omega, ?_⟩
  generalize e.st (j + 1) = s' at h ⊢
  generalize e.act j = a at h
  generalize e.st j = s at h hs ⊢
  obtain hp | hp := hp <;> rw [hp] at hs <;> cases h <;> simp_all [upd_self]

theorem lock_move_wakeup (hf : e.Fair) {t m : Nat} (hp : (e.st m).pc t = .wLock) : ∃ j, m ≤ j ∧ (e.st j).pc t = .wSet := by
  obtain ⟨j, hj, hw, hs⟩ := fair_move e hf (t := t) (m := m) (by simp [hp]) (by
    intro hst n
    obtain ⟨k, hk, hl⟩ := release e hf (m + n)
    refine ⟨k, by omega, ?_⟩
    rw [Enabled, hst k (by omega), hp]
    exact hl)
  have h := exec_step e hw
  refine ⟨j + 1, by omega, ?_⟩
  generalize e.st (j + 1) = s' at h ⊢
  generalize e.act j = a at h
  generalize e.st j = s at h hs ⊢
  rw [hp] at hs
  cases h <;> simp_all [upd_self]

theorem unlock_idle (hf : e.Fair) {t m : Nat} (hp : (e.st m).pc t = .wUnlock ∨ (e.st m).pc t = .aUnlock) :
    ∃ j, m ≤ j ∧ (e.st j).pc t = .idle := by
  obtain ⟨j, hj, hw, hs⟩ := holder_move e hf (t := t) (m := m) (by obtain h | h := hp <;> rw [h] <;> rfl)
  refine ⟨j + 1, by omega, ?_⟩
  have := exec_step e hw
  generalize e.st (j + 1) = s' at this ⊢
  generalize e.act j = a at this
  generalize e.st j = s at this hs
  obtain h | h := hp
  · rw [h] at hs
    cases this <;> simp_all [upd_self]
  · rw [h] at hs
    cases this <;> simp_all [upd_self]

theorem notify_idle (hf : e.Fair) {t m : Nat} (hp : (e.st m).pc t = .wNotify) : ∃ j, m ≤ j ∧ (e.st j).pc t = .idle := by
  obtain ⟨j, hj, hw, hs⟩ := holder_move e hf (t := t) (m := m) (by rw [hp]; rfl)
  have h := exec_step e hw
  rw [hp] at hs
  have : (e.st (j + 1)).pc t = .wUnlock := by
    generalize e.st (j + 1) = s' at h ⊢
    generalize e.act j = a at h
    cases h <;> simp_all [upd_self]
    rename_i u hx hu
    have : t ≠ u := by intro hc; rw [hc, hu] at hx; simp at hx
    simp [upd, this]
  obtain ⟨k, hk, hl⟩ := unlock_idle e hf (.inl this)
  exact ⟨k, by omega, hl⟩

theorem set_idle (hf : e.Fair) {t m : Nat} (hp : (e.st m).pc t = .wSet) : ∃ j, m ≤ j ∧ (e.st j).pc t = .idle := by
  obtain ⟨j, hj, hw, hs⟩ := holder_move e hf (t := t) (m := m) (by rw [hp]; rfl)
  have h := exec_step e hw
  rw [hp] at hs
  have : (e.st (j + 1)).pc t = .wNotify := by
    generalize e.st (j + 1) = s' at h ⊢
    generalize e.act j = a at h
    cases h <;> simp_all [upd_self]
  obtain ⟨k, hk, hl⟩ := notify_idle e hf this
  exact ⟨k, by omega, hl⟩

/-- The flag is cleared by a thread in `wait`. -/
theorem clear_by {m : Nat} (h : e.act m = .clear) :
    ∃ t, e.who m = some t ∧ (e.st m).pc t = .aClear ∧ (e.st (m + 1)).pc t = .aUnlock := by
  have hs := e.step m
  cases hw : e.who m with
  | none => rw [hw] at hs; simp only at hs; rw [h] at hs; simp at hs
  | some t =>
    rw [hw, h] at hs
    simp only at hs
    refine ⟨t, rfl, ?_⟩
    generalize e.st (m + 1) = s' at hs ⊢
    generalize e.st m = s at hs ⊢
    cases hs
    simp_all [upd_self]

/-- A sleeping thread sleeps on or is woken. -/
theorem asleep_or_woken {u n : Nat} (h : (e.st n).pc u = .asleep) (k : Nat) :
    (e.st (n + k)).pc u = .asleep ∨ ∃ j, n ≤ j ∧ (e.st j).pc u = .woken := by
  induction k with
  | zero => exact .inl h
  | succ k ih =>
    obtain ih | ih := ih
    · have hs := e.step (n + k)
      rw [show n + (k + 1) = n + k + 1 by omega]
      cases hw : e.who (n + k) with
      | none => rw [hw] at hs; simp only at hs; rw [hs.1]; exact .inl ih
      | some t =>
        rw [hw] at hs
        have : (e.st (n + k + 1)).pc u = .asleep ∨ (e.st (n + k + 1)).pc u = .woken := by
          generalize e.st (n + k + 1) = s' at hs ⊢
          generalize e.act (n + k) = a at hs
          generalize e.st (n + k) = s at hs ih
          simp only at hs
          by_cases e1 : u = t
          · subst e1
            cases hs <;> simp_all [upd_self]
          · cases hs with
            | @wNotify v hp hv =>
              by_cases e2 : u = v
              · subst e2; right; simp [upd_self]
              · left; simp only [upd_ne _ _ e2, upd_ne _ _ e1]; exact ih
            | _ => left; simp only [upd_ne _ _ e1]; exact ih
        obtain h | h := this
        · exact .inl h
        · exact .inr ⟨_, by omega, h⟩
    · exact .inr ih

/-- The flag is cleared at some time. -/
theorem consumed (hf : e.Fair) {n u : Nat} (hs : (e.st n).signaled = true)
    (hu : (e.st n).pc u = .asleep ∨ (e.st n).pc u = .aLock ∨ (e.st n).pc u = .woken ∨ (e.st n).pc u = .aCheck ∨ (e.st n).pc u = .aClear) :
    ∃ m, n ≤ m ∧ e.act m = .clear := by
  apply Classical.byContradiction
  intro hc
  have hn : ∀ m, n ≤ m → e.act m ≠ .clear := fun m hm h => hc ⟨m, hm, h⟩
  have hsig : ∀ k, (e.st (n + k)).signaled = true := by
    intro k
    induction k with
    | zero => exact hs
    | succ k ih =>
      have h := e.step (n + k)
      cases hw : e.who (n + k) with
      | none => rw [hw] at h; simp only at h; rw [show n + (k + 1) = n + k + 1 by omega, h.1]; exact ih
      | some t => rw [hw] at h; exact step_flag h (hn (n + k) (by omega)) ih
  have hsig' : ∀ m, n ≤ m → (e.st m).signaled = true := fun m hm => by
    have := hsig (m - n)
    rwa [show n + (m - n) = m by omega] at this
  have hclear : ∀ m t, n ≤ m → (e.st m).pc t ≠ .aClear := fun m t hm h => by
    obtain ⟨j, hj, ha, -⟩ := clear_act e hf h
    exact hn j (by omega) ha
  have hcheck : ∀ m t, n ≤ m → (e.st m).pc t ≠ .aCheck := fun m t hm h => by
    obtain ⟨j, hj, ⟨-, h⟩ | ⟨h, -⟩⟩ := check_move e hf h
    · exact hclear (j + 1) t (by omega) h
    · rw [hsig' j (by omega)] at h; simp at h
  have hlock : ∀ m t, n ≤ m → (e.st m).pc t ≠ .aLock ∧ (e.st m).pc t ≠ .woken := fun m t hm => by
    constructor <;> intro h
    · obtain ⟨j, hj, h⟩ := lock_move e hf (.inl h)
      exact hcheck j t (by omega) h
    · obtain ⟨j, hj, h⟩ := lock_move e hf (.inr h)
      exact hcheck j t (by omega) h
  obtain h | h | h | h | h := hu
  · have hall : ∀ m, n ≤ m → (e.st m).pc u = .asleep := fun m hm => by
      obtain h' | ⟨j, hj, h'⟩ := asleep_or_woken e h (m - n)
      · rwa [show n + (m - n) = m by omega] at h'
      · exact absurd h' (hlock j u hj).2
    obtain ⟨t, ht⟩ := (exec_inv e n).nolost hs ⟨u, h⟩
    cases hp : (e.st n).pc t with
    | woken => exact (hlock n t (by omega)).2 hp
    | aCheck => exact hcheck n t (by omega) hp
    | aClear => exact hclear n t (by omega) hp
    | wNotify =>
      obtain ⟨j, hj, hw, hst⟩ := holder_move e hf (t := t) (m := n) (by rw [hp]; rfl)
      have hstep := exec_step e hw
      have hau := hall j hj
      rw [hp] at hst
      have : ∃ v, (e.st (j + 1)).pc v = .woken := by
        generalize e.st (j + 1) = s' at hstep ⊢
        generalize e.act j = a at hstep
        generalize e.st j = s at hstep hst hau
        cases hstep with
        | @wNotify v _ _ => exact ⟨v, by simp [upd_self]⟩
        | wNotifyNone _ hn => exact absurd hau (hn u)
        | _ => simp_all
      obtain ⟨v, hv⟩ := this
      exact (hlock (j + 1) v (by omega)).2 hv
    | _ => rw [hp] at ht; simp [Pc.flying] at ht
  · exact (hlock n u (by omega)).1 h
  · exact (hlock n u (by omega)).2 h
  · exact hcheck n u (by omega) h
  · exact hclear n u (by omega) h
end

end Verif.Event
