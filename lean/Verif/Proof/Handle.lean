import Verif.Model.Handle
import Verif.Spec.Handle
set_option linter.unusedSimpArgs false

/-!
# Invariant of the handles
-/
namespace Verif.Handle

/-- The handle a thread has in a local variable. -/
def Pc.held : Pc → Option Nat
  | .releasing h _ => some h
  | .store _ v => v
  | _ => none

theorem upd_same {A : Type} (f : Nat → A) (k : Nat) (a : A) : upd f k a k = a := by simp [upd]

theorem upd_ne {A : Type} (f : Nat → A) (k j : Nat) (a : A) (h : j ≠ k) : upd f k a j = f j := by simp [upd, h]

/-- The places a handle can be. -/
inductive Place where
  | obj (a : Nat)
  | thr (t : Nat)
  | released
  | lost
  deriving DecidableEq

/-- Handle `h` is at the place. -/
def At (s : St) (h : Nat) : Place → Prop
  | .obj a => s.slot a = some h
  | .thr t => (s.pc t).held = some h
  | .released => h ∈ s.released
  | .lost => h ∈ s.lost

/-- Every handle obtained is at one place, and nothing else is anywhere. -/
structure Inv (s : St) : Prop where
  lt : ∀ h p, At s h p → h < s.next
  uniq : ∀ h p q, At s h p → At s h q → p = q
  some : ∀ h, h < s.next → ∃ p, At s h p
  nodup : s.released.Nodup
  nodupLost : s.lost.Nodup

theorem inv_init : Inv St.init := by
  constructor
  · intro h p hp; cases p <;> simp [At, St.init, Pc.held] at hp
  · intro h p q hp; cases p <;> simp [At, St.init, Pc.held] at hp
  · intro h hh; simp [St.init] at hh
  · simp [St.init]
  · simp [St.init]

/-- A step that takes the handle `h0` from place `src` to place `dst` and leaves the others keeps the invariant. -/
theorem inv_move {s s' : St} (hi : Inv s) (hn : s'.next = s.next) (f : Nat → Place → Place)
    (hto : ∀ h p, At s h p → At s' h (f h p)) (hfrom : ∀ h q, At s' h q → ∃ p, At s h p ∧ f h p = q)
    (hnd : s'.released.Nodup) (hndl : s'.lost.Nodup) : Inv s' := by
  constructor
  · intro h q hq
    obtain ⟨p, hp, -⟩ := hfrom h q hq
    rw [hn]; exact hi.lt h p hp
  · intro h q q' hq hq'
    obtain ⟨p, hp, rfl⟩ := hfrom h q hq
    obtain ⟨p', hp', rfl⟩ := hfrom h q' hq'
    rw [hi.uniq h p p' hp hp']
  · intro h hh
    obtain ⟨p, hp⟩ := hi.some h (hn ▸ hh)
    exact ⟨_, hto h p hp⟩
  · exact hnd
  · exact hndl

theorem held_after (v : Option Nat) (c : Cont) : (afterExchange v c).held = v := by
  cases v <;> cases c <;> rfl

/-- Taking the handle out of object `a` into the idle-handed thread `t`. -/
theorem inv_take {s : St} (hi : Inv s) (t a : Nat) (p : Pc) (h0 : (s.pc t).held = none) (hp : p.held = s.slot a) :
    Inv { s with slot := upd s.slot a none, pc := upd s.pc t p } := by
  refine inv_move hi rfl (fun _ q => if q = .obj a then .thr t else q) ?_ ?_ hi.nodup hi.nodupLost
  · intro h q hq
    cases q with
    | obj b =>
      by_cases hb : b = a
      · subst hb
        simp only [if_true, At, upd_same]
        rw [hp]; exact hq
      · rw [if_neg (by simpa using hb)]
        simpa only [At, upd_ne _ _ _ _ hb] using hq
    | thr u =>
      rw [if_neg (by simp)]
      by_cases hu : u = t
      · subst hu; simp [At, h0] at hq
      · simpa only [At, upd_ne _ _ _ _ hu] using hq
    | released => simpa [At] using hq
    | lost => simpa [At] using hq
  · intro h q hq
    cases q with
    | obj b =>
      by_cases hb : b = a
      · subst hb; simp [At, upd_same] at hq
      · exact ⟨.obj b, by simpa only [At, upd_ne _ _ _ _ hb] using hq, by simp [hb]⟩
    | thr u =>
      by_cases hu : u = t
      · subst hu
        refine ⟨.obj a, ?_, by simp⟩
        simp only [At, upd_same, hp] at hq
        exact hq
      · exact ⟨.thr u, by simpa only [At, upd_ne _ _ _ _ hu] using hq, by simp⟩
    | released => exact ⟨.released, hq, by simp⟩
    | lost => exact ⟨.lost, hq, by simp⟩

/-- A step that moves no handle. -/
theorem inv_same {s : St} (hi : Inv s) (t : Nat) (p : Pc) (hp : p.held = (s.pc t).held) :
    Inv { s with pc := upd s.pc t p } := by
  refine inv_move hi rfl (fun _ q => q) ?_ ?_ hi.nodup hi.nodupLost
  · intro h q hq
    cases q with
    | thr u =>
      by_cases hu : u = t
      · subst hu; simp only [At, upd_same, hp]; exact hq
      · simpa only [At, upd_ne _ _ _ _ hu] using hq
    | _ => exact hq
  · intro h q hq
    refine ⟨q, ?_, rfl⟩
    cases q with
    | thr u =>
      by_cases hu : u = t
      · subst hu; simp only [At, upd_same, hp] at hq; exact hq
      · simpa only [At, upd_ne _ _ _ _ hu] using hq
    | _ => exact hq

/-- Releasing. -/
theorem inv_release {s : St} (hi : Inv s) (t h0 : Nat) (p : Pc) (h : (s.pc t).held = some h0) (hp : p.held = none) :
    Inv { s with pc := upd s.pc t p, released := s.released ++ [h0] } := by
  refine inv_move hi rfl (fun _ q => if q = .thr t then .released else q) ?_ ?_ ?_ hi.nodupLost
  · intro k q hq
    cases q with
    | obj b => simpa [At] using hq
    | thr u =>
      by_cases hu : u = t
      · subst hu
        simp only [if_true, At, List.mem_append, List.mem_singleton]
        simp only [At, h, Option.some.injEq] at hq
        exact .inr hq.symm
      · rw [if_neg (by simpa using hu)]
        simpa only [At, upd_ne _ _ _ _ hu] using hq
    | released =>
      simp only [At] at hq
      simp [At, hq]
    | lost => simpa [At] using hq
  · intro k q hq
    cases q with
    | obj b => exact ⟨.obj b, hq, by simp⟩
    | thr u =>
      by_cases hu : u = t
      · subst hu; simp [At, upd_same, hp] at hq
      · exact ⟨.thr u, by simpa only [At, upd_ne _ _ _ _ hu] using hq, by simp [hu]⟩
    | released =>
      simp only [At, List.mem_append, List.mem_singleton] at hq
      rcases hq with hq | hq
      · exact ⟨.released, hq, by simp⟩
      · exact ⟨.thr t, by simp only [At]; rw [h, hq], by simp⟩
    | lost => exact ⟨.lost, hq, by simp⟩
  · rw [List.nodup_append]
    refine ⟨hi.nodup, by simp, ?_⟩
    intro a ha b hb
    simp only [List.mem_singleton] at hb
    subst hb
    intro hab
    subst hab
    have := hi.uniq a .released (.thr t) ha h
    simp at this

/-- Assigning. -/
theorem inv_store {s : St} (hi : Inv s) (t dst : Nat) (v : Option Nat) (h : (s.pc t).held = v) :
    Inv { s with slot := upd s.slot dst v, pc := upd s.pc t .idle, lost := s.lost ++ (s.slot dst).toList } := by
  refine inv_move hi rfl (fun _ q => if q = .thr t then .obj dst else if q = .obj dst then .lost else q) ?_ ?_ hi.nodup ?_
  · intro k q hq
    cases q with
    | obj b =>
      rw [if_neg (by simp)]
      by_cases hb : b = dst
      · subst hb
        simp only [At] at hq
        simp [At, hq]
      · rw [if_neg (by simpa using hb)]
        simpa only [At, upd_ne _ _ _ _ hb] using hq
    | thr u =>
      by_cases hu : u = t
      · subst hu
        simp only [if_true, At, upd_same]
        simp only [At, h] at hq
        exact hq
      · rw [if_neg (by simpa using hu), if_neg (by simp)]
        simpa only [At, upd_ne _ _ _ _ hu] using hq
    | released => simpa [At] using hq
    | lost =>
      simp only [At] at hq
      simp [At, hq]
  · intro k q hq
    cases q with
    | obj b =>
      by_cases hb : b = dst
      · subst hb
        simp only [At, upd_same] at hq
        exact ⟨.thr t, by simp only [At]; rw [h, hq], by simp⟩
      · exact ⟨.obj b, by simpa only [At, upd_ne _ _ _ _ hb] using hq, by simp [hb]⟩
    | thr u =>
      by_cases hu : u = t
      · subst hu; simp [At, upd_same, Pc.held] at hq
      · exact ⟨.thr u, by simpa only [At, upd_ne _ _ _ _ hu] using hq, by simp [hu]⟩
    | released => exact ⟨.released, hq, by simp⟩
    | lost =>
      simp only [At, List.mem_append] at hq
      rcases hq with hq | hq
      · exact ⟨.lost, hq, by simp⟩
      · exact ⟨.obj dst, by simpa [At] using hq, by simp⟩
  · rw [List.nodup_append]
    refine ⟨hi.nodupLost, by cases s.slot dst <;> simp, ?_⟩
    intro a ha b hb hab
    subst hab
    have := hi.uniq a .lost (.obj dst) ha (by simpa [At] using hb)
    simp at this

/-- Opening. -/
theorem inv_opened {s : St} (hi : Inv s) (t dst : Nat) (h : (s.pc t).held = none) :
    Inv { s with pc := upd s.pc t (.store dst (some s.next)), next := s.next + 1 } := by
  have key : ∀ k q, At { s with pc := upd s.pc t (.store dst (Option.some s.next)), next := s.next + 1 } k q ↔
      At s k q ∨ (k = s.next ∧ q = .thr t) := by
    intro k q
    cases q with
    | thr u =>
      by_cases hu : u = t
      · subst hu
        simp only [At, upd_same, h]
        simp [Pc.held, eq_comm]
      · simp [At, upd_ne _ _ _ _ hu, hu]
    | _ => simp [At]
  constructor
  · intro k q hq
    show k < s.next + 1
    rcases (key k q).1 hq with h' | ⟨h', -⟩
    · have := hi.lt k q h'; omega
    · omega
  · intro k p q hp hq
    rcases (key k p).1 hp with h1 | ⟨h1, h1'⟩ <;> rcases (key k q).1 hq with h2 | ⟨h2, h2'⟩
    · exact hi.uniq k p q h1 h2
    · have := hi.lt k p h1; omega
    · have := hi.lt k q h2; omega
    · rw [h1', h2']
  · intro k hk
    have hk : k < s.next + 1 := hk
    by_cases hk' : k = s.next
    · exact ⟨.thr t, (key _ _).2 (.inr ⟨hk', rfl⟩)⟩
    · obtain ⟨p, hp⟩ := hi.some k (by omega)
      exact ⟨p, (key _ _).2 (.inl hp)⟩
  · exact hi.nodup
  · exact hi.nodupLost

theorem inv_step {s s' : St} {t : Nat} (hs : Step s t s') (hi : Inv s) : Inv s' := by
  cases hs with
  | close hp => exact inv_take hi _ _ _ (by rw [hp]; rfl) (held_after _ _)
  | moveFrom hp => exact inv_take hi _ _ _ (by rw [hp]; rfl) (held_after _ _)
  | moveCtor hp _ => exact inv_same hi _ _ (by rw [hp]; rfl)
  | release hp => exact inv_release hi _ _ _ (by rw [hp]; rfl) (held_after _ _)
  | releaseThrows hp => exact inv_release hi _ _ _ (by rw [hp]; rfl) rfl
  | exchange hp => exact inv_take hi _ _ _ (by rw [hp]; rfl) rfl
  | store hp => exact inv_store hi _ _ _ (by rw [hp]; rfl)
  | connect hp _ => exact inv_same hi _ _ (by rw [hp]; rfl)
  | openNoCheck hp => exact inv_same hi _ _ (by rw [hp]; rfl)
  | opened hp => exact inv_opened hi _ _ (by rw [hp]; rfl)
  | openFails hp => exact inv_same hi _ _ (by rw [hp]; rfl)

theorem inv_steps {s s' : St} (hs : Steps s s') (hi : Inv s) : Inv s' := by
  induction hs with
  | nil => exact hi
  | snoc _ h ih => exact inv_step h ih

theorem CarefulSteps.steps {s s' : St} (h : CarefulSteps s s') : Steps s s' := by
  induction h with
  | nil => exact .nil
  | snoc _ h ih => exact ih.snoc h.1

/-- What careful steps keep: an object a thread is going to assign to is empty, only one thread is going to assign to it, and
nothing was overwritten. -/
structure CInv (s : St) : Prop where
  empty : ∀ t dst, (s.pc t).target = some dst → s.slot dst = none
  one : ∀ t u dst, (s.pc t).target = some dst → (s.pc u).target = some dst → t = u
  lost : s.lost = []

theorem cinv_init : CInv St.init := by
  constructor <;> simp [St.init, Pc.target]

theorem target_after_none (c : Cont) (h : Nat) : (afterExchange none c).target = (Pc.releasing h c).target := by
  cases c <;> rfl

theorem target_after_stop (v : Option Nat) : (afterExchange v .stop).target = none := by
  cases v <;> rfl

theorem target_after_exchange (v : Option Nat) (d a : Nat) : (afterExchange v (.exchange d a)).target = some d := by
  cases v <;> rfl

/-- A step that makes some object empty and keeps or drops the target of the thread. -/
theorem cinv_keep {s s' : St} (hc : CInv s) (t : Nat) (p : Pc) (hpc : s'.pc = upd s.pc t p)
    (hslot : ∀ a, s'.slot a = s.slot a ∨ s'.slot a = none) (hl : s'.lost = s.lost)
    (ht : p.target = none ∨ p.target = (s.pc t).target) : CInv s' := by
  have hb : ∀ u dst, (s'.pc u).target = some dst → (s.pc u).target = some dst := by
    intro u dst h
    rw [hpc] at h
    by_cases hu : u = t
    · subst hu
      rw [upd_same] at h
      rcases ht with ht | ht
      · rw [ht] at h; cases h
      · rw [← ht]; exact h
    · rwa [upd_ne _ _ _ _ hu] at h
  constructor
  · intro u dst h
    rcases hslot dst with h' | h'
    · rw [h']; exact hc.empty u dst (hb u dst h)
    · exact h'
  · intro u v dst hu hv
    exact hc.one u v dst (hb u dst hu) (hb v dst hv)
  · rw [hl]; exact hc.lost

/-- A step that gives an idle thread a target nobody has. -/
theorem cinv_new {s s' : St} (hc : CInv s) (t : Nat) (p : Pc) (d : Nat) (hpc : s'.pc = upd s.pc t p)
    (hslot : ∀ a, s'.slot a = s.slot a ∨ s'.slot a = none) (hl : s'.lost = s.lost) (ht : p.target = some d)
    (hd : s'.slot d = none) (hf : ∀ u, (s.pc u).target ≠ some d) : CInv s' := by
  have hb : ∀ u dst, (s'.pc u).target = some dst → (u = t ∧ dst = d) ∨ (dst ≠ d ∧ (s.pc u).target = some dst) := by
    intro u dst h
    rw [hpc] at h
    by_cases hu : u = t
    · subst hu
      rw [upd_same, ht] at h
      exact .inl ⟨rfl, by simpa [eq_comm] using h⟩
    · rw [upd_ne _ _ _ _ hu] at h
      refine .inr ⟨?_, h⟩
      rintro rfl
      exact hf u h
  constructor
  · intro u dst h
    rcases hb u dst h with ⟨-, rfl⟩ | ⟨-, h1⟩
    · exact hd
    · rcases hslot dst with h' | h'
      · rw [h']; exact hc.empty u dst h1
      · exact h'
  · intro u v dst hu hv
    rcases hb u dst hu with ⟨rfl, rfl⟩ | ⟨h1, h1'⟩ <;> rcases hb v dst hv with ⟨rfl, h2⟩ | ⟨h2, h2'⟩
    · rfl
    · exact absurd rfl h2
    · exact absurd h2 h1
    · exact hc.one u v dst h1' h2'
  · rw [hl]; exact hc.lost

theorem slot_upd_none (f : Nat → Option Nat) (a b : Nat) : upd f a none b = f b ∨ upd f a none b = none := by
  by_cases h : b = a
  · subst h; exact .inr (upd_same _ _ _)
  · exact .inl (upd_ne _ _ _ _ h)

theorem cinv_step {s s' : St} {t : Nat} (hs : Careful s t s') (hc : CInv s) : CInv s' := by
  obtain ⟨hs, hcare⟩ := hs
  cases hs with
  | close hp =>
    exact cinv_keep hc t _ rfl (slot_upd_none _ _) rfl (.inl (target_after_stop _))
  | @moveFrom dst src hp =>
    have := hcare dst (by rw [hp]; rfl) (by simp only [upd_same]; exact target_after_exchange _ _ _)
    exact cinv_new hc t _ dst rfl (slot_upd_none _ _) rfl (target_after_exchange _ _ _) (upd_same _ _ _) this.1
  | @moveCtor dst src hp he =>
    have := hcare dst (by rw [hp]; rfl) (by simp only [upd_same]; rfl)
    exact cinv_new hc t _ dst rfl (fun _ => .inl rfl) rfl rfl he this.1
  | @release h c hp =>
    exact cinv_keep hc t _ rfl (fun _ => .inl rfl) rfl (.inr (by rw [hp]; exact target_after_none _ _))
  | releaseThrows hp => exact cinv_keep hc t _ rfl (fun _ => .inl rfl) rfl (.inl rfl)
  | exchange hp => exact cinv_keep hc t _ rfl (slot_upd_none _ _) rfl (.inr (by rw [hp]; rfl))
  | @store dst v hp =>
    have he := hc.empty t dst (by rw [hp]; rfl)
    constructor
    · intro u d hu
      by_cases hut : u = t
      · subst hut; simp [upd_same, Pc.target] at hu
      · simp only [upd_ne _ _ _ _ hut] at hu
        have hd : d ≠ dst := by
          rintro rfl
          exact hut (hc.one u t d hu (by rw [hp]; rfl))
        show upd s.slot dst v d = none
        rw [upd_ne _ _ _ _ hd]
        exact hc.empty u d hu
    · intro u w d hu hw
      have hu' : u ≠ t := by rintro rfl; simp [upd_same, Pc.target] at hu
      have hw' : w ≠ t := by rintro rfl; simp [upd_same, Pc.target] at hw
      simp only [upd_ne _ _ _ _ hu'] at hu
      simp only [upd_ne _ _ _ _ hw'] at hw
      exact hc.one u w d hu hw
    · simp [he, hc.lost]
  | @connect dst hp he =>
    have := hcare dst (by rw [hp]; rfl) (by simp only [upd_same]; rfl)
    exact cinv_new hc t _ dst rfl (fun _ => .inl rfl) rfl rfl he this.1
  | @openNoCheck dst hp =>
    have := hcare dst (by rw [hp]; rfl) (by simp only [upd_same]; rfl)
    exact cinv_new hc t _ dst rfl (fun _ => .inl rfl) rfl rfl (this.2 (upd_same _ _ _)) this.1
  | opened hp => exact cinv_keep hc t _ rfl (fun _ => .inl rfl) rfl (.inr (by rw [hp]; rfl))
  | openFails hp => exact cinv_keep hc t _ rfl (fun _ => .inl rfl) rfl (.inr (by rw [hp]; rfl))

theorem cinv_steps {s s' : St} (hs : CarefulSteps s s') (hi : CInv s) : CInv s' := by
  induction hs with
  | nil => exact hi
  | snoc _ h ih => exact cinv_step h ih

end Verif.Handle
