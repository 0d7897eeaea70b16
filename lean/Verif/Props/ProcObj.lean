import Verif.Spec.ProcObj
set_option linter.unusedSimpArgs false

/-!
# C106: objects of class Process
-/
namespace Verif.Props.ProcObj
open Verif.ProcObj
open Verif.Spec.ProcObj
open Verif.Handle (upd)
open Verif.Process (Kid End)

/-- No handle is held by two objects, and on Windows exactly the handles that are held are open. -/
def Inv (pf : Platform) (w : World) : Prop :=
  (∀ o p h, Holds w o h → Holds w p h → o = p) ∧ (pf = .windows → ∀ h, w.opn h = true ↔ ∃ o, Holds w o h)

theorem close_inv (pf : Platform) (o : Nat) (w : World) (i : Inv pf w) (ho : w.obj o ≠ none) :
    ∃ w', close pf o w = .ok w' ∧ Inv pf w' ∧ w'.obj = upd w.obj o (some none) ∧ w'.kid = w.kid := by
  unfold close
  cases e : w.obj o with
  | none => exact absurd e ho
  | some d =>
    cases d with
    | none =>
      have : w.obj = upd w.obj o (some none) := by funext i; simp only [upd]; split <;> simp_all
      exact ⟨w, rfl, i, this, rfl⟩
    | some h =>
      have hh : ∀ p k, upd w.obj o (some none) p = some (some k) ↔ p ≠ o ∧ Holds w p k := by
        intro p k
        simp only [upd, Holds]
        split <;> simp_all
      cases pf with
      | posix =>
        refine ⟨_, rfl, ⟨fun p q k h1 h2 => ?_, by simp⟩, rfl, rfl⟩
        exact i.1 p q k ((hh p k).1 h1).2 ((hh q k).1 h2).2
      | windows =>
        have hopen : w.opn h = true := (i.2 rfl h).2 ⟨o, e⟩
        simp only [hopen, if_true]
        refine ⟨_, rfl, ⟨fun p q k h1 h2 => ?_, fun _ k => ?_⟩, rfl, rfl⟩
        · exact i.1 p q k ((hh p k).1 h1).2 ((hh q k).1 h2).2
        · by_cases hk : k = h
          · subst hk
            simp only [upd, if_true, Bool.false_eq_true, false_iff, not_exists]
            intro p hp
            have := (hh p k).1 hp
            exact this.1 (i.1 p o k this.2 e)
          · simp only [upd, if_neg hk]
            rw [i.2 rfl k]
            constructor
            · rintro ⟨p, hp⟩
              refine ⟨p, (hh p k).2 ⟨?_, hp⟩⟩
              rintro rfl
              rw [Holds, e] at hp
              cases hp
              exact hk rfl
            · rintro ⟨p, hp⟩
              exact ⟨p, ((hh p k).1 hp).2⟩

theorem move_inv (pf : Platform) (dbg : Bool) (o p : Nat) (w : World) (i : Inv pf w) (ho : w.obj o = some none) (hp : w.obj p ≠ none) (hne : o ≠ p) :
    ∃ w', move dbg o p w = .ok w' ∧ Inv pf w' := by
  unfold move
  cases e : w.obj p with
  | none => exact absurd e hp
  | some s =>
    simp only [ho]
    refine ⟨_, by simp; rfl, ?_⟩
    have hh : ∀ q k, upd (upd w.obj o (some s)) p (some none) q = some (some k) ↔ (q = o ∧ Holds w p k) ∨ (q ≠ o ∧ q ≠ p ∧ Holds w q k) := by
      intro q k
      simp only [upd, Holds]
      by_cases h1 : q = p <;> by_cases h2 : q = o <;> simp_all
    refine ⟨fun q r k h1 h2 => ?_, fun hw k => ?_⟩
    · rcases (hh q k).1 h1 with ⟨a1, a2⟩ | ⟨a1, a2, a3⟩ <;> rcases (hh r k).1 h2 with ⟨b1, b2⟩ | ⟨b1, b2, b3⟩
      · rw [a1, b1]
      · exact absurd (i.1 r p k b3 a2) b2
      · exact absurd (i.1 q p k a3 b2) a2
      · exact i.1 q r k a3 b3
    · show w.opn k = true ↔ _
      rw [i.2 hw k]
      constructor
      · rintro ⟨q, hq⟩
        by_cases h1 : q = p
        · exact ⟨o, (hh o k).2 (.inl ⟨rfl, h1 ▸ hq⟩)⟩
        · refine ⟨q, (hh q k).2 (.inr ⟨?_, h1, hq⟩)⟩
          rintro rfl
          rw [Holds, ho] at hq
          cases hq
      · rintro ⟨q, hq⟩
        rcases (hh q k).1 hq with ⟨_, a2⟩ | ⟨_, _, a3⟩
        · exact ⟨p, a2⟩
        · exact ⟨q, a3⟩

theorem upd_none_inv (pf : Platform) (o : Nat) (w : World) (i : Inv pf w) (v : Option (Option Nat)) (hv : ∀ h, v ≠ some (some h))
    (ho : ∀ h, ¬ Holds w o h) : Inv pf { w with obj := upd w.obj o v } := by
  have hh : ∀ q k, upd w.obj o v q = some (some k) ↔ Holds w q k := by
    intro q k
    simp only [upd, Holds]
    by_cases h1 : q = o
    · subst h1
      simp only [if_true]
      exact ⟨fun h => absurd h (hv k), fun h => absurd h (ho k)⟩
    · simp [h1]
  refine ⟨fun q r k h1 h2 => i.1 q r k ((hh q k).1 h1) ((hh r k).1 h2), fun hw k => ?_⟩
  show w.opn k = true ↔ _
  rw [i.2 hw k]
  exact ⟨fun ⟨q, hq⟩ => ⟨q, (hh q k).2 hq⟩, fun ⟨q, hq⟩ => ⟨q, (hh q k).1 hq⟩⟩

theorem step_inv (pf : Platform) (dbg : Bool) (op : Op) (w : World) (i : Inv pf w) (ha : Allowed pf w op) :
    ∃ w', step pf dbg op w = .ok w' ∧ Inv pf w' := by
  cases op with
  | new o =>
    have ho : w.obj o = none := ha
    simp only [step, ho, Option.isSome_none, Bool.false_eq_true, if_false]
    exact ⟨_, rfl, upd_none_inv pf o w i _ (by simp) (by simp [Holds, ho])⟩
  | run o r =>
    obtain ⟨ho, hr⟩ := ha
    obtain ⟨w1, e1, i1, o1, k1⟩ := close_inv pf o w i ho
    simp only [step, e1, Res.ok_bind]
    cases r with
    | none => exact ⟨_, rfl, i1⟩
    | some h =>
      refine ⟨_, rfl, ?_⟩
      have hfree : ∀ q, ¬ Holds w1 q h := by
        intro q hq
        rw [Holds, o1] at hq
        simp only [upd] at hq
        split at hq
        · cases hq
        · rename_i hne
          have := hr h rfl
          cases pf with
          | windows =>
            have h2 : w.opn h = true := (i.2 rfl h).2 ⟨q, hq⟩
            exact hne (i.1 q o h hq (this h2))
          | posix => exact hne (this.2 q hq)
      have hh : ∀ q k, upd w1.obj o (some (some h)) q = some (some k) ↔ (q = o ∧ k = h) ∨ (q ≠ o ∧ Holds w1 q k) := by
        intro q k
        simp only [upd, Holds]
        by_cases h1 : q = o
        · simp [h1, eq_comm]
        · simp [h1]
      have ho1 : ∀ k, ¬ Holds w1 o k := by intro k hk; rw [Holds, o1] at hk; simp [upd] at hk
      refine ⟨fun q s k h1 h2 => ?_, fun hw k => ?_⟩
      · rcases (hh q k).1 h1 with ⟨a1, a2⟩ | ⟨a1, a2⟩ <;> rcases (hh s k).1 h2 with ⟨b1, b2⟩ | ⟨b1, b2⟩
        · rw [a1, b1]
        · exact absurd (a2 ▸ b2) (hfree s)
        · exact absurd (b2 ▸ a2) (hfree q)
        · exact i1.1 q s k a2 b2
      · show upd w1.opn h true k = true ↔ _
        by_cases hk : k = h
        · subst hk
          simp only [upd, if_true, true_iff]
          exact ⟨o, (hh o k).2 (.inl ⟨rfl, rfl⟩)⟩
        · simp only [upd, if_neg hk]
          rw [i1.2 hw k]
          constructor
          · rintro ⟨q, hq⟩
            refine ⟨q, (hh q k).2 (.inr ⟨?_, hq⟩)⟩
            rintro rfl
            exact ho1 k hq
          · rintro ⟨q, hq⟩
            rcases (hh q k).1 hq with ⟨_, a2⟩ | ⟨_, a2⟩
            · exact absurd a2 hk
            · exact ⟨q, a2⟩
  | copy o p =>
    obtain ⟨ho, hp⟩ := ha
    have hne : o ≠ p := fun e => hp (e ▸ ho)
    simp only [step, ho, Option.isSome_none, Bool.false_eq_true, if_false]
    exact move_inv pf dbg o p _ (upd_none_inv pf o w i _ (by simp) (by simp [Holds, ho])) (by simp [upd]) (by simpa [upd, hne.symm] using hp) hne
  | assign o p =>
    obtain ⟨hp, ho⟩ := ha
    simp only [step]
    by_cases hop : o = p
    · subst hop
      refine ⟨w, ?_, i⟩
      rw [if_pos rfl]
      cases e : w.obj o
      · exact absurd e hp
      · simp
    · rw [if_neg hop]
      exact move_inv pf dbg o p w i (ho hop) hp hop
  | del o =>
    obtain ⟨w1, e1, i1, o1, k1⟩ := close_inv pf o w i ha
    simp only [step, e1, Res.ok_bind]
    exact ⟨_, rfl, upd_none_inv pf o w1 i1 none (by simp) (fun k hk => by rw [Holds, o1] at hk; simp [upd] at hk)⟩
  | ask o =>
    cases e : w.obj o with
    | none => exact absurd e ha
    | some d =>
      cases d with
      | none => exact ⟨w, by simp [step, e], i⟩
      | some h =>
        cases pf with
        | posix => exact ⟨{ w with kid := upd w.kid h (Process.isAlive true (w.kid h)).2.2 }, by simp [step, e], i.1, by simp⟩
        | windows => exact ⟨w, by simp [step, e], i⟩
  | ends h e =>
    refine ⟨_, rfl, ?_⟩
    split
    · exact ⟨i.1, i.2⟩
    · exact i

theorem steps_inv (pf : Platform) (dbg : Bool) (ops : List Op) : ∀ w, Inv pf w → AllAllowed pf dbg ops w →
    ∃ w', steps pf dbg ops w = .ok w' ∧ Inv pf w' := by
  induction ops with
  | nil => exact fun w i _ => ⟨w, rfl, i⟩
  | cons op ops ih =>
    intro w i ha
    obtain ⟨w1, e1, i1⟩ := step_inv pf dbg op w i ha.1
    obtain ⟨w2, e2, i2⟩ := ih w1 i1 (ha.2 w1 e1)
    exact ⟨w2, by simp only [steps, e1, Res.ok_bind]; exact e2, i2⟩

/-- C106: in any correct use, no assertion fails and no handle is closed twice; a handle belongs to at most one object, and on Windows
the handles that are open are exactly those that belong to an object. -/
theorem C106_owned (pf : Platform) (dbg : Bool) (ops : List Op) (ha : AllAllowed pf dbg ops World.init) :
    ∃ w, steps pf dbg ops World.init = .ok w ∧ (∀ o p h, Holds w o h → Holds w p h → o = p) ∧
      (pf = .windows → ∀ h, w.opn h = true ↔ ∃ o, Holds w o h) := by
  have i0 : Inv pf World.init := ⟨by simp [Holds, World.init], by simp [Holds, World.init]⟩
  obtain ⟨w, e, i⟩ := steps_inv pf dbg ops _ i0 ha
  exact ⟨w, e, i.1, i.2⟩

/-- C106: so when all objects are gone, no handle is left open. -/
theorem C106_no_leak (dbg : Bool) (ops : List Op) (ha : AllAllowed .windows dbg ops World.init) (w : World)
    (e : steps .windows dbg ops World.init = .ok w) (hn : ∀ o, w.obj o = none) : ∀ h, w.opn h = false := by
  obtain ⟨w', e', -, h2⟩ := C106_owned .windows dbg ops ha
  rw [e] at e'
  cases e'
  intro h
  cases hc : w.opn h
  · rfl
  · obtain ⟨o, ho⟩ := (h2 rfl h).1 hc
    rw [Holds, hn o] at ho
    cases ho

/-- C106: copying and assigning hand the child over: the source is left without one. -/
theorem C106_hand_over (pf : Platform) (dbg : Bool) (o p h : Nat) (w : World) (hp : Holds w p h) :
    (w.obj o = none → ∃ w', step pf dbg (.copy o p) w = .ok w' ∧ Holds w' o h ∧ w'.obj p = some none ∧ answer pf p w' = .ok (false, 0) ∧
      answer pf o w' = answer pf p w) ∧
    (w.obj o = some none → ∃ w', step pf dbg (.assign o p) w = .ok w' ∧ Holds w' o h ∧ w'.obj p = some none ∧ answer pf p w' = .ok (false, 0) ∧
      answer pf o w' = answer pf p w) ∧
    (step pf dbg (.assign p p) w = .ok w) := by
  have hp' : w.obj p = some (some h) := hp
  refine ⟨fun ho => ?_, fun ho => ?_, by simp [step, hp']⟩
  · have hne : o ≠ p := by rintro rfl; rw [ho] at hp'; cases hp'
    refine ⟨_, by simp [step, ho, move, upd, hne.symm, hp']; rfl, ?_⟩
    simp [Holds, upd, hne, answer, hp']
  · have hne : o ≠ p := by rintro rfl; rw [ho] at hp'; cases hp'
    refine ⟨_, by simp [step, ho, move, upd, hne, hp']; rfl, ?_⟩
    simp [Holds, upd, hne, answer, hp']

/-- C106: what an object answers is not changed by operations on other objects or by the end of other children. -/
theorem C106_frame (pf : Platform) (dbg : Bool) (op : Op) (w w' : World) (hu : ∀ o p h, Holds w o h → Holds w p h → o = p) (ha : Allowed pf w op)
    (hw : pf = .windows → ∀ h, w.opn h = true ↔ ∃ o, Holds w o h)
    (e : step pf dbg op w = .ok w') (o h : Nat) (ho : Holds w o h) (hn : o ∉ names op) (hne : ∀ x, op ≠ .ends h x) :
    Holds w' o h ∧ w'.kid h = w.kid h ∧ answer pf o w' = answer pf o w := by
  have i : Inv pf w := ⟨hu, hw⟩
  suffices hs : w'.obj o = w.obj o ∧ w'.kid h = w.kid h by
    have h1 : w'.obj o = some (some h) := by rw [hs.1]; exact ho
    have h2 : w.obj o = some (some h) := ho
    refine ⟨h1, hs.2, ?_⟩
    simp only [answer, h1, h2, hs.2]
  cases op with
  | new p =>
    have hop : o ≠ p := by simpa [names] using hn
    simp only [step] at e
    split at e
    · cases e
    · cases e; simp [upd, hop]
  | run p r =>
    have hop : o ≠ p := by simpa [names] using hn
    obtain ⟨w1, e1, i1, o1, k1⟩ := close_inv pf p w i ha.1
    simp only [step, e1, Res.ok_bind] at e
    cases r with
    | none => cases e; simp [o1, k1, upd, hop]
    | some k =>
      cases e
      have hk : k ≠ h := by
        rintro rfl
        have := ha.2 k rfl
        cases pf with
        | windows => exact hop (hu o p k ho (this ((hw rfl k).2 ⟨o, ho⟩)))
        | posix => exact hop (this.2 o ho)
      simp [o1, k1, upd, hop, hk.symm]
  | copy p q =>
    have hop : o ≠ p ∧ o ≠ q := by simpa [names] using hn
    simp only [step] at e
    split at e
    · cases e
    · unfold move at e
      split at e
      · split at e
        · cases e
        · cases e; simp [upd, hop]
      · cases e
  | assign p q =>
    have hop : o ≠ p ∧ o ≠ q := by simpa [names] using hn
    simp only [step] at e
    split at e
    · split at e
      · cases e; simp
      · cases e
    · unfold move at e
      split at e
      · split at e
        · cases e
        · cases e; simp [upd, hop]
      · cases e
  | del p =>
    have hop : o ≠ p := by simpa [names] using hn
    obtain ⟨w1, e1, i1, o1, k1⟩ := close_inv pf p w i ha
    simp only [step, e1, Res.ok_bind] at e
    cases e
    simp [o1, k1, upd, hop]
  | ask p =>
    have hop : o ≠ p := by simpa [names] using hn
    simp only [step] at e
    split at e
    · cases e
    · cases e; simp
    · rename_i k hk
      have hkh : k ≠ h := fun he => hop (hu o p h ho (he ▸ hk))
      cases pf with
      | posix => cases e; simp [upd, hkh.symm]
      | windows => cases e; simp
  | ends k x =>
    have hkh : k ≠ h := fun he => hne x (he ▸ rfl)
    simp only [step] at e
    cases e
    split <;> simp [upd, hkh.symm]

/-- C106: a failing `run` leaves the object without a child. -/
theorem C106_run_fails (pf : Platform) (dbg : Bool) (o : Nat) (w w' : World) (e : step pf dbg (.run o none) w = .ok w') : w'.obj o = some none := by
  simp only [step] at e
  unfold close at e
  split at e
  · cases e
  · rename_i h; cases e; exact h
  · cases pf with
    | posix => cases e; simp [upd]
    | windows =>
      dsimp only at e
      split at e
      · cases e; simp [upd]
      · cases e

/-- C106: on Windows the exit code can be asked for again and again, until the object is used otherwise. -/
theorem C106_windows_code (dbg : Bool) (o h : Nat) (w : World) (ho : Holds w o h) (code : Nat) (hk : w.kid h = .zombie (.exited code)) (hc : code ≠ 259) (n : Nat) :
    steps .windows dbg (List.replicate n (.ask o)) w = .ok w ∧ answer .windows o w = .ok (false, code) := by
  have ho' : w.obj o = some (some h) := ho
  refine ⟨?_, by simp [answer, ho', hk, isAliveWin, hc]⟩
  induction n with
  | zero => rfl
  | succ n ih => simp only [List.replicate_succ, steps, step, ho', Res.ok_bind]; exact ih

/-- C106: a child that was killed on Windows has ended, with the code its killer gave; the code 259 counts as alive here too. -/
theorem C106_windows_killed (o h : Nat) (w : World) (ho : Holds w o h) (code : Nat) (hk : w.kid h = .zombie (.killed code)) :
    (code ≠ 259 → answer .windows o w = .ok (false, code)) ∧ (code = 259 → answer .windows o w = .ok (true, 0)) := by
  have ho' : w.obj o = some (some h) := ho
  constructor <;> intro hc <;> simp [answer, ho', hk, isAliveWin, hc]

/-- C106, finding: a child that ended with the code 259 counts as alive for ever on Windows. -/
theorem C106_finding_259 (o h : Nat) (w : World) (ho : Holds w o h) (hk : w.kid h = .zombie (.exited 259)) :
    answer .windows o w = .ok (true, 0) := by
  have ho' : w.obj o = some (some h) := ho
  simp [answer, ho', hk, isAliveWin]

/-- C106, finding: assigning to an object that has a child aborts; with `NDEBUG` the handle of that child stays open, whatever is
done afterwards. -/
theorem C106_finding_assign (o p h : Nat) (w : World) (hu : ∀ o p h, Holds w o h → Holds w p h → o = p)
    (ho : Holds w o h) (hp : w.obj p ≠ none) (hne : o ≠ p) (hopen : w.opn h = true) :
    step .windows true (.assign o p) w = .throw ∧
    ∃ w', step .windows false (.assign o p) w = .ok w' ∧ ∀ ops w'', AllAllowed .windows false ops w' → steps .windows false ops w' = .ok w'' →
      w''.opn h = true := by
  have ho' : w.obj o = some (some h) := ho
  cases e : w.obj p with
  | none => exact absurd e hp
  | some s =>
    refine ⟨by simp [step, hne, move, ho', e], _, by simp [step, hne, move, ho', e]; rfl, ?_⟩
    have lost : ∀ (ops : List Op) (v v' : World), (v.opn h = true ∧ ∀ q, ¬ Holds v q h) → AllAllowed .windows false ops v →
        steps .windows false ops v = .ok v' → v'.opn h = true := by
      intro ops
      induction ops with
      | nil => intro v v' hv _ e; cases e; exact hv.1
      | cons op ops ih =>
        intro v v' hv ha e
        simp only [steps, Res.bind_eq_ok] at e
        obtain ⟨v1, e1, e2⟩ := e
        refine ih v1 v' ?_ (ha.2 v1 e1) e2
        obtain ⟨hv1, hv2⟩ := hv
        have ha1 := ha.1
        have hcl : ∀ q u, close .windows q v = .ok u → u.opn h = true ∧ ∀ q, ¬ Holds u q h := by
          intro q u hu
          unfold close at hu
          split at hu
          · cases hu
          · cases hu; exact ⟨hv1, hv2⟩
          · rename_i k hk
            have hkh : k ≠ h := fun he => hv2 q (he ▸ hk)
            dsimp only at hu
            split at hu
            · cases hu
              refine ⟨by simp [upd, hkh.symm, hv1], fun r hr => ?_⟩
              simp only [Holds, upd] at hr
              split at hr
              · cases hr
              · exact hv2 r hr
            · cases hu
        have hmv : ∀ (q r : Nat) (u u' : World), (u.opn h = true ∧ ∀ q, ¬ Holds u q h) → move false q r u = .ok u' → u'.opn h = true ∧ ∀ q, ¬ Holds u' q h := by
          intro q r u u' hu hm
          unfold move at hm
          split at hm
          · rename_i d s hd hs
            simp only [Bool.false_eq_true, and_false, if_false, Res.ok.injEq] at hm
            subst hm
            refine ⟨hu.1, fun x hx => ?_⟩
            simp only [Holds, upd] at hx
            split at hx
            · cases hx
            · split at hx
              · rw [hx] at hs; exact hu.2 r hs
              · exact hu.2 x hx
          · cases hm
        cases op with
        | new q =>
          simp only [step] at e1
          split at e1
          · cases e1
          · cases e1
            refine ⟨hv1, fun r hr => ?_⟩
            simp only [Holds, upd] at hr
            split at hr
            · cases hr
            · exact hv2 r hr
        | run q r =>
          simp only [step, Res.bind_eq_ok] at e1
          obtain ⟨u, c1, c2⟩ := e1
          obtain ⟨d1, d2⟩ := hcl q u c1
          cases r with
          | none => cases c2; exact ⟨d1, d2⟩
          | some k =>
            cases c2
            have hkh : k ≠ h := by rintro rfl; exact hv2 q (ha1.2 k rfl hv1)
            refine ⟨by simp [upd, hkh.symm, d1], fun r hr => ?_⟩
            simp only [Holds, upd] at hr
            split at hr
            · cases hr; exact hkh rfl
            · exact d2 r hr
        | copy q r =>
          simp only [step] at e1
          split at e1
          · cases e1
          · refine hmv q r { v with obj := upd v.obj q (some none) } v1 ⟨hv1, fun x hx => ?_⟩ e1
            simp only [Holds, upd] at hx
            split at hx
            · cases hx
            · exact hv2 x hx
        | assign q r =>
          simp only [step] at e1
          split at e1
          · split at e1
            · cases e1; exact ⟨hv1, hv2⟩
            · cases e1
          · exact hmv q r v v1 ⟨hv1, hv2⟩ e1
        | del q =>
          simp only [step, Res.bind_eq_ok] at e1
          obtain ⟨u, c1, c2⟩ := e1
          obtain ⟨d1, d2⟩ := hcl q u c1
          cases c2
          refine ⟨d1, fun r hr => ?_⟩
          simp only [Holds, upd] at hr
          split at hr
          · cases hr
          · exact d2 r hr
        | ask q =>
          simp only [step] at e1
          split at e1 <;> cases e1 <;> exact ⟨hv1, hv2⟩
        | ends k x =>
          simp only [step] at e1
          cases e1
          split <;> exact ⟨hv1, hv2⟩
    intro ops w'' ha hs
    refine lost ops { w with obj := upd (upd w.obj o (some s)) p (some none) } w'' ⟨hopen, fun q hq => ?_⟩ ha hs
    simp only [Holds, upd] at hq
    split at hq
    · cases hq
    · split at hq
      · exact hne (hu o p h ho (by rw [Holds, e, hq]))
      · rename_i h1 h2
        exact h2 (hu q o h hq ho)

/-- C106, finding: on a POSIX system, the pid of a child that ended stays in the object after `isAlive` said so.  If another child gets
the same pid, the first object says alive, and it takes the exit code away from the object that has the new child. -/
theorem C106_finding_stale_pid (dbg : Bool) (a b h : Nat) (e1 e2 : Nat) (hab : a ≠ b) :
    ∃ w, steps .posix dbg [.new a, .new b, .run a (some h), .ends h (.exited e1), .ask a, .run b (some h)] World.init = .ok w ∧
      answer .posix a w = .ok (true, 0) ∧
      ∃ w', steps .posix dbg [.ends h (.exited e2), .ask a] w = .ok w' ∧ answer .posix b w' = .ok (false, 0) := by
  refine ⟨_, by simp [steps, step, close, upd, World.init, hab, hab.symm, Process.isAlive]; rfl, by simp [answer, upd, hab, hab.symm, Process.isAlive], _,
    by simp [steps, step, close, upd, World.init, hab, hab.symm, Process.isAlive]; rfl, by simp [answer, upd, hab, hab.symm, Process.isAlive]⟩

/-- C106, finding: on a POSIX system, a child whose object was destroyed, or started another child, while it was running stays a zombie
after its end, whatever is done afterwards. -/
theorem C106_finding_zombie (dbg : Bool) (h : Nat) (x : End) (ops : List Op) : ∀ w w' : World, w.kid h = .zombie x → (∀ q, ¬ Holds w q h) →
    AllAllowed .posix dbg ops w → steps .posix dbg ops w = .ok w' → w'.kid h = .zombie x := by
  induction ops with
  | nil => intro v v' hv _ _ e; cases e; exact hv
  | cons op ops ih =>
    intro v v' hv1 hv2 ha e
    simp only [steps, Res.bind_eq_ok] at e
    obtain ⟨v1, e1, e2⟩ := e
    suffices hs : v1.kid h = .zombie x ∧ ∀ q, ¬ Holds v1 q h from ih v1 v' hs.1 hs.2 (ha.2 v1 e1) e2
    have ha1 := ha.1
    have hupd : ∀ (u : World) (q : Nat) (d : Option (Option Nat)), (∀ q, ¬ Holds u q h) → d ≠ some (some h) → ∀ r, upd u.obj q d r ≠ some (some h) := by
      intro u q d hu hd r hr
      simp only [upd] at hr
      split at hr
      · exact hd hr
      · exact hu r hr
    have hcl : ∀ q u, close .posix q v = .ok u → u.kid h = .zombie x ∧ ∀ q, ¬ Holds u q h := by
      intro q u hu
      unfold close at hu
      split at hu
      · cases hu
      · cases hu; exact ⟨hv1, hv2⟩
      · cases hu
        exact ⟨hv1, hupd v q (some none) hv2 (by simp)⟩
    have hmv : ∀ (q r : Nat) (u u' : World), (u.kid h = .zombie x ∧ ∀ q, ¬ Holds u q h) → move dbg q r u = .ok u' → u'.kid h = .zombie x ∧ ∀ q, ¬ Holds u' q h := by
      intro q r u u' hu hm
      unfold move at hm
      split at hm
      · rename_i d s hd hs
        split at hm
        · cases hm
        · cases hm
          refine ⟨hu.1, hupd { u with obj := upd u.obj q (some s) } r (some none) (hupd u q (some s) hu.2 ?_) (by simp)⟩
          intro hc
          exact hu.2 r (by rw [Holds, hs, hc])
      · cases hm
    cases op with
    | new q =>
      simp only [step] at e1
      split at e1
      · cases e1
      · cases e1
        exact ⟨hv1, hupd v q (some none) hv2 (by simp)⟩
    | run q r =>
      simp only [step, Res.bind_eq_ok] at e1
      obtain ⟨u, c1, c2⟩ := e1
      obtain ⟨d1, d2⟩ := hcl q u c1
      cases r with
      | none => cases c2; exact ⟨d1, d2⟩
      | some k =>
        cases c2
        have hkh : k ≠ h := by
          rintro rfl
          have := (ha1.2 k rfl).1
          rw [hv1] at this
          cases this
        exact ⟨by simp [upd, hkh.symm, d1], hupd u q (some (some k)) d2 (by simpa using hkh)⟩
    | copy q r =>
      simp only [step] at e1
      split at e1
      · cases e1
      · exact hmv q r { v with obj := upd v.obj q (some none) } v1 ⟨hv1, hupd v q (some none) hv2 (by simp)⟩ e1
    | assign q r =>
      simp only [step] at e1
      split at e1
      · split at e1
        · cases e1; exact ⟨hv1, hv2⟩
        · cases e1
      · exact hmv q r v v1 ⟨hv1, hv2⟩ e1
    | del q =>
      simp only [step, Res.bind_eq_ok] at e1
      obtain ⟨u, c1, c2⟩ := e1
      obtain ⟨d1, d2⟩ := hcl q u c1
      cases c2
      exact ⟨d1, hupd u q none d2 (by simp)⟩
    | ask q =>
      simp only [step] at e1
      split at e1
      · cases e1
      · cases e1; exact ⟨hv1, hv2⟩
      · rename_i k hk
        cases e1
        have hkh : k ≠ h := fun he => hv2 q (he ▸ hk)
        exact ⟨by simp [upd, hkh.symm, hv1], hv2⟩
    | ends k y =>
      simp only [step] at e1
      cases e1
      split
      · rename_i hr
        have hkh : k ≠ h := by rintro rfl; rw [hv1] at hr; cases hr
        exact ⟨by simp [upd, hkh.symm, hv1], hv2⟩
      · exact ⟨hv1, hv2⟩

/-- A correct use with both platforms: start, copy, ask, start again, destroy both. -/
example (pf : Platform) (dbg : Bool) : AllAllowed pf dbg [.new 0, .run 0 (some 5), .copy 1 0, .ask 1, .run 0 (some 6), .del 0, .del 1] World.init := by
  cases pf <;> simp [AllAllowed, Allowed, step, close, move, upd, World.init, Holds, Process.isAlive]
  intro p
  repeat' split
  all_goals simp_all
/-- Destroying the object of a running child, then its end: the hypotheses of `C106_finding_zombie`. -/
example (dbg : Bool) : ∃ w, steps .posix dbg [.new 0, .run 0 (some 5), .del 0, .ends 5 (.exited 1)] World.init = .ok w ∧
    w.kid 5 = .zombie (.exited 1) ∧ ∀ q, ¬ Holds w q 5 :=
  ⟨_, rfl, by simp [upd, World.init], fun q => by simp [Holds, upd, World.init]; split <;> simp⟩

#print axioms C106_owned
#print axioms C106_no_leak
#print axioms C106_hand_over
#print axioms C106_frame
#print axioms C106_run_fails
#print axioms C106_windows_code
#print axioms C106_finding_259
#print axioms C106_finding_assign
#print axioms C106_finding_stale_pid
#print axioms C106_finding_zombie
#print axioms C106_windows_killed

end Verif.Props.ProcObj
