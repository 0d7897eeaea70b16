import Verif.Spec.Log
set_option linter.unusedSimpArgs false
namespace Verif.Log
open Verif.LogSpec

/-- The file the logger will close. -/
def held (l : Logger) : List Handle := if l.doClose then l.fp.toList else []

structure Inv (l : Logger) (w : World) : Prop where
  nodup : w.mine.Nodup
  dis : ∀ h ∈ w.mine, h ∉ w.user ∧ h ≠ stdOut ∧ h ≠ stdErr
  held : ∀ h ∈ held l, h ∈ w.mine
  other : ∀ h, l.doClose = false → l.fp = some h → h ∈ w.user ∨ h = stdOut ∨ h = stdErr

/-- Files of the logger it has lost. -/
def lost (l : Logger) (w : World) : Nat := w.mine.length - (held l).length

theorem held_le {l : Logger} {w : World} (hi : Inv l w) : (held l).length ≤ w.mine.length := by
  have := hi.held
  unfold held at *
  split
  · rename_i hd
    rw [if_pos hd] at this
    cases hf : l.fp with
    | none => simp
    | some h =>
      have := this h (by simp [hf])
      have := List.length_pos_of_mem this
      simp; omega
  · simp

theorem closeFile_ok {l : Logger} {w : World} (good : Bool) (hi : Inv l w) :
    ∃ b l' w', closeFile l w good = .ok (b, l', w') ∧ Inv l' w' ∧
      w'.user = w.user ∧ w'.ev = w.ev ∧ (good = true → b = true) ∧
      w'.mine.length + (held l).length = w.mine.length ∧ held l' = [] ∧
      (∀ h ∈ w'.mine, h ∈ w.mine) ∧ (held l = [] → w'.mine = w.mine) ∧
      l'.doClose = l.doClose ∧ (∀ h ∈ l'.fp, l.fp = some h) ∧ (l.doClose = true → l'.fp = none) ∧
      (∀ h ∈ held l, w'.mine = w.mine.erase h) := by
  unfold closeFile
  cases hf : l.fp with
  | none => exact ⟨true, l, w, by simp, hi, rfl, rfl, by simp, by simp [held, hf],
      by simp [held, hf], by simp, by simp, rfl, by simp [hf], by simp [hf], by simp [held, hf]⟩
  | some h =>
    cases hd : l.doClose with
    | false => exact ⟨true, l, w, by simp, hi, rfl, rfl, by simp, by simp [held, hd],
        by simp [held, hd], by simp, by simp, hd, by simp [hf], by simp, by simp [held, hd]⟩
    | true =>
      have hm : h ∈ w.mine := hi.held h (by simp [held, hd, hf])
      have hs := hi.dis h hm
      have h1 : ¬ (h = stdOut ∨ h = stdErr) := by
        rw [not_or]; exact hs.2
      simp only [Bool.not_true, if_false, Bool.false_eq_true, if_neg h1, fclose, if_pos hm,
        Res.ok_bind]
      refine ⟨good, _, _, rfl, ⟨?_, ?_, ?_, ?_⟩, rfl, rfl, fun h => h, ?_, ?_, ?_, ?_, ?_,
        ?_, ?_, ?_⟩
      · exact hi.nodup.erase h
      · intro x hx; exact hi.dis x (List.mem_of_mem_erase hx)
      · simp [held]
      · intro x _ hx; simp at hx
      · simp [held, hd, hf, List.length_erase_of_mem hm]
        have := List.length_pos_of_mem hm
        omega
      · simp [held]
      · intro x hx; exact List.mem_of_mem_erase hx
      · simp [held, hd, hf]
      · simp [hd]
      · simp
      · simp
      · simp [held, hd, hf]

theorem putFile_cases {l : Logger} {w : World} (text : Text) (e : PutEnv) (hi : Inv l w) :
    putFile l w text e = .ok none ∨
    ∃ w', putFile l w text e = .ok (some w') ∧ w'.user = w.user ∧ w'.mine = w.mine := by
  unfold putFile
  cases hf : l.fp with
  | none => exact .inr ⟨w, rfl, rfl, rfl⟩
  | some h =>
    cases ht : e.time l.useMsec with
    | none => left; simp [ht]
    | some t =>
      right
      have hh : h ∈ w.user ∨ h ∈ w.mine ∨ h = stdErr ∨ h = stdOut := by
        cases hd : l.doClose with
        | true => exact .inr (.inl (hi.held h (by simp [held, hd, hf])))
        | false =>
          rcases hi.other h hd hf with h' | h' | h'
          · exact .inl h'
          · exact .inr (.inr (.inr h'))
          · exact .inr (.inr (.inl h'))
      simp only [ht, if_pos hh]
      exact ⟨_, rfl, rfl, rfl⟩

theorem put_ok {l : Logger} {w : World} (p : Nat) (text : Text) (e : PutEnv) (hi : Inv l w) :
    ∃ d, put l w p text e = .ok d ∧ d.l = l ∧ d.w.user = w.user ∧ d.w.mine = w.mine := by
  unfold put
  split
  · exact ⟨_, rfl, rfl, rfl, rfl⟩
  · rcases putFile_cases text e hi with h | ⟨w', h, h1, h2⟩
    · rw [h]; exact ⟨_, rfl, rfl, rfl, rfl⟩
    · rw [h]
      refine ⟨_, rfl, rfl, ?_, ?_⟩ <;> dsimp only <;> split <;> simp [h1, h2]

theorem putFormat_ok {l : Logger} {w : World} (p : Nat) (r : Option Text) (e : PutEnv)
    (hi : Inv l w) :
    ∃ d, putFormat l w p r e = .ok d ∧ d.l = l ∧ d.w.user = w.user ∧ d.w.mine = w.mine := by
  unfold putFormat vformat
  split
  · exact ⟨_, rfl, rfl, rfl, rfl⟩
  · cases r with
    | none => exact ⟨_, rfl, rfl, rfl, rfl⟩
    | some t => exact put_ok p t e hi

theorem guarded_ok {l : Logger} {w : World} {r : Res Done}
    (h : ∃ d, r = .ok d ∧ d.l = l ∧ d.w.user = w.user ∧ d.w.mine = w.mine) :
    ∃ d, guarded r = .ok d ∧ d.threw = false ∧ d.l = l ∧ d.w.user = w.user ∧
      d.w.mine = w.mine := by
  obtain ⟨d, rfl, h1, h2, h3⟩ := h
  unfold guarded
  simp only [Res.ok_bind]
  refine ⟨_, rfl, ?_⟩
  cases ht : d.threw <;> simp [ht, h1, h2, h3]

theorem Inv.congr {l : Logger} {w w' : World} (hi : Inv l w) (h1 : w'.user = w.user)
    (h2 : w'.mine = w.mine) : Inv l w' :=
  ⟨by rw [h2]; exact hi.nodup, by rw [h1, h2]; exact hi.dis, by rw [h2]; exact hi.held,
    by rw [h1]; exact hi.other⟩

/-- One valid action: no undefined behaviour, the invariant stays, at most one file is lost, and
only together with an exception of `openFile` after an error of `fclose`. -/
theorem step_ok {l : Logger} {w : World} (o : Op) (hi : Inv l w) (hv : Valid l w o) :
    ∃ d, step l w o = .ok d ∧ Inv d.l d.w ∧ d.w.user = userFiles [o] w.user ∧
      lost d.l d.w ≤ lost l w + (if d.threw then 1 else 0) ∧
      (Good o → lost d.l d.w ≤ lost l w) := by
  have hle := held_le hi
  cases o with
  | openFile fp good =>
    cases fp with
    | none => exact ⟨_, rfl, hi, rfl, by simp [lost], by simp [lost]⟩
    | some h =>
      simp only [Valid] at hv
      have hi' : Inv l { w with mine := h :: w.mine } :=
        ⟨List.nodup_cons.2 ⟨hv.2.1, hi.nodup⟩,
          fun x hx => by
            rcases List.mem_cons.1 hx with rfl | hx
            · exact ⟨hv.1, hv.2.2⟩
            · exact hi.dis x hx,
          fun x hx => List.mem_cons_of_mem _ (hi.held x hx), hi.other⟩
      obtain ⟨b, l', w', hc, hI, hu, _, hg, hn, hh, hsub, hkeep, hdc, hfp, hfpn, her⟩ :=
        closeFile_ok good hi'
      simp only [step, openFile, hc, Res.ok_bind]
      have hin : h ∈ w'.mine := by
        cases hq : held l with
        | nil => rw [hkeep hq]; simp
        | cons x xs =>
          have hx : x ∈ held l := by simp [hq]
          rw [her x hx]
          have hxm := hi.held x hx
          have : x ≠ h := by rintro rfl; exact hv.2.1 hxm
          rw [List.erase_cons_tail (by simpa using fun h => this h.symm)]
          simp
      cases b with
      | true =>
        refine ⟨_, rfl, ⟨hI.nodup, hI.dis, ?_, ?_⟩, hu, ?_, ?_⟩
        · intro x hx
          have hx : x = h := by simpa [held, eq_comm] using hx
          rw [hx]; exact hin
        · intro x hx; simp at hx
        · simp only [lost, held, if_true] at hn hle ⊢
          simp at hn ⊢; omega
        · intro _
          simp only [lost, held, if_true] at hn hle ⊢
          simp at hn ⊢; omega
      | false =>
        refine ⟨_, rfl, hI, hu, ?_, ?_⟩
        · simp only [lost, hh] at hn ⊢
          simp at hn ⊢; omega
        · intro hg'
          simp only [Good] at hg'
          exact absurd (hg hg') (by simp)
  | set fp good =>
    obtain ⟨b, l', w', hc, hI, hu, _, hg, hn, hh, hsub, hkeep, hdc, hfp, hfpn, her⟩ :=
      closeFile_ok good hi
    simp only [step, setFile, hc, Res.ok_bind]
    cases b with
    | true =>
      refine ⟨_, rfl, ⟨hI.nodup, hI.dis, ?_, ?_⟩, hu, ?_, ?_⟩
      · simp [held]
      · intro x _ hx
        simp at hx
        subst hx
        simp only [Valid] at hv
        rw [hu]; exact hv
      · simp only [lost] at hn ⊢
        simp [held] at hn hle ⊢; omega
      · intro _
        simp only [lost] at hn ⊢
        simp [held] at hn hle ⊢; omega
    | false =>
      refine ⟨_, rfl, hI, hu, ?_, ?_⟩
      · simp only [lost, hh] at hn ⊢
        simp at hn ⊢; omega
      · intro hg'
        simp only [Good] at hg'
        exact absurd (hg hg') (by simp)
  | useSyslog b => exact ⟨_, rfl, ⟨hi.nodup, hi.dis, hi.held, hi.other⟩, rfl, by simp [lost, held],
      by simp [lost, held]⟩
  | closeFile good =>
    obtain ⟨b, l', w', hc, hI, hu, _, hg, hn, hh, hsub, hkeep, hdc, hfp, hfpn, her⟩ :=
      closeFile_ok good hi
    simp only [step, hc, Res.ok_bind]
    refine ⟨_, rfl, hI, hu, ?_, ?_⟩ <;> simp [lost, hh] at hn ⊢ <;> omega
  | setPriority p => exact ⟨_, rfl, ⟨hi.nodup, hi.dis, hi.held, hi.other⟩, rfl,
      by simp [lost, held], by simp [lost, held]⟩
  | setUseMsec b => exact ⟨_, rfl, ⟨hi.nodup, hi.dis, hi.held, hi.other⟩, rfl,
      by simp [lost, held], by simp [lost, held]⟩
  | putLog p r e =>
    obtain ⟨d, h, h0, h1, h2, h3⟩ := guarded_ok (putFormat_ok p r e hi)
    refine ⟨d, h, ?_, h2, ?_, ?_⟩
    · rw [h1]; exact hi.congr h2 h3
    · simp [lost, h1, h3, h0]
    · simp [lost, h1, h3]
  | log p t e =>
    obtain ⟨d, h, h0, h1, h2, h3⟩ := guarded_ok (put_ok p t e hi)
    refine ⟨d, h, ?_, h2, ?_, ?_⟩
    · rw [h1]; exact hi.congr h2 h3
    · simp [lost, h1, h3, h0]
    · simp [lost, h1, h3]
  | userOpen h =>
    simp only [Valid] at hv
    refine ⟨_, rfl, ⟨hi.nodup, ?_, hi.held, ?_⟩, rfl, by simp [lost], by simp [lost]⟩
    · intro x hx
      refine ⟨?_, (hi.dis x hx).2⟩
      simp only [List.mem_cons, not_or]
      exact ⟨by rintro rfl; exact hv.2.1 hx, (hi.dis x hx).1⟩
    · intro x h1 h2
      rcases hi.other x h1 h2 with h' | h'
      · exact .inl (List.mem_cons_of_mem _ h')
      · exact .inr h'
  | userClose h =>
    simp only [Valid] at hv
    refine ⟨_, rfl, ⟨hi.nodup, ?_, hi.held, ?_⟩, rfl, by simp [lost], by simp [lost]⟩
    · intro x hx
      exact ⟨fun hm => (hi.dis x hx).1 (List.mem_of_mem_erase hm), (hi.dis x hx).2⟩
    · intro x h1 h2
      rcases hi.other x h1 h2 with h' | h'
      · left
        have hne : x ≠ h := by rintro rfl; exact hv.2 h2
        exact (List.mem_erase_of_ne hne).2 h'
      · exact .inr h'

theorem userFiles_cons (o : Op) (os : List Op) (u : List Handle) :
    userFiles (o :: os) u = userFiles os (userFiles [o] u) := by
  cases o <;> rfl

theorem runOps_ok (os : List Op) {l : Logger} {w : World} (hi : Inv l w)
    (hv : ValidAll os l w) :
    ∃ n l' w', runOps os l w = .ok (n, l', w') ∧ Inv l' w' ∧ w'.user = userFiles os w.user ∧
      lost l' w' ≤ lost l w + n ∧ ((∀ o ∈ os, Good o) → lost l' w' ≤ lost l w) := by
  induction os generalizing l w with
  | nil => exact ⟨0, l, w, rfl, hi, rfl, by simp, by simp⟩
  | cons o os ih =>
    obtain ⟨hv1, hv2⟩ := hv
    obtain ⟨d, hd, hI, hu, hl, hg⟩ := step_ok o hi hv1
    obtain ⟨n, l', w', hr, hI', hu', hl', hg'⟩ := ih hI (hv2 d hd)
    refine ⟨(if d.threw then 1 else 0) + n, l', w', ?_, hI', ?_, by omega, ?_⟩
    · simp [runOps, hd, hr]
    · rw [hu', hu, userFiles_cons o os]
    · intro h
      have h1 := hg (h o (by simp))
      have h2 := hg' (fun o ho => h o (by simp [ho]))
      omega

theorem Inv.init (user : List Handle) : Inv Logger.init (World.start user) :=
  ⟨by simp [World.start], by simp [World.start], by simp [Verif.Log.held, Logger.init],
    by simp [Logger.init, World.start]⟩

end Verif.Log
