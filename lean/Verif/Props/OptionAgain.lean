import Verif.Model.Option

/-!
# C167: calling `parse` of one parser several times

The model is `Model/Option` (of C36), where `parse` gives back the parser.
-/
set_option linter.unusedSimpArgs false

namespace Verif.Props.OptionAgain
open Verif Verif.Opt
open Verif.Config (Str mapFind mapInsert)

/-- What one parser has of another: every parameter that was set is the same, with its value, and every option that was set counts as set. -/
structure Keeps {α : Type} (o o' : Opt.Option α) : Prop where
  params : ∀ (i : Nat) (p : Info α), o.paramVec[i]? = some p → p.var.isSet = true → o'.paramVec[i]? = some p
  opts : ∀ (i : Nat) (x : Info α), o.infoVec[i]? = some x → x.var.isSet = true → ∃ x' : Info α, o'.infoVec[i]? = some x' ∧ x'.var.isSet = true ∧ x'.opt = x.opt

theorem Keeps.refl {α : Type} (o : Opt.Option α) : Keeps o o := ⟨fun _ _ h _ => h, fun _ x h hs => ⟨x, h, hs, rfl⟩⟩

theorem Keeps.trans {α : Type} {a b c : Opt.Option α} (h1 : Keeps a b) (h2 : Keeps b c) : Keeps a c := by
  refine ⟨fun i p h hs => h2.params i p (h1.params i p h hs) hs, fun i x h hs => ?_⟩
  obtain ⟨y, a1, a2, a3⟩ := h1.opts i x h hs
  obtain ⟨z, b1, b2, b3⟩ := h2.opts i y a1 a2
  exact ⟨z, b1, b2, by rw [b3, a3]⟩

theorem put_keeps {α : Type} (o : Opt.Option α) (i : Nat) (info : Info α) (v : Var α) (hi : o.infoVec[i]? = some info)
    (hv : info.var.isSet = true → v.isSet = true) : Keeps o (o.putVar i info v) := by
  refine ⟨fun _ _ h _ => h, fun j x h hs => ?_⟩
  simp only [Option.putVar, List.getElem?_set]
  by_cases hij : i = j
  · subst hij
    rw [hi] at h
    cases h
    have hlt := (List.getElem?_eq_some_iff.1 hi).1
    rw [if_pos rfl, if_pos hlt]
    exact ⟨_, rfl, hv hs, rfl⟩
  · rw [if_neg hij]
    exact ⟨x, h, hs, rfl⟩

theorem any_keeps {α : Type} (args : List Str) : ∀ (v : Var α) (j : Nat), v.isSet = true → (anyLoop v j args).2.1.isSet = true := by
  induction args with
  | nil => intro v j h; exact h
  | cons a rest ih =>
    intro v j h
    rw [anyLoop]
    split
    · exact h
    · simp only
      split
      · exact ih _ _ rfl
      · rfl

theorem param_keeps {α : Type} (a : Str) (ps : List (Info α)) : ∀ b ps', paramLoop a ps = some (b, ps') →
    ∀ (i : Nat) (p : Info α), ps[i]? = some p → p.var.isSet = true → ps'[i]? = some p := by
  induction ps with
  | nil => intro b ps' h; simp [paramLoop] at h
  | cons q ps ih =>
    intro b ps' h i p hi hs
    rw [paramLoop] at h
    by_cases hq : q.var.isSet = true
    · rw [if_neg (by simp [hq])] at h
      cases hl : paramLoop a ps with
      | none => rw [hl] at h; cases h
      | some r =>
        rw [hl] at h
        simp only [Option.map_some, Option.some.injEq, Prod.mk.injEq] at h
        obtain ⟨-, rfl⟩ := h
        cases i with
        | zero => exact hi
        | succ i => exact ih r.1 r.2 hl i p hi hs
    · rw [if_pos (by simpa using hq)] at h
      simp only [Option.some.injEq, Prod.mk.injEq] at h
      obtain ⟨-, rfl⟩ := h
      cases i with
      | zero =>
        simp only [List.getElem?_cons_zero, Option.some.injEq] at hi
        subst hi
        exact absurd hs hq
      | succ i => exact hi

theorem take_keeps {α : Type} (o o' : Opt.Option α) (a : Str) (b : Bool) (h : takeParam o a = .ok (b, o')) : Keeps o o' := by
  rw [takeParam] at h
  cases hl : paramLoop a o.paramVec with
  | some r =>
    rw [hl] at h
    cases h
    exact ⟨param_keeps a _ _ _ hl, fun _ x h hs => ⟨x, h, hs, rfl⟩⟩
  | none =>
    rw [hl] at h
    simp only at h
    split at h
    · cases hr : o.remains with
      | none => rw [hr] at h; cases h
      | some r => rw [hr] at h; cases h; exact ⟨fun _ _ h _ => h, fun _ x h hs => ⟨x, h, hs, rfl⟩⟩
    · cases h; exact Keeps.refl _

theorem loop_keeps {α : Type} (fuel : Nat) : ∀ (o o' : Opt.Option α) (pos : Nat) (args : List Str) (e : End),
    argLoop fuel o pos args = .ok (e, o') → Keeps o o' := by
  induction fuel with
  | zero => intro o o' pos args e h; rw [argLoop] at h; cases h
  | succ fuel ih =>
    intro o o' pos args e h
    cases args with
    | nil => rw [argLoop] at h; cases h; exact Keeps.refl _
    | cons a rest =>
      rw [argLoop] at h
      split at h
      · cases h; exact ⟨fun _ _ h _ => h, fun _ x h hs => ⟨x, h, hs, rfl⟩⟩
      · split at h
        · simp only at h
          split at h
          · cases h; exact Keeps.refl _
          · cases hm : mapFind o.optMap (a.drop 1) with
            | none => rw [hm] at h; cases h; exact Keeps.refl _
            | some i =>
              rw [hm] at h
              simp only at h
              cases hi : o.infoVec[i]? with
              | none => simp only [at?, hi] at h; cases h
              | some info =>
                simp only [at?, hi, Res.ok_bind] at h
                cases hmode : info.mode with
                | is0 =>
                  rw [hmode] at h
                  simp only at h
                  have hk := put_keeps o i info (info.var.set [49]).2 hi (fun _ => rfl)
                  split at h
                  · exact hk.trans (ih _ _ _ _ _ h)
                  · cases h; exact hk
                | is1 =>
                  rw [hmode] at h
                  cases rest with
                  | nil => cases h; exact Keeps.refl _
                  | cons x rest =>
                    simp only at h
                    have hk := put_keeps o i info (info.var.set x).2 hi (fun _ => rfl)
                    split at h
                    · exact hk.trans (ih _ _ _ _ _ h)
                    · cases h; exact hk
                | any =>
                  rw [hmode] at h
                  simp only at h
                  have hk := put_keeps o i info (anyLoop info.var 0 rest).2.1 hi (any_keeps rest _ _)
                  split at h
                  · cases h; exact hk
                  · split at h
                    · exact hk.trans (ih _ _ _ _ _ h)
                    · cases h; exact hk
        · cases ht : takeParam o a with
          | ok r =>
            rw [ht] at h
            obtain ⟨b, o1⟩ := r
            simp only [Res.ok_bind] at h
            have hk := take_keeps o o1 a b ht
            split at h
            · exact hk.trans (ih _ _ _ _ _ h)
            · cases h; exact hk
          | throw => rw [ht] at h; cases h
          | ub => rw [ht] at h; cases h

/-- C167: a call of `parse`, with whatever arguments and result, leaves every parameter that was set before as it was, and every option that was set
before counts as set. -/
theorem C167_keeps {α : Type} (o o' : Opt.Option α) (argv : List Str) (startPos : Nat) (hn : Bool) (b : _root_.Option Bool)
    (h : o.parse argv startPos hn = .ok (b, o')) :
    (∀ (i : Nat) (p : Info α), o.paramVec[i]? = some p → p.var.isSet = true → o'.paramVec[i]? = some p) ∧
    (∀ (i : Nat) (x : Info α), o.infoVec[i]? = some x → x.var.isSet = true → ∃ x' : Info α, o'.infoVec[i]? = some x' ∧ x'.var.isSet = true ∧ x'.opt = x.opt) := by
  have key : Keeps o o' := by
    rw [Option.parse] at h
    split at h
    · cases h; exact Keeps.refl _
    · split at h
      · cases h
      · cases hl : argLoop (argv.length + 1) { o with nextDelimiter := argv.length } startPos (argv.drop startPos) with
        | ok r =>
          rw [hl] at h
          obtain ⟨e, o1⟩ := r
          have hk := loop_keeps _ _ _ _ _ _ hl
          have hk : Keeps o o1 := ⟨hk.params, hk.opts⟩
          cases e <;> cases h <;> exact hk
        | throw => rw [hl] at h; cases h
        | ub => rw [hl] at h; cases h
  exact ⟨key.params, key.opts⟩

/-- Calls of `parse` one after the other: the answers and the parser. -/
def parses {α : Type} (o : Opt.Option α) : List (List Str) → Res (List (_root_.Option Bool) × Opt.Option α)
  | [] => .ok ([], o)
  | argv :: l => do
    let (b, o) ← o.parse argv
    let (bs, o) ← parses o l
    return (b :: bs, o)

/-- C167: the same for any number of calls: the first value a parameter got is its value for good. -/
theorem C167_many {α : Type} (l : List (List Str)) : ∀ (o o' : Opt.Option α) (bs : List (_root_.Option Bool)), parses o l = .ok (bs, o') →
    ∀ (i : Nat) (p : Info α), o.paramVec[i]? = some p → p.var.isSet = true → o'.paramVec[i]? = some p := by
  induction l with
  | nil => intro o o' bs h; rw [parses] at h; cases h; exact fun _ _ h _ => h
  | cons argv l ih =>
    intro o o' bs h i p hi hs
    rw [parses] at h
    cases h1 : o.parse argv with
    | ok r =>
      rw [h1] at h
      obtain ⟨b, o1⟩ := r
      simp only [Res.ok_bind] at h
      cases h2 : parses o1 l with
      | ok r2 =>
        rw [h2] at h
        obtain ⟨bs2, o2⟩ := r2
        cases h
        exact ih o1 o2 bs2 h2 i p ((C167_keeps o o1 argv 1 false b h1).1 i p hi hs) hs
      | throw => rw [h2] at h; cases h
      | ub => rw [h2] at h; cases h
    | throw => rw [h1] at h; cases h
    | ub => rw [h1] at h; cases h

/-- C167, finding: a value that was refused counts as set.  For a parser with one parameter of any type, after `parse` has returned false for a value
the type refuses, it returns false for every other value too: asking the user again does not help without a new parser. -/
theorem C167_finding_retry {α : Type} (st : α) (step : α → Str → Bool × α) (opt name bad good : Str) (h1 : isOpt bad = false)
    (h2 : (step st bad).1 = false) (h3 : isOpt good = false) :
    ∃ o o1 o2, Option.new.appendParam st step opt = .ok o ∧ o.parse [name, bad] = .ok (some false, o1) ∧
      o1.parse [name, good] = .ok (some false, o2) ∧ o2.paramVec = o1.paramVec := by
  refine ⟨_, { Option.new with paramVec := [{ var := { st := (step st bad).2, isSet := true, step }, mode := .is1, isMust := true, opt }], nextDelimiter := 2 },
    { Option.new with paramVec := [{ var := { st := (step st bad).2, isSet := true, step }, mode := .is1, isMust := true, opt }], nextDelimiter := 2 },
    rfl, ?_, ?_, rfl⟩
  · simp [Option.parse, argLoop, Option.new, h1, takeParam, paramLoop, Var.set, h2, Res.ok_bind, Res.pure_eq]
  · simp [Option.parse, argLoop, Option.new, h3, takeParam, paramLoop, Var.set, Res.ok_bind, Res.pure_eq]

/-- The parser with one required option that was given `val`. -/
def given {α : Type} (st : α) (step : α → Str → Bool × α) (opt val : Str) (next : Int) : Opt.Option α :=
  { (Option.new : Opt.Option α) with
    optMap := [(opt, 0)]
    infoVec := [{ var := { st := (step st val).2, isSet := true, step }, mode := .is1, isMust := true, opt }]
    nextDelimiter := next }

/-- C167, finding: what is required must be given only once.  For a required option of any type, after a call that set it `parse` returns true for a command line
without it, and the variable still has the old value. -/
theorem C167_finding_must {α : Type} (st : α) (step : α → Str → Bool × α) (opt name val : Str) (h0 : ¬ (48 ≤ opt.headD 0 ∧ opt.headD 0 ≤ 57))
    (hne : opt ≠ []) (h2 : (step st val).1 = true) :
    ∃ o o1 o2, Option.new.appendSub st step .is1 true opt = .ok o ∧ o.parse [name] = .ok (some false, { o with nextDelimiter := 1 }) ∧
      o.parse [name, 45 :: opt, val] = .ok (some true, o1) ∧ o1.parse [name] = .ok (some true, o2) ∧ o2.infoVec.map (·.var.st) = [(step st val).2] := by
  have hnew : Option.new.appendSub st step .is1 true opt = .ok { (Option.new : Opt.Option α) with
      optMap := [(opt, 0)], infoVec := [{ var := { st, isSet := false, step }, mode := .is1, isMust := true, opt }] } := by
    simp only [Option.appendSub]
    rw [if_neg h0]
    rfl
  have ho : isOpt (45 :: opt) = true := by simp only [isOpt]; simp only [h0, decide_false, Bool.not_false]
  refine ⟨_, given st step opt val 3, given st step opt val 1, hnew, ?_, ?_, ?_, rfl⟩
  · simp [Option.parse, argLoop, Option.new, checks, Res.ok_bind, Res.pure_eq]
  · simp [given, Option.parse, argLoop, Option.new, ho, mapFind, at?, Var.set, h2, Option.putVar, checks, Res.ok_bind, Res.pure_eq, hne.symm]
  · simp [given, Option.parse, argLoop, Option.new, checks, Res.ok_bind, Res.pure_eq]

/-- The hypotheses are met: a parameter that takes only `1`. -/
example : isOpt [97] = false ∧ ((fun (_ : Nat) (s : Str) => (decide (s = [49]), 1)) 0 [97]).1 = false ∧ isOpt [49] = false := by decide
example : ¬ (48 ≤ ([110] : Str).headD 0 ∧ ([110] : Str).headD 0 ≤ 57) ∧ ([110] : Str) ≠ [] := by decide

end Verif.Props.OptionAgain

#print axioms Verif.Props.OptionAgain.C167_keeps
#print axioms Verif.Props.OptionAgain.C167_many
#print axioms Verif.Props.OptionAgain.C167_finding_retry
#print axioms Verif.Props.OptionAgain.C167_finding_must
