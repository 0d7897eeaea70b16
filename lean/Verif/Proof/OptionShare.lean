import Verif.Proof.Option
import Verif.Spec.OptionShare

/-! # The control flow of the model with addresses is that of the model without -/
set_option linter.unusedSimpArgs false
namespace Verif.OptShare
open Verif.Config (mapFind mapInsert)
open Verif.Opt (Mode ParamMode isOpt End Reg)
open Verif.Spec.Opt
open Verif.OptShareSpec (Slot optSlots paramSlots restSlot slotOf slotAt writes final initial)

/-- Whether a value is accepted does not depend on the variable. -/
def Fixed {α : Type} (step : α → Str → Bool × α) : Prop := ∀ x y s, (step x s).1 = (step y s).1

/-- The conversion without the variable. -/
def eraseStep {α : Type} (a : α) (step : α → Str → Bool × α) : Unit → Str → Bool × Unit := fun _ s => ((step a s).1, ())

/-- The declaration without the variable. -/
def eraseReg {α : Type} (a : α) : Reg α → Reg Unit
  | .opt _ step mode isMust name => .opt () (eraseStep a step) mode isMust name
  | .param _ step name => .param () (eraseStep a step) name
  | .paramOpt _ step name => .paramOpt () (eraseStep a step) name
  | .paramVec _ step name => .paramVec () (eraseStep a step) name
  | .help n => .help n
  | .setDelimiter d r => .setDelimiter d r
  | .appendDelimiter d => .appendDelimiter d
  | .clearDelimiterList => .clearDelimiterList

def Var.erase {α : Type} (a : α) (v : Var α) : Opt.Var Unit := ⟨(), v.isSet, eraseStep a v.step⟩
def Info.erase {α : Type} (a : α) (i : Info α) : Opt.Info Unit := ⟨i.var.erase a, i.mode, i.isMust, i.opt⟩
def Opts.erase {α : Type} (a : α) (o : Opts α) : Opt.Option Unit :=
  ⟨o.infoVec.map (Info.erase a), o.paramVec.map (Info.erase a), o.remains.map (Info.erase a), o.optMap, o.paramMode, o.helpOpt, o.delimiters, o.remainsAfter, o.nextDelimiter⟩

/-- All conversions are fixed. -/
structure AllFixed {α : Type} (o : Opts α) : Prop where
  infos : ∀ i ∈ o.infoVec, Fixed i.var.step
  params : ∀ i ∈ o.paramVec, Fixed i.var.step

theorem set_erase {α : Type} (a : α) (v : Var α) (hf : Fixed v.step) (m : Mem α) (s : Str) :
    (v.erase a).set s = ((v.set m s).1, (v.set m s).2.1.erase a) := by
  simp only [Opt.Var.set, Var.set, Var.erase, eraseStep, Prod.mk.injEq, and_true]
  exact hf _ _ _

theorem set_step {α : Type} (v : Var α) (m : Mem α) (s : Str) : (v.set m s).2.1.step = v.step := rfl

theorem anyLoop_erase {α : Type} (a : α) (v : Var α) (hf : Fixed v.step) (m : Mem α) (j : Nat) (l : List Str) :
    Opt.anyLoop (v.erase a) j l =
      ((anyLoop v m j l).1, (anyLoop v m j l).2.1.erase a, (anyLoop v m j l).2.2.2.1, (anyLoop v m j l).2.2.2.2) := by
  induction l generalizing v m j with
  | nil => rfl
  | cons x l ih =>
    rw [Opt.anyLoop, anyLoop]
    by_cases h : isOpt x = true
    · rw [if_pos h, if_pos h]
    · rw [if_neg h, if_neg h]
      dsimp only
      rw [set_erase a v hf m]
      dsimp only
      by_cases hb : (v.set m x).1 = true
      · rw [if_pos hb, if_pos hb]
        exact ih _ (by rw [set_step]; exact hf) _ _
      · rw [if_neg hb, if_neg hb]

theorem anyLoop_step {α : Type} (v : Var α) (m : Mem α) (j : Nat) (l : List Str) :
    (anyLoop v m j l).2.1.step = v.step ∧ (anyLoop v m j l).2.1.addr = v.addr := by
  induction l generalizing v m j with
  | nil => exact ⟨rfl, rfl⟩
  | cons x l ih =>
    rw [anyLoop]
    split
    · exact ⟨rfl, rfl⟩
    · dsimp only
      split
      · exact ih _ _ _
      · exact ⟨rfl, rfl⟩

theorem paramLoop_erase {α : Type} (a : α) (m : Mem α) (x : Str) (ps : List (Info α)) (hf : ∀ i ∈ ps, Fixed i.var.step) :
    Opt.paramLoop x (ps.map (Info.erase a)) = (paramLoop m x ps).map fun r => (r.1, r.2.1.map (Info.erase a)) := by
  induction ps with
  | nil => rfl
  | cons p ps ih =>
    rw [List.map_cons, Opt.paramLoop, paramLoop]
    have e : (Info.erase a p).var.isSet = p.var.isSet := rfl
    rw [e]
    by_cases h : (!p.var.isSet) = true
    · rw [if_pos h, if_pos h]
      have := set_erase a p.var (hf p (by simp)) m x
      have e2 : (Info.erase a p).var = p.var.erase a := rfl
      dsimp only
      rw [e2, this]
      rfl
    · rw [if_neg h, if_neg h, ih (fun i hi => hf i (by simp [hi]))]
      cases paramLoop m x ps <;> rfl

/-- The declared part of an `Info`. -/
def Info.key {α : Type} (x : Info α) : Nat × (α → Str → Bool × α) := (x.var.addr, x.var.step)

/-- What a step does to the declared things. -/
structure Same {α : Type} (o o' : Opts α) : Prop where
  info : ∀ i : Nat, (o'.infoVec[i]?).map Info.key = (o.infoVec[i]?).map Info.key
  param : ∀ i : Nat, (o'.paramVec[i]?).map Info.key = (o.paramVec[i]?).map Info.key
  rest : o'.remains.map Info.key = o.remains.map Info.key

theorem Same.refl {α : Type} (o : Opts α) : Same o o := ⟨fun _ => rfl, fun _ => rfl, rfl⟩
theorem Same.trans {α : Type} {a b c : Opts α} (h : Same a b) (g : Same b c) : Same a c :=
  ⟨fun i => (g.info i).trans (h.info i), fun i => (g.param i).trans (h.param i), g.rest.trans h.rest⟩

theorem Same.fixed {α : Type} {o o' : Opts α} (h : Same o o') (hf : AllFixed o) : AllFixed o' := by
  constructor
  · intro x hx
    obtain ⟨i, hi⟩ := List.getElem?_of_mem hx
    have := h.info i
    rw [hi] at this
    cases hy : o.infoVec[i]? with
    | none => rw [hy] at this; simp at this
    | some y =>
      rw [hy] at this
      simp only [Option.map_some, Option.some.injEq, Info.key, Prod.mk.injEq] at this
      rw [this.2]
      exact hf.infos y (List.mem_of_getElem? hy)
  · intro x hx
    obtain ⟨i, hi⟩ := List.getElem?_of_mem hx
    have := h.param i
    rw [hi] at this
    cases hy : o.paramVec[i]? with
    | none => rw [hy] at this; simp at this
    | some y =>
      rw [hy] at this
      simp only [Option.map_some, Option.some.injEq, Info.key, Prod.mk.injEq] at this
      rw [this.2]
      exact hf.params y (List.mem_of_getElem? hy)

theorem same_putVar {α : Type} (o : Opts α) (i : Nat) (info : Info α) (v : Var α) (hi : o.infoVec[i]? = some info)
    (hs : v.step = info.var.step) (ha : v.addr = info.var.addr) : Same o (o.putVar i info v) := by
  refine ⟨fun j => ?_, fun _ => rfl, rfl⟩
  simp only [Opts.putVar, List.getElem?_set]
  split
  · rename_i e
    subst e
    rw [hi]
    split
    · simp [hs, ha, Info.key]
    · rename_i h
      exact absurd (List.getElem?_eq_some_iff.mp hi).1 h
  · rfl

theorem paramLoop_keep {α : Type} (m : Mem α) (x : Str) (ps : List (Info α)) (b : Bool) (ps' : List (Info α)) (m' : Mem α)
    (h : paramLoop m x ps = some (b, ps', m')) (i : Nat) :
    (ps'[i]?).map Info.key = (ps[i]?).map Info.key := by
  induction ps generalizing ps' i with
  | nil => cases h
  | cons p ps ih =>
    rw [paramLoop] at h
    split at h
    · dsimp only at h
      simp only [Option.some.injEq, Prod.mk.injEq] at h
      obtain ⟨_, rfl, _⟩ := h
      cases i with
      | zero => rfl
      | succ i => rfl
    · cases hp : paramLoop m x ps with
      | none => rw [hp] at h; cases h
      | some r =>
        rw [hp] at h
        obtain ⟨b2, ps2, m2⟩ := r
        simp only [Option.map_some, Option.some.injEq, Prod.mk.injEq] at h
        obtain ⟨rfl, rfl, rfl⟩ := h
        cases i with
        | zero => rfl
        | succ i => exact ih _ hp i

theorem takeParam_same {α : Type} (o : Opts α) (m : Mem α) (x : Str) (b : Bool) (o' : Opts α) (m' : Mem α)
    (h : takeParam o m x = .ok (b, o', m')) : Same o o' := by
  rw [takeParam] at h
  cases hp : paramLoop m x o.paramVec with
  | some r =>
    obtain ⟨b2, ps, m2⟩ := r
    rw [hp] at h
    simp only [Res.ok.injEq, Prod.mk.injEq] at h
    obtain ⟨_, rfl, _⟩ := h
    exact ⟨fun _ => rfl, paramLoop_keep m x _ _ _ _ hp, rfl⟩
  | none =>
    rw [hp] at h
    dsimp only at h
    split at h
    · cases hr : o.remains with
      | none => rw [hr] at h; cases h
      | some r =>
        rw [hr] at h
        simp only [Res.ok.injEq, Prod.mk.injEq] at h
        obtain ⟨_, rfl, _⟩ := h
        exact ⟨fun _ => rfl, fun _ => rfl, by rw [hr]; rfl⟩
    · simp only [Res.ok.injEq, Prod.mk.injEq] at h
      obtain ⟨_, rfl, _⟩ := h
      exact Same.refl _

/-- `Fixed` for the rest is not needed: its answer is ignored, but its erased answer is not used either. -/
theorem takeParam_erase {α : Type} (a : α) (o : Opts α) (hf : AllFixed o) (m : Mem α) (x : Str) :
    Opt.takeParam (o.erase a) x = (takeParam o m x).bind fun r => .ok (r.1, r.2.1.erase a) := by
  rw [Opt.takeParam, takeParam]
  have e : (o.erase a).paramVec = o.paramVec.map (Info.erase a) := rfl
  rw [e, paramLoop_erase a m x _ hf.params]
  cases hp : paramLoop m x o.paramVec with
  | some r =>
    obtain ⟨b, ps, m2⟩ := r
    rfl
  | none =>
    dsimp only [Option.map_none]
    have e2 : (o.erase a).paramMode = o.paramMode := rfl
    rw [e2]
    split
    · have e3 : (o.erase a).remains = o.remains.map (Info.erase a) := rfl
      rw [e3]
      cases o.remains with
      | none => rfl
      | some r => rfl
    · rfl

theorem putVar_erase {α : Type} (a : α) (o : Opts α) (i : Nat) (info : Info α) (v : Var α) :
    (o.putVar i info v).erase a = (o.erase a).putVar i (info.erase a) (v.erase a) := by
  simp only [Opts.putVar, Opts.erase, Opt.Option.putVar, List.map_set]
  rfl

/-- The loop without the memory is the loop of the other model; nothing that was declared changes. -/
theorem argLoop_erase {α : Type} (a : α) (fuel : Nat) (o : Opts α) (hf : AllFixed o) (m : Mem α) (pos : Nat) (args : List Str) :
    Opt.argLoop fuel (o.erase a) pos args = (argLoop fuel o m pos args).bind fun r => .ok (r.1, r.2.1.erase a) := by
  induction fuel generalizing o m pos args with
  | zero => rfl
  | succ fuel ih =>
    cases args with
    | nil => rfl
    | cons x rest =>
      rw [Opt.argLoop, argLoop]
      have e1 : (o.erase a).delimiters = o.delimiters := rfl
      have e2 : (o.erase a).helpOpt = o.helpOpt := rfl
      have e3 : (o.erase a).optMap = o.optMap := rfl
      have e4 : (o.erase a).infoVec = o.infoVec.map (Info.erase a) := rfl
      rw [e1, e2, e3, e4]
      by_cases hd : x ∈ o.delimiters
      · rw [if_pos hd, if_pos hd]
        rfl
      rw [if_neg hd, if_neg hd]
      by_cases ho : isOpt x = true
      · rw [if_pos ho, if_pos ho]
        dsimp only
        by_cases hh : o.helpOpt = x.drop 1
        · rw [if_pos hh, if_pos hh]
          rfl
        rw [if_neg hh, if_neg hh]
        cases hm : mapFind o.optMap (x.drop 1) with
        | none => rfl
        | some i =>
          dsimp only
          cases hi : o.infoVec[i]? with
          | none => simp [at?, hi, Res.bind]
          | some info =>
            have hfi := hf.infos info (List.mem_of_getElem? hi)
            have e5 : at? o.infoVec i = .ok info := by simp [at?, hi]
            have e6 : at? (o.infoVec.map (Info.erase a)) i = .ok (info.erase a) := by simp [at?, hi]
            rw [e5, e6]
            simp only [Res.ok_bind]
            have e7 : (info.erase a).mode = info.mode := rfl
            have e8 : (info.erase a).var = info.var.erase a := rfl
            rw [e7, e8]
            cases info.mode with
            | is0 =>
              dsimp only
              rw [set_erase a _ hfi m]
              dsimp only
              split
              · rw [← putVar_erase]
                exact ih _ (Same.fixed (same_putVar o i info (info.var.set m [49]).2.1 hi rfl rfl) hf) _ _ _
              · rw [← putVar_erase]
                rfl
            | is1 =>
              cases rest with
              | nil => rfl
              | cons y rest =>
                dsimp only
                rw [set_erase a _ hfi m]
                dsimp only
                split
                · rw [← putVar_erase]
                  exact ih _ (Same.fixed (same_putVar o i info (info.var.set m y).2.1 hi rfl rfl) hf) _ _ _
                · rw [← putVar_erase]
                  rfl
            | any =>
              dsimp only
              rw [anyLoop_erase a _ hfi m]
              dsimp only
              have hs := anyLoop_step info.var m 0 rest
              split
              · rw [← putVar_erase]
                rfl
              · split
                · rw [← putVar_erase]
                  exact ih _ (Same.fixed (same_putVar o i info _ hi hs.1 hs.2) hf) _ _ _
                · rw [← putVar_erase]
                  rfl
      · rw [if_neg ho, if_neg ho, takeParam_erase a o hf m]
        cases ht : takeParam o m x with
        | throw => rfl
        | ub => rfl
        | ok r =>
          obtain ⟨b, o', m'⟩ := r
          have hsm := takeParam_same o m x b o' m' ht
          show (if b = true then _ else _) = Res.bind (if b = true then _ else _) _
          split
          · exact ih _ (Same.fixed hsm hf) _ _ _
          · rfl

theorem checks_erase {α : Type} (a : α) (o : Opts α) : Opt.checks (o.erase a) = checks o := by
  simp only [Opt.checks, checks, Opts.erase, List.any_map]
  cases o.remains <;> rfl

theorem parse_erase {α : Type} (a : α) (o : Opts α) (hf : AllFixed o) (m : Mem α) (argv : List Str) :
    (o.erase a).parse argv = (o.parse m argv).bind fun r => .ok (r.1, r.2.1.erase a) := by
  rw [Opt.Option.parse, Opts.parse]
  by_cases h : argv.length < 1
  · rw [if_pos (.inl h), if_pos h]
    rfl
  · rw [if_neg (by omega), if_neg (by omega), if_neg h]
    have e := argLoop_erase a (argv.length + 1) { o with nextDelimiter := (argv.length : Int) } ⟨hf.infos, hf.params⟩ m 1 (argv.drop 1)
    have e' : Opt.argLoop (argv.length + 1) { o.erase a with nextDelimiter := (argv.length : Int) } 1 (argv.drop 1) = _ := e
    rw [e']
    cases argLoop (argv.length + 1) { o with nextDelimiter := (argv.length : Int) } m 1 (argv.drop 1) with
    | throw => rfl
    | ub => rfl
    | ok r =>
      obtain ⟨e, o', m'⟩ := r
      cases e
      · show Res.ok (some (Opt.checks (o'.erase a)), _) = _
        rw [checks_erase]
        rfl
      · rfl
      · rfl

theorem reg_erase {α : Type} (a : α) (o : Opts α) (addr : Nat) (r : Reg α) :
    (o.erase a).reg (eraseReg a r) = (o.reg1 addr r).bind fun o' => .ok (o'.erase a) := by
  have e3 : (o.erase a).optMap = o.optMap := rfl
  have e4 : (o.erase a).infoVec = o.infoVec.map (Info.erase a) := rfl
  have e5 : (o.erase a).paramMode = o.paramMode := rfl
  cases r with
  | opt st step mode isMust name =>
    simp only [eraseReg, Opt.Option.reg, Opts.reg1, Opt.Option.appendSub, Opts.appendSub, e3]
    split
    · rfl
    · split
      · rfl
      · simp [Res.bind, Opts.erase, Info.erase, Var.erase]
  | param st step name =>
    simp only [eraseReg, Opt.Option.reg, Opts.reg1, Opt.Option.appendParam, e5]
    split
    · rfl
    · simp [Res.bind, Opts.erase, Info.erase, Var.erase]
  | paramOpt st step name =>
    simp only [eraseReg, Opt.Option.reg, Opts.reg1, Opt.Option.appendParamOpt, e5]
    split
    · rfl
    · simp [Res.bind, Opts.erase, Info.erase, Var.erase]
  | paramVec st step name =>
    simp only [eraseReg, Opt.Option.reg, Opts.reg1, Opt.Option.appendParamVec, e5]
    split
    · rfl
    · simp [Res.bind, Opts.erase, Info.erase, Var.erase]
  | help n => rfl
  | setDelimiter d r => rfl
  | appendDelimiter d => rfl
  | clearDelimiterList => rfl

theorem regs_erase {α : Type} (a : α) (o : Opts α) (m : Mem α) (rs : List (PReg α)) :
    (o.erase a).regs (rs.map fun r => eraseReg a r.reg) = (o.regs m rs).bind fun r => .ok (r.1.erase a) := by
  induction rs generalizing o m with
  | nil => rfl
  | cons r rs ih =>
    rw [List.map_cons, Opt.Option.regs, Opts.regs, reg_erase a o r.addr]
    cases o.reg1 r.addr r.reg with
    | throw => rfl
    | ub => rfl
    | ok o' => exact ih _ _

/-! ### the memory -/

/-- The memory after values were given to slots, in order. -/
def apply {α : Type} (ws : List (Slot α × Str)) (m : Mem α) : Mem α :=
  ws.foldl (fun m w => m.put w.1.addr (w.1.step (m w.1.addr) w.2).2) m

/-- The slots of the object are those of the declarations. -/
structure AddrOk {α : Type} (rs : List (PReg α)) (o : Opts α) : Prop where
  info : ∀ i : Nat, (o.infoVec[i]?).map Info.key = ((optSlots rs)[i]?).map fun x => (x.2.addr, x.2.step)
  param : ∀ i : Nat, (o.paramVec[i]?).map Info.key = ((paramSlots rs)[i]?).map fun x => (x.addr, x.step)
  rest : o.remains.map Info.key = (restSlot rs).map fun x => (x.addr, x.step)

theorem AddrOk.same {α : Type} {rs : List (PReg α)} {o o' : Opts α} (h : AddrOk rs o) (g : Same o o') : AddrOk rs o' :=
  ⟨fun i => (g.info i).trans (h.info i), fun i => (g.param i).trans (h.param i), g.rest.trans h.rest⟩

theorem apply_append {α : Type} (a b : List (Slot α × Str)) (m : Mem α) : apply (a ++ b) m = apply b (apply a m) := by
  simp [apply]

theorem anyLoop_mem {α : Type} (a : α) (v : Var α) (hf : Fixed v.step) (m : Mem α) (j : Nat) (l : List Str) (h : (anyLoop v m j l).1 = true) :
    ∃ vs, l = vs ++ (anyLoop v m j l).2.2.2.2 ∧ (∀ x ∈ vs, ¬ OptText x) ∧ (∀ y, (anyLoop v m j l).2.2.2.2.head? = some y → OptText y) ∧
      (anyLoop v m j l).2.2.1 = apply (vs.map fun s => (⟨v.addr, v.step⟩, s)) m ∧ (anyLoop v m j l).2.2.2.1 = j + vs.length ∧
      (anyLoop v m j l).2.1 = { v with isSet := v.isSet || !vs.isEmpty } ∧ feed (eraseStep a v.step) () vs = some () := by
  induction l generalizing v m j with
  | nil => exact ⟨[], rfl, by simp, by simp [anyLoop], rfl, rfl, by simp [anyLoop], rfl⟩
  | cons x l ih =>
    by_cases ho : isOpt x = true
    · have e : anyLoop v m j (x :: l) = (true, v, m, j, x :: l) := by rw [anyLoop, if_pos ho]
      rw [e]
      refine ⟨[], rfl, by simp, ?_, rfl, rfl, by simp, rfl⟩
      intro y hy
      simp only [List.head?_cons, Option.some.injEq] at hy
      exact hy ▸ (Opt.isOpt_iff x).mp ho
    · have e : anyLoop v m j (x :: l) = if (v.set m x).1 then anyLoop (v.set m x).2.1 (v.set m x).2.2 (j + 1) l
          else (false, (v.set m x).2.1, (v.set m x).2.2, j, x :: l) := by rw [anyLoop, if_neg ho]
      rw [e] at h ⊢
      by_cases hb : (v.set m x).1 = true
      · rw [if_pos hb] at h ⊢
        obtain ⟨vs, g1, g2, g3, g4, g5, g6, g7⟩ := ih (v.set m x).2.1 hf (v.set m x).2.2 (j + 1) h
        refine ⟨x :: vs, by rw [List.cons_append, ← g1], ?_, g3, ?_, ?_, ?_, ?_⟩
        · intro y hy
          rcases List.mem_cons.mp hy with rfl | hy
          · exact fun hh => ho ((Opt.isOpt_iff _).mpr hh)
          · exact g2 y hy
        · rw [g4]
          rfl
        · rw [g5, List.length_cons]
          omega
        · rw [g6]
          simp [Var.set]
        · have hb' : (eraseStep a v.step () x).1 = true := by
            rw [← hb]
            exact hf _ _ _
          rw [feed, if_pos hb']
          exact g7
      · rw [if_neg hb] at h
        cases h

theorem paramLoop_mem {α : Type} (m : Mem α) (x : Str) (ps : List (Info α)) (k : Nat)
    (h : ∀ (i : Nat) p, ps[i]? = some p → (p.var.isSet = true ↔ i < k)) :
    (paramLoop m x ps).map (fun r => (r.1, r.2.2)) = (ps[k]?).map fun p => ((p.var.set m x).1, (p.var.set m x).2.2) := by
  induction ps generalizing k with
  | nil => simp [paramLoop]
  | cons p ps ih =>
    have h0 := h 0 p rfl
    cases k with
    | zero =>
      have : p.var.isSet = false := by
        cases hs : p.var.isSet
        · rfl
        · exact absurd (h0.mp hs) (by omega)
      simp [paramLoop, this]
    | succ k =>
      rw [paramLoop, h0.mpr (by omega)]
      simp only [Bool.not_true, Bool.false_eq_true, if_false, List.getElem?_cons_succ, Option.map_map]
      rw [← ih k (fun i q hq => by
        have := h (i + 1) q hq
        rw [this]; omega)]
      rfl

/-- The declarations without the variables. -/
def eraseAll {α : Type} (a : α) (rs : List (PReg α)) : List (Reg Unit) := rs.map fun r => eraseReg a r.reg

theorem optSlots_names {α : Type} (a : α) (rs : List (PReg α)) :
    (optsOf (eraseAll a rs)).map (fun d => d.name) = (optSlots rs).map fun x => x.1 := by
  induction rs with
  | nil => rfl
  | cons r rs ih =>
    obtain ⟨p, r⟩ := r
    cases r <;> simp_all [optsOf, eraseAll, eraseReg, optSlots]

theorem lookup_at {β : Type} (l : List (Str × β)) (i : Nat) (n : Str) (s : β) (h : l[i]? = some (n, s))
    (hu : ∀ (j : Nat) x, l[j]? = some x → x.1 = n → j = i) : l.lookup n = some s := by
  induction l generalizing i with
  | nil => cases h
  | cons y l ih =>
    obtain ⟨k, t⟩ := y
    rw [List.lookup_cons]
    by_cases hk : k = n
    · subst hk
      have : 0 = i := hu 0 _ rfl rfl
      subst this
      simp only [List.getElem?_cons_zero, Option.some.injEq, Prod.mk.injEq, true_and] at h
      simp [h]
    · rw [show (n == k) = false by simpa using fun e => hk e.symm]
      cases i with
      | zero =>
        simp only [List.getElem?_cons_zero, Option.some.injEq, Prod.mk.injEq] at h
        exact absurd h.1 hk
      | succ i =>
        exact ih i h (fun j x hj hx => by
          have := hu (j + 1) x hj hx
          omega)

/-- The option found by its name is the declared one. -/
theorem slot_found {α : Type} {a : α} {rs : List (PReg α)} {done : List Item} {o : Opts α} (M : Opt.Match (eraseAll a rs) done (o.erase a))
    (hA : AddrOk rs o) {n : Str} {i : Nat} {info : Info α} (hm : mapFind o.optMap n = some i) (hi : o.infoVec[i]? = some info) :
    slotOf rs n = some ⟨info.var.addr, info.var.step⟩ := by
  have hk := hA.info i
  rw [hi] at hk
  have hname : ∀ (j : Nat) x, (optSlots rs)[j]? = some x → x.1 = n → j = i := by
    intro j x hx hn
    have e : ((optsOf (eraseAll a rs)).map (fun d => d.name))[j]? = some n := by
      rw [optSlots_names, List.getElem?_map, hx]
      simp [hn]
    rw [List.getElem?_map] at e
    cases hd : (optsOf (eraseAll a rs))[j]? with
    | none => rw [hd] at e; cases e
    | some d =>
      rw [hd] at e
      simp only [Option.map_some, Option.some.injEq] at e
      have := (M.find n j).mpr ⟨d, hd, e⟩
      have e2 : mapFind (o.erase a).optMap n = some i := hm
      rw [e2] at this
      injection this with this
      exact this.symm
  obtain ⟨d, hd, hn⟩ := (M.find n i).mp hm
  cases hs : (optSlots rs)[i]? with
  | none => rw [hs] at hk; cases hk
  | some x =>
    obtain ⟨k, s⟩ := x
    rw [hs] at hk
    simp only [Option.map_some, Info.key, Option.some.injEq, Prod.mk.injEq] at hk
    have e : ((optSlots rs).map fun x => x.1)[i]? = some n := by
      rw [← optSlots_names a, List.getElem?_map, hd]
      simp [hn]
    rw [List.getElem?_map, hs] at e
    simp only [Option.map_some, Option.some.injEq] at e
    subst e
    rw [slotOf, lookup_at _ i _ s hs hname]
    rw [hk.1, hk.2]

/-- The memory after the loop: the values of the reading, in the order of the command line. -/
theorem argLoop_mem {α : Type} (a : α) (rs : List (PReg α)) (fuel : Nat) (done : List Item) (o : Opts α) (m : Mem α) (pos : Nat) (args : List Str)
    (o' : Opts α) (m' : Mem α) (items : List Item) (r : Option (List Str)) (M : Opt.Match (eraseAll a rs) done (o.erase a)) (hf : AllFixed o)
    (hA : AddrOk rs o) (h : argLoop fuel o m pos args = .ok (.fin, o', m'))
    (hc : Cmd (modeIn (optsOf (eraseAll a rs))) (helpOf (eraseAll a rs)) (delimsOf (eraseAll a rs)) args items r) :
    m' = apply (writes rs (positionals done).length items) m ∧ Same o o' := by
  induction fuel generalizing done o m pos args items with
  | zero => cases h
  | succ fuel ih =>
    cases args with
    | nil =>
      cases hc
      rw [argLoop] at h
      simp only [Res.ok.injEq, Prod.mk.injEq, true_and] at h
      obtain ⟨rfl, rfl⟩ := h
      exact ⟨rfl, Same.refl _⟩
    | cons x rest =>
      rw [argLoop] at h
      by_cases hd : x ∈ o.delimiters
      · rw [if_pos hd] at h
        simp only [Res.ok.injEq, Prod.mk.injEq, true_and] at h
        obtain ⟨rfl, rfl⟩ := h
        have hd' : x ∈ delimsOf (eraseAll a rs) := M.delims ▸ hd
        have : items = [] := by
          generalize hargs : x :: rest = args at hc
          cases hc with
          | nil => rfl
          | delim => rfl
          | flag _ _ _ _ hd2 | one _ _ _ _ _ hd2 | many _ _ _ _ _ hd2 | pos _ _ _ _ hd2 =>
            simp only [List.cons.injEq] at hargs
            rw [← hargs.1] at hd2
            exact absurd hd' hd2
        subst this
        exact ⟨rfl, ⟨fun _ => rfl, fun _ => rfl, rfl⟩⟩
      rw [if_neg hd] at h
      have hd' : x ∉ delimsOf (eraseAll a rs) := M.delims ▸ hd
      by_cases ho : isOpt x = true
      · rw [if_pos ho] at h
        obtain ⟨n, rfl, _⟩ := (Opt.isOpt_iff x).mp ho
        have hot := (Opt.isOpt_iff (45 :: n)).mp ho
        simp only [List.drop_succ_cons, List.drop_zero] at h
        by_cases hh : o.helpOpt = n
        · rw [if_pos hh] at h
          cases h
        rw [if_neg hh] at h
        cases hm : mapFind o.optMap n with
        | none => rw [hm] at h; cases h
        | some i =>
          rw [hm] at h
          dsimp only at h
          obtain ⟨d, info0, hdi, hinfo0, hdn, hmode⟩ := Opt.modeIn_eq M (show mapFind (o.erase a).optMap n = some i from hm)
          have e4 : (o.erase a).infoVec = o.infoVec.map (Info.erase a) := rfl
          rw [e4, List.getElem?_map] at hinfo0
          cases hi : o.infoVec[i]? with
          | none => rw [hi] at hinfo0; cases hinfo0
          | some info =>
            rw [hi] at hinfo0
            simp only [Option.map_some, Option.some.injEq] at hinfo0
            subst hinfo0
            have hie : (o.erase a).infoVec[i]? = some (info.erase a) := by rw [e4, List.getElem?_map, hi]; rfl
            have hmode' : modeIn (optsOf (eraseAll a rs)) n = some info.mode := hmode
            have hfi := hf.infos info (List.mem_of_getElem? hi)
            have hslot := slot_found M hA hm hi
            rw [show at? o.infoVec i = .ok info by simp [at?, hi]] at h
            simp only [Res.ok_bind] at h
            cases hmd : info.mode with
            | is0 =>
              rw [hmd] at h hmode'
              dsimp only at h
              split at h
              · rename_i hb
                have hb' : (eraseStep a info.var.step () [49]).1 = true := by
                  rw [← hb]
                  exact hfi _ _ _
                have hs := same_putVar o i info (info.var.set m [49]).2.1 hi rfl rfl
                have M' := Opt.step_opt M (show mapFind (o.erase a).optMap n = some i from hm) hie (.flag n) [[49]] (by simp)
                  (fun k => by simp [valuesOf]) rfl () (by
                    show feed (eraseStep a info.var.step) () [[49]] = some ()
                    rw [feed, if_pos hb']
                    rfl) true rfl
                have M2 : Opt.Match (eraseAll a rs) (done ++ [.flag n]) ((o.putVar i info (info.var.set m [49]).2.1).erase a) := by
                  rw [putVar_erase]
                  exact M'
                obtain ⟨_, ⟨_, items', rfl, hc'⟩ | ⟨hm', _⟩ | ⟨hm', _⟩⟩ := Opt.cmd_inv_opt hc hd' hot
                · obtain ⟨g1, g2⟩ := ih _ _ _ _ _ _ M2 (hs.fixed hf) (hA.same hs) h hc'
                  refine ⟨?_, hs.trans g2⟩
                  rw [g1, writes, hslot, apply_append, Opt.positionals_append,
                    show (positionals done ++ positionals [Item.flag n]).length = (positionals done).length by simp [positionals]]
                  rfl
                · rw [hmode'] at hm'; cases hm'
                · rw [hmode'] at hm'; cases hm'
              · cases h
            | is1 =>
              rw [hmd] at h hmode'
              cases rest with
              | nil => cases h
              | cons y rest =>
                dsimp only at h
                split at h
                · rename_i hb
                  have hb' : (eraseStep a info.var.step () y).1 = true := by
                    rw [← hb]
                    exact hfi _ _ _
                  have hs := same_putVar o i info (info.var.set m y).2.1 hi rfl rfl
                  have M' := Opt.step_opt M (show mapFind (o.erase a).optMap n = some i from hm) hie (.one n y) [y] (by simp)
                    (fun k => by simp [valuesOf]) rfl () (by
                      show feed (eraseStep a info.var.step) () [y] = some ()
                      rw [feed, if_pos hb']
                      rfl) true rfl
                  have M2 : Opt.Match (eraseAll a rs) (done ++ [.one n y]) ((o.putVar i info (info.var.set m y).2.1).erase a) := by
                    rw [putVar_erase]
                    exact M'
                  obtain ⟨_, ⟨hm', _⟩ | ⟨_, v', rest', items', e0, rfl, hc'⟩ | ⟨hm', _⟩⟩ := Opt.cmd_inv_opt hc hd' hot
                  · rw [hmode'] at hm'; cases hm'
                  · injection e0 with e0 e0'
                    subst e0 e0'
                    obtain ⟨g1, g2⟩ := ih _ _ _ _ _ _ M2 (hs.fixed hf) (hA.same hs) h hc'
                    refine ⟨?_, hs.trans g2⟩
                    rw [g1, writes, hslot, apply_append, Opt.positionals_append,
                      show (positionals done ++ positionals [Item.one n y]).length = (positionals done).length by simp [positionals]]
                    rfl
                  · rw [hmode'] at hm'; cases hm'
                · cases h
            | any =>
              rw [hmd] at h hmode'
              dsimp only at h
              have hst := anyLoop_step info.var m 0 rest
              split at h
              · cases h
              · rename_i hb
                have hb : (anyLoop info.var m 0 rest).1 = true := by simpa using hb
                obtain ⟨vs, q1, q2, q3, q4, q5, q6, q7⟩ := anyLoop_mem a info.var hfi m 0 rest hb
                split at h
                · rename_i hj
                  have hs := same_putVar o i info (anyLoop info.var m 0 rest).2.1 hi hst.1 hst.2
                  obtain ⟨_, ⟨hm', _⟩ | ⟨hm', _⟩ | ⟨_, vs', rest', items', e0, hne, hvs', hr', rfl, hc'⟩⟩ := Opt.cmd_inv_opt hc hd' hot
                  · rw [hmode'] at hm'; cases hm'
                  · rw [hmode'] at hm'; cases hm'
                  · rw [q1] at e0
                    obtain ⟨t1, t2⟩ := Opt.split_unique e0 q2 hvs' q3 hr'
                    subst t1
                    rw [← t2] at hc'
                    have M' := Opt.step_opt M (show mapFind (o.erase a).optMap n = some i from hm) hie (.many n vs) vs hne
                      (fun k => by simp [valuesOf]) rfl () q7 true rfl
                    have M2 : Opt.Match (eraseAll a rs) (done ++ [.many n vs]) ((o.putVar i info (anyLoop info.var m 0 rest).2.1).erase a) := by
                      rw [putVar_erase, q6]
                      have e : (info.var.isSet || !vs.isEmpty) = true := by cases vs with
                        | nil => exact absurd rfl hne
                        | cons _ _ => simp
                      rw [e]
                      exact M'
                    obtain ⟨g1, g2⟩ := ih _ _ _ _ _ _ M2 (hs.fixed hf) (hA.same hs) h hc'
                    refine ⟨?_, hs.trans g2⟩
                    rw [g1, writes, hslot, apply_append, Opt.positionals_append, q4]
                    simp [positionals]
                · cases h
      · rw [if_neg ho] at h
        have hot : ¬ OptText x := fun hh => ho ((Opt.isOpt_iff x).mpr hh)
        obtain ⟨items', rfl, hc'⟩ := Opt.cmd_inv_pos hc hd' hot
        obtain ⟨b1, o1, s1, s2, _⟩ := Opt.step_pos M x
        have hk : ∀ (i : Nat) p, o.paramVec[i]? = some p → (p.var.isSet = true ↔ i < (positionals done).length) := by
          intro i p hp
          have hp' : (o.erase a).paramVec[i]? = some (p.erase a) := by
            show (o.paramVec.map (Info.erase a))[i]? = _
            rw [List.getElem?_map, hp]
            rfl
          have hi : i < (paramsOf (eraseAll a rs)).length := by rw [← M.paramLen]; exact (List.getElem?_eq_some_iff.mp hp').1
          exact (M.params i _ _ (List.getElem?_eq_getElem hi) hp').2.2.2
        rw [takeParam_erase a o hf m] at s1
        cases ht : takeParam o m x with
        | throw => rw [ht] at h; cases h
        | ub => rw [ht] at h; cases h
        | ok t =>
          obtain ⟨b, o2, m2⟩ := t
          rw [ht] at h s1
          simp only [Res.bind, Res.ok.injEq, Prod.mk.injEq] at s1
          obtain ⟨rfl, rfl⟩ := s1
          have hsm := takeParam_same o m x b o2 m2 ht
          have h : (if b = true then argLoop fuel o2 m2 (pos + 1) rest else .ok (.err, o2, m2)) = .ok (.fin, o', m') := h
          split at h
          · rename_i hb
            obtain ⟨g1, g2⟩ := ih _ _ _ _ _ _ (s2 hb) (hsm.fixed hf) (hA.same hsm) h hc'
            refine ⟨?_, hsm.trans g2⟩
            rw [g1, writes, apply_append, Opt.positionals_append]
            have e1 : (positionals done ++ positionals [Item.pos x]).length = (positionals done).length + 1 := by simp [positionals]
            rw [e1]
            congr 1
            -- the memory after one positional value
            have hpl := paramLoop_mem m x o.paramVec _ hk
            rw [takeParam] at ht
            have hkey := hA.param (positionals done).length
            cases hp : paramLoop m x o.paramVec with
            | some t =>
              obtain ⟨b3, ps, m3⟩ := t
              rw [hp] at ht hpl
              simp only [Res.ok.injEq, Prod.mk.injEq] at ht
              obtain ⟨_, _, rfl⟩ := ht
              cases hq : o.paramVec[(positionals done).length]? with
              | none => rw [hq] at hpl; cases hpl
              | some q =>
                rw [hq] at hpl hkey
                simp only [Option.map_some, Option.some.injEq, Prod.mk.injEq] at hpl
                cases hsl : (paramSlots rs)[(positionals done).length]? with
                | none => rw [hsl] at hkey; cases hkey
                | some sl =>
                  rw [hsl] at hkey
                  simp only [Option.map_some, Info.key, Option.some.injEq, Prod.mk.injEq] at hkey
                  rw [slotAt, hsl, hpl.2]
                  simp [apply, Var.set, hkey.1, hkey.2]
            | none =>
              rw [hp] at ht hpl
              dsimp only at ht
              have hq : o.paramVec[(positionals done).length]? = none := by
                cases hq : o.paramVec[(positionals done).length]? with
                | none => rfl
                | some q => rw [hq] at hpl; cases hpl
              rw [hq] at hkey
              have hsl : (paramSlots rs)[(positionals done).length]? = none := by
                cases hsl : (paramSlots rs)[(positionals done).length]? with
                | none => rfl
                | some q => rw [hsl] at hkey; cases hkey
              split at ht
              · cases hr : o.remains with
                | none => rw [hr] at ht; cases ht
                | some q =>
                  rw [hr] at ht
                  simp only [Res.ok.injEq, Prod.mk.injEq] at ht
                  obtain ⟨_, _, rfl⟩ := ht
                  have hkr := hA.rest
                  rw [hr] at hkr
                  cases hrs : restSlot rs with
                  | none => rw [hrs] at hkr; cases hkr
                  | some sl =>
                    rw [hrs] at hkr
                    simp only [Option.map_some, Info.key, Option.some.injEq, Prod.mk.injEq] at hkr
                    rw [slotAt, hsl]
                    simp [hrs, apply, Var.set, hkr.1, hkr.2]
              · simp only [Res.ok.injEq, Prod.mk.injEq] at ht
                rw [← ht.1] at hb
                cases hb
          · cases h

/-! ### declarations -/

theorem reg_addr {α : Type} {rs : List (PReg α)} {o o' : Opts α} {p : Nat} {r : Reg α} (h : AddrOk rs o) (hrest : o.paramMode = .exact → restSlot rs = none)
    (hr : o.reg1 p r = .ok o') : AddrOk (rs ++ [⟨p, r⟩]) o' ∧ (o'.paramMode = .exact → restSlot (rs ++ [⟨p, r⟩]) = none) := by
  have ao : ∀ r' : PReg α, optSlots (rs ++ [r']) = optSlots rs ++ optSlots [r'] := fun r' => by simp [optSlots]
  have ap : ∀ r' : PReg α, paramSlots (rs ++ [r']) = paramSlots rs ++ paramSlots [r'] := fun r' => by simp [paramSlots]
  have ar : ∀ r' : PReg α, restSlot (rs ++ [r']) = (restSlot rs).or (restSlot [r']) := fun r' => by simp [restSlot]
  have gen : ∀ {β γ : Type} (l : List β) (l' : List γ) (f : β → Nat × (α → Str → Bool × α)) (g : γ → Nat × (α → Str → Bool × α)) (x : β) (y : γ),
      (∀ i : Nat, (l[i]?).map f = (l'[i]?).map g) → f x = g y → ∀ i : Nat, ((l ++ [x])[i]?).map f = ((l' ++ [y])[i]?).map g := by
    intro β γ l l' f g x y hl hxy i
    have e : l.map f = l'.map g := by
      apply List.ext_getElem?
      intro i
      rw [List.getElem?_map, List.getElem?_map]
      exact hl i
    have e2 : (l ++ [x]).map f = (l' ++ [y]).map g := by simp [e, hxy]
    rw [← List.getElem?_map, ← List.getElem?_map, e2]
  cases r with
  | opt st step mode isMust name =>
    simp only [Opts.reg1, Opts.appendSub] at hr
    split at hr
    · cases hr
    · split at hr
      · cases hr
      · simp only [Res.ok.injEq] at hr
        subst hr
        refine ⟨⟨?_, ?_, ?_⟩, ?_⟩
        · rw [ao]
          exact gen _ _ _ _ _ _ h.info rfl
        · rw [ap]
          simpa [paramSlots] using h.param
        · rw [ar]
          simpa [restSlot] using h.rest
        · rw [ar]
          simpa [restSlot] using hrest
  | param st step name =>
    simp only [Opts.reg1] at hr
    split at hr
    · cases hr
    · simp only [Res.ok.injEq] at hr
      subst hr
      refine ⟨⟨?_, ?_, ?_⟩, ?_⟩
      · rw [ao]
        simpa [optSlots] using h.info
      · rw [ap]
        exact gen _ _ _ _ _ _ h.param rfl
      · rw [ar]
        simpa [restSlot] using h.rest
      · rw [ar]
        simpa [restSlot] using hrest
  | paramOpt st step name =>
    simp only [Opts.reg1] at hr
    split at hr
    · cases hr
    · simp only [Res.ok.injEq] at hr
      subst hr
      refine ⟨⟨?_, ?_, ?_⟩, fun e => by cases e⟩
      · rw [ao]
        simpa [optSlots] using h.info
      · rw [ap]
        exact gen _ _ _ _ _ _ h.param rfl
      · rw [ar]
        simpa [restSlot] using h.rest
  | paramVec st step name =>
    simp only [Opts.reg1] at hr
    split at hr
    · cases hr
    · rename_i hm
      simp only [Res.ok.injEq] at hr
      subst hr
      refine ⟨⟨?_, ?_, ?_⟩, fun e => by cases e⟩
      · rw [ao]
        simpa [optSlots] using h.info
      · rw [ap]
        simpa [paramSlots] using h.param
      · rw [ar, hrest (by simpa using hm)]
        rfl
  | help n | setDelimiter d r | appendDelimiter d | clearDelimiterList =>
    simp only [Opts.reg1, Res.ok.injEq] at hr
    subst hr
    refine ⟨⟨?_, ?_, ?_⟩, ?_⟩
    · rw [ao]
      simpa [optSlots] using h.info
    · rw [ap]
      simpa [paramSlots] using h.param
    · rw [ar]
      simpa [restSlot] using h.rest
    · rw [ar]
      simpa [restSlot] using hrest

theorem regs_addr {α : Type} (rs pre : List (PReg α)) (o : Opts α) (m : Mem α) (o' : Opts α) (m' : Mem α) (h : AddrOk pre o)
    (hrest : o.paramMode = .exact → restSlot pre = none) (hr : o.regs m rs = .ok (o', m')) :
    AddrOk (pre ++ rs) o' ∧ m' = rs.foldl initVar m := by
  induction rs generalizing pre o m with
  | nil =>
    simp only [Opts.regs, Res.ok.injEq, Prod.mk.injEq] at hr
    obtain ⟨rfl, rfl⟩ := hr
    exact ⟨by simpa using h, rfl⟩
  | cons r rs ih =>
    rw [Opts.regs] at hr
    cases h1 : o.reg1 r.addr r.reg with
    | throw => rw [h1] at hr; cases hr
    | ub => rw [h1] at hr; cases hr
    | ok o1 =>
      rw [h1] at hr
      obtain ⟨g1, g2⟩ := reg_addr h hrest h1
      have := ih (pre ++ [r]) o1 (initVar m r) g1 g2 hr
      simpa using this

end Verif.OptShare
