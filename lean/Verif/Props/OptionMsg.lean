import Verif.Props.Option
import Verif.Spec.OptionMsg
set_option linter.unusedSimpArgs false

/-!
# C99: which options are set, and what the messages say
-/
namespace Verif.Props.OptionMsg
open Verif.Opt Verif.Spec.Opt Verif.Props.Option

/-! ## The name of the program -/

theorem afterLast_spec (s : List UInt8) :
    (afterLast s = none → 47 ∉ s ∧ 92 ∉ s) ∧
    (∀ r, afterLast s = some r → 47 ∉ r ∧ 92 ∉ r ∧ ∃ dir sep, (sep = 47 ∨ sep = 92) ∧ s = dir ++ sep :: r) := by
  induction s with
  | nil => simp [afterLast]
  | cons c s ih =>
    rw [afterLast]
    cases h : afterLast s with
    | some r =>
      obtain ⟨h1, h2, dir, sep, h3, h4⟩ := ih.2 r h
      refine ⟨by simp, fun r' e => ?_⟩
      simp only [Option.some.injEq] at e
      subst e
      exact ⟨h1, h2, c :: dir, sep, h3, by simp [h4]⟩
    | none =>
      obtain ⟨h1, h2⟩ := ih.1 h
      simp only
      split
      · rename_i hc
        refine ⟨by simp, fun r' e => ?_⟩
        simp only [Option.some.injEq] at e
        subst e
        exact ⟨h1, h2, [], c, hc, rfl⟩
      · rename_i hc
        refine ⟨fun _ => ?_, by simp⟩
        simp only [List.mem_cons, not_or]
        exact ⟨⟨fun e => hc (.inl e.symm), h1⟩, ⟨fun e => hc (.inr e.symm), h2⟩⟩

/-- C99: the program name in the usage message is the last component of the path, and there is only one. -/
theorem C99_base_name (name : List UInt8) : LastPart name (getBaseName name) ∧ ∀ r, LastPart name r → r = getBaseName name := by
  have h1 : LastPart name (getBaseName name) := by
    rw [getBaseName]
    cases h : afterLast name with
    | none => exact ⟨((afterLast_spec name).1 h).1, ((afterLast_spec name).1 h).2, .inl rfl⟩
    | some r => exact ⟨((afterLast_spec name).2 r h).1, ((afterLast_spec name).2 r h).2.1, .inr ((afterLast_spec name).2 r h).2.2⟩
  refine ⟨h1, fun r h => ?_⟩
  have key : ∀ (a b : List UInt8), LastPart name a → LastPart name b → a.length ≤ b.length → a = b := by
    rintro a b ⟨a1, a2, a3⟩ ⟨b1, b2, b3⟩ hl
    have sa : a <:+ name := by
      rcases a3 with rfl | ⟨d, c, -, rfl⟩
      · exact List.suffix_refl _
      · exact ⟨d ++ [c], by simp⟩
    have sb : b <:+ name := by
      rcases b3 with rfl | ⟨d, c, -, rfl⟩
      · exact List.suffix_refl _
      · exact ⟨d ++ [c], by simp⟩
    have hs := List.suffix_of_suffix_length_le sa sb hl
    rcases a3 with rfl | ⟨d, c, hc, e⟩
    · exact (sb.eq_of_length (Nat.le_antisymm sb.length_le hl)).symm
    · rcases Nat.lt_or_ge a.length b.length with hlt | hge
      · have sc : (c :: a) <:+ name := ⟨d, by rw [e]⟩
        have := List.suffix_of_suffix_length_le sc sb (by simp; omega)
        have hm : c ∈ b := this.subset (by simp)
        rcases hc with rfl | rfl
        · exact absurd hm b1
        · exact absurd hm b2
      · exact hs.eq_of_length (by omega)
  rcases Nat.le_total r.length (getBaseName name).length with hl | hl
  · exact key _ _ h h1 hl
  · exact (key _ _ h1 h hl).symm

/-! ## What the declarations leave in the object -/

/-- What the object knows of the declarations `rs`. -/
structure Texts {α : Type} (rs : List (AReg α)) (a : AOpt α) : Prop where
  infos : a.o.infoVec.map (fun i => (i.opt, i.mode, i.isMust)) = (odecls rs).map (fun d => (d.name, d.mode, d.must))
  params : a.o.paramVec.map (·.opt) = (pdecls rs).map (·.name)
  optV : a.optV = (odecls rs).map (fun d => (d.addr, d.help))
  paramV : a.paramV = (pdecls rs).map (fun d => (d.addr, d.help))
  restV : a.restV = ((rdecl rs).map (fun d => (d.addr, d.help))).getD (0, [])
  rest : a.o.remains.map (·.opt) = (rdecl rs).map (·.name)
  mode : a.o.paramMode = .variable ↔ (rdecl rs).isSome = true

theorem texts_new {α : Type} : Texts ([] : List (AReg α)) AOpt.new := by
  constructor <;> simp [AOpt.new, Option.new, odecls, pdecls, rdecl]

theorem odecls_snoc {α : Type} (rs : List (AReg α)) (r : AReg α) : odecls (rs ++ [r]) = odecls rs ++ odecls [r] := by
  simp [odecls]

theorem pdecls_snoc {α : Type} (rs : List (AReg α)) (r : AReg α) : pdecls (rs ++ [r]) = pdecls rs ++ pdecls [r] := by
  simp [pdecls]

theorem rdecl_snoc {α : Type} (rs : List (AReg α)) (r : AReg α) : rdecl (rs ++ [r]) = (rdecl [r]).or (rdecl rs) := by
  simp only [rdecl, List.filterMap_append, List.getLast?_append]

theorem reg_texts {α : Type} {rs : List (AReg α)} {a a' : AOpt α} {r : AReg α} (t : Texts rs a) (h : a.reg r = .ok a') :
    Texts (rs ++ [r]) a' ∧ a.o.reg r.reg = .ok a'.o := by
  rw [AOpt.reg] at h
  cases ho : a.o.reg r.reg with
  | throw => rw [ho] at h; simp at h
  | ub => rw [ho] at h; simp at h
  | ok o =>
    rw [ho] at h
    simp only [Res.ok_bind] at h
    obtain ⟨reg, addr, help⟩ := r
    have hrd : ∀ o' : Verif.Opt.Option α, o'.infoVec = a.o.infoVec → o'.paramVec = a.o.paramVec → o'.remains = a.o.remains →
        o'.paramMode = a.o.paramMode → odecls [AReg.mk reg addr help] = [] → pdecls [AReg.mk reg addr help] = [] →
        rdecl [AReg.mk reg addr help] = none → ∀ ht, Texts (rs ++ [AReg.mk reg addr help]) { a with o := o', help := ht } := by
      intro o' e1 e2 e3 e4 e5 e6 e7 ht
      constructor <;> simp only [odecls_snoc, pdecls_snoc, rdecl_snoc, e1, e2, e3, e4, e5, e6, e7, List.append_nil, Option.none_or]
      · exact t.infos
      · exact t.params
      · exact t.optV
      · exact t.paramV
      · exact t.restV
      · exact t.rest
      · exact t.mode
    cases reg with
    | opt st step mode isMust name =>
      simp only [Res.pure_eq, Res.ok.injEq] at h
      subst h
      simp only [Option.reg, Option.appendSub] at ho
      split at ho
      · cases ho
      · split at ho
        · cases ho
        · injection ho with ho
          subst ho
          refine ⟨?_, by simp only [Option.reg, Option.appendSub]⟩
          have e1 : odecls [AReg.mk (.opt st step mode isMust name) addr help] = [⟨name, mode, isMust, addr, help⟩] := rfl
          have e2 : pdecls [AReg.mk (.opt st step mode isMust name) addr help] = [] := rfl
          have e3 : rdecl [AReg.mk (.opt st step mode isMust name) addr help] = none := rfl
          constructor <;> simp only [odecls_snoc, pdecls_snoc, rdecl_snoc, e1, e2, e3, List.append_nil, Option.none_or, List.map_append,
            t.infos, t.optV, List.map_cons, List.map_nil]
          · exact t.params
          · exact t.paramV
          · exact t.restV
          · exact t.rest
          · exact t.mode
    | param st step name =>
      simp only [Res.pure_eq, Res.ok.injEq] at h
      subst h
      simp only [Option.reg, Option.appendParam] at ho
      split at ho
      · cases ho
      · injection ho with ho
        subst ho
        refine ⟨?_, by simp only [Option.reg, Option.appendParam]⟩
        have e1 : odecls [AReg.mk (.param st step name) addr help] = [] := rfl
        have e2 : pdecls [AReg.mk (.param st step name) addr help] = [⟨name, addr, help⟩] := rfl
        have e3 : rdecl [AReg.mk (.param st step name) addr help] = none := rfl
        constructor <;> simp only [odecls_snoc, pdecls_snoc, rdecl_snoc, e1, e2, e3, List.append_nil, Option.none_or, List.map_append,
          t.params, t.paramV, List.map_cons, List.map_nil]
        · exact t.infos
        · exact t.optV
        · exact t.restV
        · exact t.rest
        · exact t.mode
    | paramOpt st step name =>
      simp only [Res.pure_eq, Res.ok.injEq] at h
      subst h
      simp only [Option.reg, Option.appendParamOpt] at ho
      split at ho
      · cases ho
      · rename_i hx
        injection ho with ho
        subst ho
        refine ⟨?_, by simp only [Option.reg, Option.appendParamOpt]⟩
        have e1 : odecls [AReg.mk (.paramOpt st step name) addr help] = [] := rfl
        have e2 : pdecls [AReg.mk (.paramOpt st step name) addr help] = [⟨name, addr, help⟩] := rfl
        have e3 : rdecl [AReg.mk (.paramOpt st step name) addr help] = none := rfl
        have hm : a.o.paramMode = .exact := Classical.not_not.mp hx
        have hn : (rdecl rs).isSome ≠ true := fun hc => by
          have := t.mode.2 hc
          rw [hm] at this; cases this
        constructor <;> simp only [odecls_snoc, pdecls_snoc, rdecl_snoc, e1, e2, e3, List.append_nil, Option.none_or, List.map_append,
          t.params, t.paramV, List.map_cons, List.map_nil]
        · exact t.infos
        · exact t.optV
        · exact t.restV
        · exact t.rest
        · simp [hn]
    | paramVec st step name =>
      simp only [Res.pure_eq, Res.ok.injEq] at h
      subst h
      simp only [Option.reg, Option.appendParamVec] at ho
      split at ho
      · cases ho
      · injection ho with ho
        subst ho
        refine ⟨?_, by simp only [Option.reg, Option.appendParamVec]⟩
        have e1 : odecls [AReg.mk (.paramVec st step name) addr help] = [] := rfl
        have e2 : pdecls [AReg.mk (.paramVec st step name) addr help] = [] := rfl
        have e3 : rdecl [AReg.mk (.paramVec st step name) addr help] = some ⟨name, addr, help⟩ := rfl
        constructor <;> simp only [odecls_snoc, pdecls_snoc, rdecl_snoc, e1, e2, e3, List.append_nil, Option.some_or, Option.map_some,
          Option.getD_some, Option.isSome_some]
        · exact t.infos
        · exact t.params
        · exact t.optV
        · exact t.paramV
    | help name =>
      simp only [Res.pure_eq, Res.ok.injEq] at h
      subst h
      simp only [Option.reg, Option.appendHelp, Res.ok.injEq] at ho
      subst ho
      exact ⟨hrd (a.o.appendHelp name) rfl rfl rfl rfl rfl rfl rfl help, rfl⟩
    | setDelimiter d remain =>
      simp only [Res.pure_eq, Res.ok.injEq] at h
      subst h
      simp only [Option.reg, Option.setDelimiter, Res.ok.injEq] at ho
      subst ho
      exact ⟨hrd (a.o.setDelimiter d remain) rfl rfl rfl rfl rfl rfl rfl a.help, rfl⟩
    | appendDelimiter d =>
      simp only [Res.pure_eq, Res.ok.injEq] at h
      subst h
      simp only [Option.reg, Option.appendDelimiter, Res.ok.injEq] at ho
      subst ho
      exact ⟨hrd (a.o.appendDelimiter d) rfl rfl rfl rfl rfl rfl rfl a.help, rfl⟩
    | clearDelimiterList =>
      simp only [Res.pure_eq, Res.ok.injEq] at h
      subst h
      simp only [Option.reg, Option.clearDelimiterList, Res.ok.injEq] at ho
      subst ho
      exact ⟨hrd (a.o.clearDelimiterList) rfl rfl rfl rfl rfl rfl rfl a.help, rfl⟩

theorem regs_texts_from {α : Type} (rs : List (AReg α)) : ∀ (pre : List (AReg α)) (a0 a : AOpt α), Texts pre a0 → a0.regs rs = .ok a →
    Texts (pre ++ rs) a ∧ a0.o.regs (rs.map (·.reg)) = .ok a.o := by
  induction rs with
  | nil =>
    intro pre a0 a t h
    simp only [AOpt.regs, Res.ok.injEq] at h
    subst h
    exact ⟨by simpa using t, rfl⟩
  | cons r rs ih =>
    intro pre a0 a t h
    rw [AOpt.regs] at h
    cases h1 : a0.reg r with
    | throw => rw [h1] at h; simp at h
    | ub => rw [h1] at h; simp at h
    | ok a1 =>
      rw [h1] at h
      obtain ⟨t1, e1⟩ := reg_texts t h1
      obtain ⟨t2, e2⟩ := ih (pre ++ [r]) a1 a t1 h
      refine ⟨by simpa using t2, ?_⟩
      rw [List.map_cons, Option.regs, e1]
      exact e2

theorem regs_texts {α : Type} {rs : List (AReg α)} {a : AOpt α} (h : AOpt.new.regs rs = .ok a) :
    Texts rs a ∧ Option.new.regs (rs.map (·.reg)) = .ok a.o := by
  exact regs_texts_from rs [] AOpt.new a texts_new h

/-! ## `parse` changes only the variables -/

/-- The parts of an object that `parse` leaves alone. -/
def fixedParts {α : Type} (o : Verif.Opt.Option α) :=
  (o.infoVec.map (fun i => (i.opt, i.mode, i.isMust)), o.paramVec.map (·.opt), o.remains.map (·.opt), o.paramMode, o.helpOpt)

theorem putVar_fixed {α : Type} (o : Verif.Opt.Option α) (i : Nat) (info : Info α) (v : Var α) (h : at? o.infoVec i = .ok info) :
    fixedParts (o.putVar i info v) = fixedParts o := by
  have h : o.infoVec[i]? = some info := by
    unfold at? at h
    split at h <;> simp_all
  simp only [fixedParts, Option.putVar, Prod.mk.injEq, and_true]
  rw [List.map_set]
  apply List.ext_getElem?
  intro j
  rw [List.getElem?_set]
  split
  · rename_i e
    subst e
    rw [List.getElem?_map, h]
    obtain ⟨hl, -⟩ := List.getElem?_eq_some_iff.1 h
    simp [hl]
  · rfl

theorem paramLoop_fixed {α : Type} (x : List UInt8) (ps : List (Info α)) : ∀ b ps', paramLoop x ps = some (b, ps') →
    ps'.map (·.opt) = ps.map (·.opt) := by
  induction ps with
  | nil => intro b ps' h; simp [paramLoop] at h
  | cons p ps ih =>
    intro b ps' h
    rw [paramLoop] at h
    split at h
    · simp only [Option.some.injEq, Prod.mk.injEq] at h
      rw [← h.2]; rfl
    · cases hq : paramLoop x ps with
      | none => rw [hq] at h; simp at h
      | some q =>
        rw [hq] at h
        simp only [Option.map_some, Option.some.injEq, Prod.mk.injEq] at h
        rw [← h.2, List.map_cons, List.map_cons, ih q.1 q.2 hq]

theorem takeParam_fixed {α : Type} (o : Verif.Opt.Option α) (x : List UInt8) (b : Bool) (o' : Verif.Opt.Option α) (h : takeParam o x = .ok (b, o')) :
    fixedParts o' = fixedParts o := by
  rw [takeParam] at h
  cases hp : paramLoop x o.paramVec with
  | some q =>
    rw [hp] at h
    simp only [Res.ok.injEq, Prod.mk.injEq] at h
    rw [← h.2, fixedParts, fixedParts]
    simp only [paramLoop_fixed x _ q.1 q.2 hp]
  | none =>
    rw [hp] at h
    simp only at h
    split at h
    · cases hr : o.remains with
      | none => rw [hr] at h; cases h
      | some r =>
        rw [hr] at h
        simp only [Res.ok.injEq, Prod.mk.injEq] at h
        rw [← h.2, fixedParts, fixedParts, hr]
        rfl
    · simp only [Res.ok.injEq, Prod.mk.injEq] at h
      rw [h.2]

theorem argLoop_fixed {α : Type} (fuel : Nat) : ∀ (o : Verif.Opt.Option α) (pos : Nat) (args : List (List UInt8)) (e : End) (o' : Verif.Opt.Option α),
    argLoop fuel o pos args = .ok (e, o') → fixedParts o' = fixedParts o := by
  induction fuel with
  | zero => intro o pos args e o' h; simp [argLoop] at h
  | succ n ih =>
    intro o pos args e o' h
    cases args with
    | nil =>
      simp only [argLoop, Res.ok.injEq, Prod.mk.injEq] at h
      rw [h.2]
    | cons a rest =>
      rw [argLoop] at h
      split at h
      · simp only [Res.ok.injEq, Prod.mk.injEq] at h
        rw [← h.2]; rfl
      · split at h
        · simp only at h
          split at h
          · simp only [Res.ok.injEq, Prod.mk.injEq] at h
            rw [h.2]
          · split at h
            · simp only [Res.ok.injEq, Prod.mk.injEq] at h
              rw [h.2]
            · rename_i i hi
              cases hinfo : at? o.infoVec i with
              | throw => rw [hinfo] at h; simp at h
              | ub => rw [hinfo] at h; simp at h
              | ok info =>
                have pf := fun v => putVar_fixed o i info v hinfo
                rw [hinfo] at h
                simp only [Res.ok_bind] at h
                split at h
                · split at h
                  · rw [ih _ _ _ _ _ h, pf]
                  · simp only [Res.ok.injEq, Prod.mk.injEq] at h
                    rw [← h.2, pf]
                · split at h
                  · simp only [Res.ok.injEq, Prod.mk.injEq] at h
                    rw [h.2]
                  · split at h
                    · rw [ih _ _ _ _ _ h, pf]
                    · simp only [Res.ok.injEq, Prod.mk.injEq] at h
                      rw [← h.2, pf]
                · split at h
                  · simp only [Res.ok.injEq, Prod.mk.injEq] at h
                    rw [← h.2, pf]
                  · split at h
                    · rw [ih _ _ _ _ _ h, pf]
                    · simp only [Res.ok.injEq, Prod.mk.injEq] at h
                      rw [← h.2, pf]
        · cases ht : takeParam o a with
          | throw => rw [ht] at h; simp at h
          | ub => rw [ht] at h; simp at h
          | ok q =>
            obtain ⟨b, o1⟩ := q
            have tf := takeParam_fixed o a b o1 ht
            rw [ht] at h
            simp only [Res.ok_bind] at h
            split at h
            · rw [ih _ _ _ _ _ h, tf]
            · simp only [Res.ok.injEq, Prod.mk.injEq] at h
              rw [← h.2, tf]

theorem parse_fixed {α : Type} (o : Verif.Opt.Option α) (argv : List (List UInt8)) (b : _root_.Option Bool) (o' : Verif.Opt.Option α)
    (h : o.parse argv = .ok (b, o')) : fixedParts o' = fixedParts o := by
  rw [Option.parse] at h
  split at h
  · simp only [Res.ok.injEq, Prod.mk.injEq] at h
    rw [h.2]
  · split at h
    · cases h
    · cases ha : argLoop (argv.length + 1) { o with nextDelimiter := argv.length } 1 (argv.drop 1) with
      | throw => rw [ha] at h; simp at h
      | ub => rw [ha] at h; simp at h
      | ok q =>
        obtain ⟨e, o1⟩ := q
        have af := argLoop_fixed _ _ _ _ _ _ ha
        rw [ha] at h
        simp only [Res.ok_bind] at h
        have : o' = o1 := by
          cases e <;> simp at h <;> exact h.2.symm
        rw [this, af]; rfl

/-- `parse` keeps the declarations. -/
theorem parse_texts {α : Type} {rs : List (AReg α)} {a a' : AOpt α} {argv : List (List UInt8)} {b : _root_.Option Bool} (t : Texts rs a)
    (h : a.parse argv = .ok (b, a')) : Texts rs a' ∧ a.o.parse argv = .ok (b, a'.o) ∧ a'.usage = a.usage ∧ a'.desc = a.desc ∧
      a'.showOptUsage = a.showOptUsage ∧ (1 ≤ argv.length → a'.progName = getBaseName (argv.headD [])) := by
  rw [AOpt.parse] at h
  cases hp : a.o.parse argv with
  | throw => rw [hp] at h; simp at h
  | ub => rw [hp] at h; simp at h
  | ok q =>
    obtain ⟨b', o'⟩ := q
    rw [hp] at h
    simp only [Res.ok_bind, Res.pure_eq, Res.ok.injEq, Prod.mk.injEq] at h
    obtain ⟨rfl, rfl⟩ := h
    have pf := parse_fixed a.o argv _ o' hp
    simp only [fixedParts, Prod.mk.injEq] at pf
    obtain ⟨f1, f2, f3, f4, -⟩ := pf
    exact ⟨⟨f1.trans t.infos, f2.trans t.params, t.optV, t.paramV, t.restV, f3.trans t.rest, by rw [f4]; exact t.mode⟩, rfl, rfl, rfl, rfl,
      fun hl => if_neg (by omega)⟩

/-! ## `isSet` -/

theorem findVar_some {α : Type} (p : Nat) (vs : List (Nat × List UInt8)) : ∀ (infos : List (Info α)) (i : Nat) (h : List UInt8) (info : Info α),
    (vs.map Prod.fst).Nodup → vs[i]? = some (p, h) → infos[i]? = some info → findVar p infos vs = some info.var.isSet := by
  induction vs with
  | nil => intro infos i h info _ hv; simp at hv
  | cons v vs ih =>
    intro infos i h info hn hv hi
    cases infos with
    | nil => simp at hi
    | cons x infos =>
      rw [findVar]
      cases i with
      | zero =>
        simp only [List.getElem?_cons_zero, Option.some.injEq] at hv hi
        rw [if_pos (by rw [hv]), hi]
      | succ i =>
        simp only [List.getElem?_cons_succ] at hv hi
        rw [List.map_cons, List.nodup_cons] at hn
        rw [if_neg, ih infos i h info hn.2 hv hi]
        intro e
        apply hn.1
        rw [e]
        exact List.mem_map.2 ⟨_, List.mem_of_getElem? hv, rfl⟩

theorem findVar_none {α : Type} (p : Nat) (vs : List (Nat × List UInt8)) : ∀ (infos : List (Info α)), p ∉ vs.map Prod.fst →
    findVar p infos vs = none := by
  induction vs with
  | nil => intro infos _; cases infos <;> rfl
  | cons v vs ih =>
    intro infos h
    cases infos with
    | nil => rfl
    | cons x infos =>
      rw [List.map_cons, List.mem_cons, not_or] at h
      rw [findVar, if_neg (fun e => h.1 e.symm), ih infos h.2]

theorem odecls_opts {α : Type} (rs : List (AReg α)) : (optsOf (rs.map (·.reg))).map (·.name) = (odecls rs).map (·.name) := by
  induction rs with
  | nil => rfl
  | cons r rs ih =>
    obtain ⟨reg, addr, help⟩ := r
    cases reg <;> simpa [optsOf, odecls] using ih

theorem pdecls_params {α : Type} (rs : List (AReg α)) : (paramsOf (rs.map (·.reg))).length = (pdecls rs).length := by
  induction rs with
  | nil => rfl
  | cons r rs ih =>
    obtain ⟨reg, addr, help⟩ := r
    cases reg <;> simpa [paramsOf, pdecls] using ih

/-- C99: after a successful `parse`, `isSet(&x)` tells for every variable declared whether the command line gives it a value: for the
variable of an option whether the option occurs, for that of parameter number `i` whether there are more than `i` positional values, for the
vector whether values are left over; for any other address it throws. -/
theorem C99_isSet {α : Type} (rs : List (AReg α)) (a a' : AOpt α) (ha : AOpt.new.regs rs = .ok a) (hs : Separate rs)
    (argv : List (List UInt8)) (h1 : 1 ≤ argv.length) (hp : a.parse argv = .ok (some true, a')) (items : List Item)
    (r : _root_.Option (List (List UInt8))) (hr : Reads (rs.map (·.reg)) (argv.drop 1) items r) :
    (∀ d ∈ odecls rs, a'.isSet d.addr = .ok !(valuesOf d.name items).isEmpty) ∧
    (∀ (i : Nat) (d : PDecl), (pdecls rs)[i]? = some d → a'.isSet d.addr = .ok (decide (i < (positionals items).length))) ∧
    (∀ d, rdecl rs = some d → a'.isSet d.addr = .ok (decide ((pdecls rs).length < (positionals items).length))) ∧
    (∀ p, p ≠ 0 → (∀ d ∈ odecls rs, d.addr ≠ p) → (∀ d ∈ pdecls rs, d.addr ≠ p) → (∀ d, rdecl rs = some d → d.addr ≠ p) →
      a'.isSet p = .throw) := by
  obtain ⟨t, ho⟩ := regs_texts ha
  obtain ⟨t', hp', -⟩ := parse_texts t hp
  obtain ⟨b, o', q1, -, q3, -⟩ := C36_parse (rs.map (·.reg)) a.o ho argv 1 false h1 h1 (fun _ => Nat.le_refl 1)
  rw [hp'] at q1
  simp only [Res.ok.injEq, Prod.mk.injEq] at q1
  obtain ⟨rfl, rfl⟩ := q1
  have st := (q3 rfl items r hr).1
  obtain ⟨hn, h0⟩ := hs
  have fp : a'.paramV.map Prod.fst = (pdecls rs).map (·.addr) := by rw [t'.paramV]; simp
  have fo : a'.optV.map Prod.fst = (odecls rs).map (·.addr) := by rw [t'.optV]; simp
  have hnp : (a'.paramV.map Prod.fst).Nodup := by
    rw [fp]; exact (List.nodup_append.1 (List.nodup_append.1 hn).1).1
  have hno : (a'.optV.map Prod.fst).Nodup := by rw [fo]; exact (List.nodup_append.1 hn).2.1
  have rv : a'.restV.1 = ((rdecl rs).map (·.addr)).getD 0 := by rw [t'.restV]; cases rdecl rs <;> rfl
  refine ⟨fun d hd => ?_, fun i d hd => ?_, fun d hd => ?_, fun p p0 po pp pr => ?_⟩
  · obtain ⟨i, hi⟩ := List.getElem?_of_mem hd
    have hname : ((optsOf (rs.map (·.reg))).map (·.name))[i]? = some d.name := by rw [odecls_opts, List.getElem?_map, hi]; rfl
    rw [List.getElem?_map, Option.map_eq_some_iff] at hname
    obtain ⟨od, hod, hdn⟩ := hname
    obtain ⟨info, hinfo, -, hset⟩ := st.opts i od hod
    have n1 : d.addr ∉ a'.paramV.map Prod.fst := by
      rw [fp]
      intro hm
      exact (List.nodup_append.1 hn).2.2 _ (List.mem_append_left _ hm) _ (List.mem_map.2 ⟨d, hd, rfl⟩) rfl
    have n2 : a'.restV.1 ≠ d.addr := by
      rw [rv]
      cases hrd : rdecl rs with
      | none =>
        intro e
        exact h0 (List.mem_append_right _ (List.mem_map.2 ⟨d, hd, e.symm⟩))
      | some rd =>
        intro e
        exact (List.nodup_append.1 hn).2.2 d.addr (List.mem_append_right _ (by rw [hrd]; simpa using e.symm)) _
          (List.mem_map.2 ⟨d, hd, rfl⟩) rfl
    have hov : a'.optV[i]? = some (d.addr, d.help) := by rw [t'.optV, List.getElem?_map, hi]; rfl
    rw [AOpt.isSet, findVar_none _ _ _ n1]
    simp only
    rw [if_neg n2, findVar_some d.addr a'.optV a'.o.infoVec i d.help info hno hov hinfo]
    simp only [Res.ok.injEq]
    rw [hdn] at hset
    cases hb : info.var.isSet with
    | true =>
      have := hset.1 hb
      cases hvv : valuesOf d.name items with
      | nil => exact absurd hvv this
      | cons => rfl
    | false =>
      cases hvv : valuesOf d.name items with
      | nil => rfl
      | cons => rw [hset.2 (by rw [hvv]; simp)] at hb; cases hb
  · have hlt : i < (paramsOf (rs.map (·.reg))).length := by
      rw [pdecls_params]; exact (List.getElem?_eq_some_iff.1 hd).1
    obtain ⟨info, hinfo, -, hset⟩ := st.params i _ (List.getElem?_eq_getElem hlt)
    have hpv : a'.paramV[i]? = some (d.addr, d.help) := by rw [t'.paramV, List.getElem?_map, hd]; rfl
    rw [AOpt.isSet, findVar_some d.addr a'.paramV a'.o.paramVec i d.help info hnp hpv hinfo]
    simp only [Res.ok.injEq]
    cases hb : info.var.isSet with
    | true => simp [hset.1 hb]
    | false =>
      by_cases hc : i < (positionals items).length
      · rw [hset.2 hc] at hb; cases hb
      · simp [hc]
  · have n1 : d.addr ∉ a'.paramV.map Prod.fst := by
      rw [fp]
      intro hm
      exact (List.nodup_append.1 (List.nodup_append.1 hn).1).2.2 _ hm d.addr (by rw [hd]; simp) rfl
    have e2 : a'.restV.1 = d.addr := by rw [rv, hd]; rfl
    rw [AOpt.isSet, findVar_none _ _ _ n1]
    simp only
    rw [if_pos e2]
    cases hro : restOf (rs.map (·.reg)) with
    | none =>
      have := st.noRest hro
      have h2 := t'.rest
      rw [this, hd] at h2
      simp at h2
    | some rd =>
      obtain ⟨info, hi, -, hset⟩ := st.rest rd hro
      rw [hi]
      simp only [Res.ok.injEq]
      rw [pdecls_params] at hset
      cases hb : info.var.isSet with
      | true => simp [hset.1 hb]
      | false =>
        by_cases hc : (pdecls rs).length < (positionals items).length
        · rw [hset.2 hc] at hb; cases hb
        · simp [hc]
  · have n1 : p ∉ a'.paramV.map Prod.fst := by
      rw [fp, List.mem_map]
      rintro ⟨d, hd, e⟩
      exact pp d hd e
    have n3 : p ∉ a'.optV.map Prod.fst := by
      rw [fo, List.mem_map]
      rintro ⟨d, hd, e⟩
      exact po d hd e
    have n2 : a'.restV.1 ≠ p := by
      rw [rv]
      cases hrd : rdecl rs with
      | none => exact fun e => p0 e.symm
      | some rd => exact pr rd hrd
    rw [AOpt.isSet, findVar_none _ _ _ n1]
    simp only
    rw [if_neg n2, findVar_none _ _ _ n3]

/-! ## `usage` and `operator<<` -/

theorem infix_flatMap {α β : Type} {f : α → List β} {l : List α} {x : α} (h : x ∈ l) : f x <:+: l.flatMap f := by
  obtain ⟨p, q, rfl⟩ := List.append_of_mem h
  exact ⟨p.flatMap f, q.flatMap f, by simp⟩

theorem infix_eq {β : Type} {a b : List β} (h : a = b) : a <:+: b := h ▸ List.infix_refl _
theorem infix_right {β : Type} {a b c : List β} (h : a <:+: c) : a <:+: b ++ c := h.trans (List.suffix_append b c).isInfix
theorem infix_left {β : Type} {a b c : List β} (h : a <:+: b) : a <:+: b ++ c := h.trans (List.prefix_append b c).isInfix

/-- An option's `Info` and its address and help text. -/
theorem info_at {α : Type} {rs : List (AReg α)} {a : AOpt α} (t : Texts rs a) {d : ODecl} (hd : d ∈ odecls rs) :
    ∃ (i : Nat) (info : Info α), a.o.infoVec[i]? = some info ∧ a.optV[i]? = some (d.addr, d.help) ∧ info.opt = d.name ∧ info.mode = d.mode ∧ info.isMust = d.must := by
  obtain ⟨i, hi⟩ := List.getElem?_of_mem hd
  have h1 : (a.o.infoVec.map (fun i => (i.opt, i.mode, i.isMust)))[i]? = some (d.name, d.mode, d.must) := by
    rw [t.infos, List.getElem?_map, hi]; rfl
  rw [List.getElem?_map, Option.map_eq_some_iff] at h1
  obtain ⟨info, h2, h3⟩ := h1
  simp only [Prod.mk.injEq] at h3
  exact ⟨i, info, h2, by rw [t.optV, List.getElem?_map, hi]; rfl, h3.1, h3.2.1, h3.2.2⟩

theorem param_at {α : Type} {rs : List (AReg α)} {a : AOpt α} (t : Texts rs a) {d : PDecl} (hd : d ∈ pdecls rs) :
    ∃ (i : Nat) (info : Info α), a.o.paramVec[i]? = some info ∧ a.paramV[i]? = some (d.addr, d.help) ∧ info.opt = d.name := by
  obtain ⟨i, hi⟩ := List.getElem?_of_mem hd
  have h1 : (a.o.paramVec.map (·.opt))[i]? = some d.name := by
    rw [t.params, List.getElem?_map, hi]; rfl
  rw [List.getElem?_map, Option.map_eq_some_iff] at h1
  obtain ⟨info, h2, h3⟩ := h1
  exact ⟨i, info, h2, by rw [t.paramV, List.getElem?_map, hi]; rfl, h3⟩

theorem mem_zip_at {α β : Type} {l : List α} {m : List β} {i : Nat} {x : α} {y : β} (h1 : l[i]? = some x) (h2 : m[i]? = some y) :
    (x, y) ∈ l.zip m := by
  apply List.mem_of_getElem? (i := i)
  rw [List.getElem?_zip_eq_some]
  exact ⟨h1, h2⟩

/-- C99: whatever `parse` answered, the usage message names the program and has, for every option declared, its line with its help text,
marked exactly if the option is required; required options, all parameters and the list parameter are in the command line shown; every
parameter with a help text has its line. -/
theorem C99_usage {α : Type} (rs : List (AReg α)) (a a' : AOpt α) (ha : AOpt.new.regs rs = .ok a) (argv : List (List UInt8))
    (h1 : 1 ≤ argv.length) (b : _root_.Option Bool) (hp : a.parse argv = .ok (b, a')) (hu : a.usage = []) (hd : a.desc = []) :
    (∃ rest, a'.usageText = txt "usage:" ++ getBaseName (argv.headD []) ++ rest) ∧
    (∀ d ∈ odecls rs, txt "  -" ++ d.name ++ txt " " ++ d.help ++ (if d.must then txt " (must)" else []) ++ txt "\n" <:+: a'.usageText) ∧
    (∀ d ∈ odecls rs, d.must = true → txt " -" ++ d.name ++ txt " " <:+: a'.synopsis) ∧
    (∀ d ∈ pdecls rs, txt " " ++ d.name <:+: a'.synopsis) ∧
    (∀ d, rdecl rs = some d → txt " " ++ d.name <:+: a'.synopsis) ∧
    (∀ d ∈ pdecls rs, d.help ≠ [] → txt "  " ++ d.name ++ txt " " ++ d.help ++ txt "\n" <:+: a'.usageText) ∧
    (∀ d, rdecl rs = some d → d.help ≠ [] → txt "  " ++ d.name ++ txt " " ++ d.help ++ txt "\n" <:+: a'.usageText) ∧
    a'.synopsis <+: a'.usageText := by
  obtain ⟨t, -⟩ := regs_texts ha
  obtain ⟨t', -, e1, e2, -, e4⟩ := parse_texts t hp
  have eu : a'.usageText = a'.synopsis ++ a'.details := by
    rw [AOpt.usageText, e1, e2, hu, hd]; rfl
  refine ⟨?_, fun d hd => ?_, fun d hd hm => ?_, fun d hd => ?_, fun d hd => ?_, fun d hd hh => ?_, fun d hd hh => ?_, ?_⟩
  · rw [eu, AOpt.synopsis, e4 h1]
    exact ⟨_, by simp only [List.append_assoc]; rfl⟩
  · obtain ⟨i, info, i1, i2, i3, i4, i5⟩ := info_at t' hd
    rw [eu, AOpt.details]
    refine infix_right (infix_right ?_)
    have := infix_flatMap (f := fun x : Info α × (Nat × List UInt8) => x.1.usage x.2.2) (mem_zip_at i1 i2)
    simpa only [Info.usage, i3, i5] using this
  · obtain ⟨i, info, i1, i2, i3, i4, i5⟩ := info_at t' hd
    rw [AOpt.synopsis]
    refine infix_left (infix_left (infix_left (infix_right ?_)))
    have := infix_flatMap (f := fun i : Info α => if i.isMust then i.shortUsage else []) (List.mem_of_getElem? i1)
    refine List.IsInfix.trans ?_ this
    rw [i5, hm, if_pos rfl, Info.shortUsage, i3]
    exact (List.prefix_append _ _).isInfix
  · obtain ⟨i, info, i1, i2, i3⟩ := param_at t' hd
    rw [AOpt.synopsis]
    refine infix_left (infix_left (infix_right ?_))
    have := infix_flatMap (f := fun i : Info α => txt " " ++ i.opt) (List.mem_of_getElem? i1)
    simpa only [i3] using this
  · have hm : a'.o.paramMode = .variable := t'.mode.2 (by rw [hd]; rfl)
    have hr := t'.rest
    rw [hd, Option.map_some, Option.map_eq_some_iff] at hr
    obtain ⟨info, r1, r2⟩ := hr
    rw [AOpt.synopsis]
    refine infix_left (infix_right ?_)
    rw [if_pos hm, r1]
    simp only [r2]
    exact List.infix_refl _
  · obtain ⟨i, info, i1, i2, i3⟩ := param_at t' hd
    rw [eu, AOpt.details]
    refine infix_right (infix_left (infix_left (infix_left ?_)))
    have := infix_flatMap (f := fun x : Info α × (Nat × List UInt8) => if x.2.2.isEmpty then [] else txt "  " ++ x.1.opt ++ txt " " ++ x.2.2 ++ txt "\n")
      (mem_zip_at i1 i2)
    have he : d.help.isEmpty = false := by cases hq : d.help <;> simp_all
    simpa only [he, i3, Bool.false_eq_true, if_false] using this
  · have hr := t'.rest
    rw [hd, Option.map_some, Option.map_eq_some_iff] at hr
    obtain ⟨info, r1, r2⟩ := hr
    have hv : a'.restV.2 = d.help := by rw [t'.restV, hd]; rfl
    have he : d.help.isEmpty = false := by cases hq : d.help <;> simp_all
    rw [eu, AOpt.details]
    refine infix_right (infix_left (infix_left (infix_right ?_)))
    rw [hv, he, r1]
    simp only [r2, Bool.false_eq_true, if_false]
    exact List.infix_refl _
  · rw [eu]; exact List.prefix_append _ _

/-- C99: a usage text of the user's own replaces the first line, and without `showOptUsage` everything. -/
theorem C99_own_usage {α : Type} (a : AOpt α) (u : List UInt8) (hu : u ≠ []) (d : List UInt8) :
    ((a.setDescription d).setUsage u false).usageText = (if d = [] then [] else d ++ txt "\n") ++ u ++ txt "\n" ∧
    ((a.setDescription d).setUsage u true).usageText = ((a.setDescription d).setUsage u false).usageText ++ a.details := by
  have h1 : u.isEmpty = false := by cases u <;> simp_all
  have h2 : (if d.isEmpty = true then [] else d ++ txt "\n") = (if d = [] then [] else d ++ txt "\n") := by cases d <;> simp
  constructor
  · simp only [AOpt.usageText, AOpt.setUsage, AOpt.setDescription, h1, h2, Bool.false_eq_true, if_false]
    simp
  · simp only [AOpt.usageText, AOpt.setUsage, AOpt.setDescription, h1, h2, Bool.false_eq_true, if_false]
    simp [AOpt.details]

/-- C99: after a successful `parse` the dump has a line for every option with the value it got from the command line, or its default, and
says which. -/
theorem C99_dump {α : Type} (rs : List (AReg α)) (a a' : AOpt α) (ha : AOpt.new.regs rs = .ok a)
    (argv : List (List UInt8)) (h1 : 1 ≤ argv.length) (hp : a.parse argv = .ok (some true, a')) (items : List Item)
    (r : _root_.Option (List (List UInt8))) (hr : Reads (rs.map (·.reg)) (argv.drop 1) items r) (shown : α → List UInt8)
    (d : OptDecl α) (hd : d ∈ optsOf (rs.map (·.reg))) (st : α) (hst : feed d.step d.st (valuesOf d.name items) = some st) :
    d.name ++ txt "=" ++ shown st ++ (if (valuesOf d.name items).isEmpty then txt " (default)" else txt " (set)") ++ txt "\n" <:+:
      a'.dump shown := by
  obtain ⟨t, ho⟩ := regs_texts ha
  obtain ⟨t', hp', -⟩ := parse_texts t hp
  obtain ⟨b, o', q1, -, q3, -⟩ := C36_parse (rs.map (·.reg)) a.o ho argv 1 false h1 h1 (fun _ => Nat.le_refl 1)
  rw [hp'] at q1
  simp only [Res.ok.injEq, Prod.mk.injEq] at q1
  obtain ⟨rfl, rfl⟩ := q1
  have sd := (q3 rfl items r hr).1
  obtain ⟨i, hi⟩ := List.getElem?_of_mem hd
  obtain ⟨info, hinfo, hfeed, hset⟩ := sd.opts i d hi
  rw [hst, Option.some.injEq] at hfeed
  have hname : info.opt = d.name := by
    have e1 : ((optsOf (rs.map (·.reg))).map (·.name))[i]? = some d.name := by rw [List.getElem?_map, hi]; rfl
    rw [odecls_opts, List.getElem?_map, Option.map_eq_some_iff] at e1
    obtain ⟨od, o1, o2⟩ := e1
    have e2 : (a'.o.infoVec.map (fun i => (i.opt, i.mode, i.isMust)))[i]? = some (od.name, od.mode, od.must) := by
      rw [t'.infos, List.getElem?_map, o1]; rfl
    rw [List.getElem?_map, hinfo] at e2
    simp only [Option.map_some, Option.some.injEq, Prod.mk.injEq] at e2
    rw [e2.1, o2]
  rw [AOpt.dump]
  refine infix_right ?_
  have := infix_flatMap (f := fun i : Info α => i.dump shown ++ txt "\n") (List.mem_of_getElem? hinfo)
  refine List.IsInfix.trans (infix_eq ?_) this
  rw [Info.dump, hname, hfeed]
  congr 2
  cases hvv : valuesOf d.name items with
  | nil =>
    have : info.var.isSet = false := by
      cases hb : info.var.isSet with
      | false => rfl
      | true => exact absurd hvv (hset.1 hb)
    simp [this]
  | cons x l => simp [hset.2 (by rw [hvv]; simp)]

/-! ## Findings -/

/-- C99 finding: `isSet(NULL)` answers `false` instead of throwing, as long as there is no list parameter. -/
theorem C99_finding_null {α : Type} (rs : List (AReg α)) (a : AOpt α) (ha : AOpt.new.regs rs = .ok a) (hs : Separate rs)
    (hr : rdecl rs = none) : a.isSet 0 = .ok false := by
  obtain ⟨t, -⟩ := regs_texts ha
  have n1 : 0 ∉ a.paramV.map Prod.fst := by
    rw [t.paramV, List.map_map]
    exact fun h => hs.2 (List.mem_append_left _ (List.mem_append_left _ h))
  have hrem : a.o.remains = none := by
    have := t.rest
    rw [hr] at this
    simpa using this
  rw [AOpt.isSet, findVar_none _ _ _ n1]
  simp only
  rw [if_pos (by rw [t.restV, hr]; rfl), hrem]

/-- C99 finding: an `Option` without a list parameter cannot be copied: the copy dereferences a null pointer. -/
theorem C99_finding_copy_null {α : Type} (rs : List (AReg α)) (a : AOpt α) (ha : AOpt.new.regs rs = .ok a) : a.copy = .ub ↔ rdecl rs = none := by
  obtain ⟨t, -⟩ := regs_texts ha
  have := t.rest
  rw [AOpt.copy]
  cases h : a.o.remains with
  | none =>
    rw [h] at this
    simp only [Option.map_none] at this
    simp [Option.map_eq_none_iff.1 this.symm]
  | some r =>
    rw [h] at this
    cases hq : rdecl rs with
    | none => rw [hq] at this; simp at this
    | some d => simp

theorem findVar_copy {α : Type} (p : Nat) (vs : List (Nat × List UInt8)) : ∀ (infos : List (Info α)),
    findVar p (infos.map Info.copy) vs = (findVar p infos vs).map (fun _ => false) := by
  induction vs with
  | nil => intro infos; cases infos <;> rfl
  | cons v vs ih =>
    intro infos
    cases infos with
    | nil => rfl
    | cons x infos =>
      rw [List.map_cons, findVar, findVar]
      split
      · rfl
      · exact ih infos

/-- C99 finding: a copy, made before or after `parse`, says of every variable that it is not set. -/
theorem C99_finding_copy_forgets {α : Type} (a c : AOpt α) (h : a.copy = .ok c) (p : Nat) (b : Bool) (hb : a.isSet p = .ok b) :
    c.isSet p = .ok false := by
  rw [AOpt.copy] at h
  cases hr : a.o.remains with
  | none => rw [hr] at h; cases h
  | some r =>
    rw [hr] at h
    simp only [Res.ok.injEq] at h
    subst h
    rw [AOpt.isSet] at hb ⊢
    simp only [findVar_copy]
    cases h1 : findVar p a.o.paramVec a.paramV with
    | some x => rfl
    | none =>
      rw [h1] at hb
      simp only [Option.map_none] at hb ⊢
      split
      · rfl
      · rename_i hne
        rw [if_neg hne] at hb
        cases h2 : findVar p a.o.infoVec a.optV with
        | some x => rfl
        | none => rw [h2] at hb; cases hb

/-- C99 finding: declaring an option after `parse`, when the vector is full, forgets which options were set. -/
theorem C99_finding_append_forgets {α : Type} (v : List (Info α)) (x : Info α) (i : Nat) (info : Info α) (h : v[i]? = some info) :
    ∃ info', (pushInfo v.length v x)[i]? = some info' ∧ info'.var.isSet = false ∧ info'.opt = info.opt := by
  have hlt := (List.getElem?_eq_some_iff.1 h).1
  refine ⟨info.copy, ?_, rfl, rfl⟩
  rw [pushInfo, if_pos rfl, List.getElem?_append_left (by simpa using hlt), List.getElem?_map, h]
  rfl

/-! ## A case that meets the hypotheses -/

/-- `-n` (required), `-v` with a list, a file, the rest. -/
def sample : List (AReg (List (List UInt8))) :=
  [⟨.opt [] strStep .is1 true (txt "n"), 8, txt "number"⟩, ⟨.opt [] strStep .any false (txt "v"), 16, []⟩,
   ⟨.param [] strStep (txt "file"), 24, txt "input"⟩, ⟨.paramVec [] strStep (txt "more"), 32, []⟩]

example : Separate sample := ⟨by decide, by decide⟩

/-- What is set after `prog -n 5 a.txt`, and the usage message. -/
example : (do
      let a ← AOpt.new.regs sample
      let (b, a) ← a.parse [txt "/usr/bin/prog", txt "-n", txt "5", txt "a.txt"]
      return (b, ← a.isSet 8, ← a.isSet 16, ← a.isSet 24, ← a.isSet 32, a.usageText) :
        Res (_root_.Option Bool × Bool × Bool × Bool × Bool × List UInt8)) =
    .ok (some true, true, false, true, false, txt "usage:prog [opt] -n para file more\n  file input\n  -n number (must)\n  -v \n") := by
  rfl

#print axioms C99_base_name
#print axioms C99_isSet
#print axioms C99_usage
#print axioms C99_own_usage
#print axioms C99_dump
#print axioms C99_finding_null
#print axioms C99_finding_copy_null
#print axioms C99_finding_copy_forgets
#print axioms C99_finding_append_forgets

end Verif.Props.OptionMsg
