import Verif.Proof.OptionShare
import Verif.Props.Option

/-!
# C146: options that share a variable

A declaration has the address of its variable; several may have the same.
-/
set_option linter.unusedSimpArgs false
namespace Verif.Props.OptionShare
open Verif.OptShare
open Verif.Opt (Mode Reg)
open Verif.Spec.Opt
open Verif.OptShareSpec (Slot optSlots paramSlots restSlot slotOf slotAt writes final initial Accepted)
open Verif.Props.Option (Reads)

variable {α : Type}

theorem apply_final (ws : List (Slot α × List UInt8)) (m : Mem α) (p : Nat) : apply ws m p = final p ws (m p) := by
  induction ws generalizing m with
  | nil => rfl
  | cons w ws ih =>
    have e : apply (w :: ws) m = apply ws (m.put w.1.addr (w.1.step (m w.1.addr) w.2).2) := rfl
    rw [e, ih]
    unfold final
    by_cases h : w.1.addr = p
    · subst h
      simp [Mem.put]
    · rw [List.filter_cons_of_neg (by simpa using h), Mem.put, if_neg (fun e => h e.symm)]

theorem init_initial (rs : List (PReg α)) (m : Mem α) (p : Nat) : rs.foldl initVar m p = initial p rs (m p) := by
  induction rs generalizing m with
  | nil => rfl
  | cons r rs ih =>
    rw [List.foldl_cons, ih]
    unfold initial
    rw [List.foldl_cons]
    congr 1
    obtain ⟨q, r⟩ := r
    by_cases h : q = p
    · subst h
      rw [if_pos rfl]
      cases r with
      | opt st step mode must name => cases mode <;> simp [initVar, default?, Mem.put]
      | _ => simp [initVar, default?, Mem.put]
    · rw [if_neg h]
      have h' : ¬ p = q := fun e => h e.symm
      cases r with
      | opt st step mode must name => cases mode <;> simp [initVar, default?, Mem.put, h']
      | _ => simp [initVar, default?, Mem.put, h']

/-- The erased declaration of an option. -/
def eraseOpt (a : α) (d : OptDecl α) : OptDecl Unit := ⟨d.name, d.mode, d.must, (), eraseStep a d.step⟩
def eraseParam (a : α) (d : ParamDecl α) : ParamDecl Unit := ⟨d.must, (), eraseStep a d.step⟩

theorem optsOf_erase (a : α) (rs : List (PReg α)) : optsOf (eraseAll a rs) = (optsOf (rs.map (·.reg))).map (eraseOpt a) := by
  induction rs with
  | nil => rfl
  | cons r rs ih =>
    obtain ⟨p, r⟩ := r
    cases r <;> simp_all [optsOf, eraseAll, eraseReg, eraseOpt]

theorem paramsOf_erase (a : α) (rs : List (PReg α)) : paramsOf (eraseAll a rs) = (paramsOf (rs.map (·.reg))).map (eraseParam a) := by
  induction rs with
  | nil => rfl
  | cons r rs ih =>
    obtain ⟨p, r⟩ := r
    cases r <;> simp_all [paramsOf, eraseAll, eraseReg, eraseParam]

theorem restOf_erase (a : α) (rs : List (PReg α)) : restOf (eraseAll a rs) = (restOf (rs.map (·.reg))).map (eraseParam a) := by
  induction rs with
  | nil => rfl
  | cons r rs ih =>
    obtain ⟨p, r⟩ := r
    cases r <;> simp_all [restOf, eraseAll, eraseReg, eraseParam]

theorem helpOf_erase (a : α) (rs : List (PReg α)) : helpOf (eraseAll a rs) = helpOf (rs.map (·.reg)) := by
  unfold helpOf eraseAll
  generalize ([] : List UInt8) = h
  induction rs generalizing h with
  | nil => rfl
  | cons r rs ih =>
    obtain ⟨p, r⟩ := r
    simp only [List.map_cons, List.foldl_cons]
    cases r <;> exact ih _

theorem delimsOf_erase (a : α) (rs : List (PReg α)) : delimsOf (eraseAll a rs) = delimsOf (rs.map (·.reg)) := by
  unfold delimsOf eraseAll
  generalize hh : ([] : List (List UInt8)) = h
  conv =>
    lhs
    arg 1
    rw [← hh]
  conv =>
    rhs
    arg 1
    rw [← hh]
  clear hh
  induction rs generalizing h with
  | nil => rfl
  | cons r rs ih =>
    obtain ⟨p, r⟩ := r
    simp only [List.map_cons, List.foldl_cons]
    cases r <;> exact ih _

theorem modeIn_erase (a : α) (ds : List (OptDecl α)) (n : List UInt8) : modeIn (ds.map (eraseOpt a)) n = modeIn ds n := by
  unfold modeIn
  rw [List.find?_map, Option.map_map]
  rfl

theorem reads_erase (a : α) (rs : List (PReg α)) (args : List (List UInt8)) (items : List Item) (r : _root_.Option (List (List UInt8))) :
    Reads (eraseAll a rs) args items r ↔ Reads (rs.map (·.reg)) args items r := by
  unfold Reads
  rw [helpOf_erase, delimsOf_erase, optsOf_erase]
  have : modeIn ((optsOf (rs.map (·.reg))).map (eraseOpt a)) = modeIn (optsOf (rs.map (·.reg))) := funext fun n => modeIn_erase a _ n
  rw [this]

theorem feed_erase (a : α) (step : α → List UInt8 → Bool × α) (vs : List (List UInt8)) :
    (feed (eraseStep a step) () vs).isSome = true ↔ ∀ v ∈ vs, (step a v).1 = true := by
  induction vs with
  | nil => simp [feed]
  | cons v vs ih =>
    rw [feed]
    by_cases h : (step a v).1 = true
    · rw [if_pos (show (eraseStep a step () v).1 = true from h)]
      rw [show (eraseStep a step () v).2 = () from rfl, ih]
      simp [h]
    · rw [if_neg (show ¬ (eraseStep a step () v).1 = true from h)]
      simp [h]

theorem fixed_opt {rs : List (PReg α)} (hfix : ∀ r ∈ rs, OptShareSpec.Fixed r.reg) {d : OptDecl α} (hd : d ∈ optsOf (rs.map (·.reg))) :
    OptShare.Fixed d.step := by
  obtain ⟨r, hr, he⟩ := List.mem_filterMap.mp hd
  obtain ⟨q, hq, rfl⟩ := List.mem_map.mp hr
  have := hfix q hq
  cases hr : q.reg with
  | opt st step mode must name =>
    rw [hr] at he this
    simp only [Option.some.injEq] at he
    subst he
    exact this
  | _ => rw [hr] at he; cases he

theorem fixed_param {rs : List (PReg α)} (hfix : ∀ r ∈ rs, OptShareSpec.Fixed r.reg) {d : ParamDecl α} (hd : d ∈ paramsOf (rs.map (·.reg))) :
    OptShare.Fixed d.step := by
  obtain ⟨r, hr, he⟩ := List.mem_filterMap.mp hd
  obtain ⟨q, hq, rfl⟩ := List.mem_map.mp hr
  have := hfix q hq
  cases hr : q.reg with
  | param st step name =>
    rw [hr] at he this
    simp only [Option.some.injEq] at he
    subst he
    exact this
  | paramOpt st step name =>
    rw [hr] at he this
    simp only [Option.some.injEq] at he
    subst he
    exact this
  | _ => rw [hr] at he; cases he

theorem accepts_erase (a : α) {rs : List (PReg α)} (hfix : ∀ r ∈ rs, OptShareSpec.Fixed r.reg) (items : List Item) :
    Accepts (eraseAll a rs) items ↔ Accepted (rs.map (·.reg)) items := by
  constructor
  · intro h
    refine ⟨?_, ?_, ?_⟩
    · intro d hd v hv x
      have := h.opts (eraseOpt a d) (by rw [optsOf_erase]; exact List.mem_map_of_mem hd)
      have := (feed_erase a d.step _).mp this v hv
      rw [← this]
      exact fixed_opt hfix hd _ _ _
    · intro i d v hd hv x
      have := h.params i (eraseParam a d) v (by rw [paramsOf_erase, List.getElem?_map, hd]; rfl) hv
      rw [← this]
      exact fixed_param hfix (List.mem_of_getElem? hd) _ _ _
    · intro hr
      have := h.count (by rw [restOf_erase, hr]; rfl)
      rw [paramsOf_erase, List.length_map] at this
      exact this
  · intro h
    refine ⟨?_, ?_, ?_⟩
    · intro d hd
      rw [optsOf_erase] at hd
      obtain ⟨d, hd', rfl⟩ := List.mem_map.mp hd
      exact (feed_erase a d.step _).mpr fun v hv => h.opts d hd' v hv a
    · intro i d v hd hv
      rw [paramsOf_erase, List.getElem?_map] at hd
      cases hd' : (paramsOf (rs.map (·.reg)))[i]? with
      | none => rw [hd'] at hd; cases hd
      | some d' =>
        rw [hd'] at hd
        simp only [Option.map_some, Option.some.injEq] at hd
        subst hd
        exact h.params i d' v hd' hv a
    · intro hr
      rw [paramsOf_erase, List.length_map]
      apply h.count
      rw [restOf_erase] at hr
      cases hx : restOf (rs.map (·.reg)) with
      | none => rfl
      | some x => rw [hx] at hr; cases hr

theorem complete_erase (a : α) (rs : List (PReg α)) (items : List Item) :
    Complete (eraseAll a rs) items ↔ Complete (rs.map (·.reg)) items := by
  unfold Complete
  rw [optsOf_erase, paramsOf_erase]
  constructor
  · rintro ⟨h1, h2⟩
    refine ⟨fun d hd hm => h1 (eraseOpt a d) (List.mem_map_of_mem hd) hm, fun i d hd hm => h2 i (eraseParam a d) ?_ hm⟩
    rw [List.getElem?_map, hd]
    rfl
  · rintro ⟨h1, h2⟩
    refine ⟨fun d hd hm => ?_, fun i d hd hm => ?_⟩
    · obtain ⟨d, hd', rfl⟩ := List.mem_map.mp hd
      exact h1 d hd' hm
    · rw [List.getElem?_map] at hd
      cases hd' : (paramsOf (rs.map (·.reg)))[i]? with
      | none => rw [hd'] at hd; cases hd
      | some d' =>
        rw [hd'] at hd
        simp only [Option.map_some, Option.some.injEq] at hd
        subst hd
        exact h2 i d' hd' hm

theorem optSlots_steps (rs : List (PReg α)) : (optSlots rs).map (fun x => (x.1, x.2.step)) = (optsOf (rs.map (·.reg))).map fun d => (d.name, d.step) := by
  induction rs with
  | nil => rfl
  | cons r rs ih =>
    obtain ⟨p, r⟩ := r
    cases r <;> simp_all [optsOf, optSlots]

theorem paramSlots_steps (rs : List (PReg α)) : (paramSlots rs).map (fun x => x.step) = (paramsOf (rs.map (·.reg))).map fun d => d.step := by
  induction rs with
  | nil => rfl
  | cons r rs ih =>
    obtain ⟨p, r⟩ := r
    cases r <;> simp_all [paramsOf, paramSlots]

theorem allFixed {rs : List (PReg α)} (hfix : ∀ r ∈ rs, OptShareSpec.Fixed r.reg) {o : Opts α} (hA : AddrOk rs o) : AllFixed o := by
  constructor
  · intro x hx
    obtain ⟨i, hi⟩ := List.getElem?_of_mem hx
    have h1 := hA.info i
    rw [hi] at h1
    cases hs : (optSlots rs)[i]? with
    | none => rw [hs] at h1; cases h1
    | some s =>
      rw [hs] at h1
      simp only [Option.map_some, Info.key, Option.some.injEq, Prod.mk.injEq] at h1
      have h2 : ((optSlots rs).map (fun x => (x.1, x.2.step)))[i]? = some (s.1, s.2.step) := by rw [List.getElem?_map, hs]; rfl
      rw [optSlots_steps, List.getElem?_map] at h2
      cases hd : (optsOf (rs.map (·.reg)))[i]? with
      | none => rw [hd] at h2; cases h2
      | some d =>
        rw [hd] at h2
        simp only [Option.map_some, Option.some.injEq, Prod.mk.injEq] at h2
        rw [h1.2, ← h2.2]
        exact fixed_opt hfix (List.mem_of_getElem? hd)
  · intro x hx
    obtain ⟨i, hi⟩ := List.getElem?_of_mem hx
    have h1 := hA.param i
    rw [hi] at h1
    cases hs : (paramSlots rs)[i]? with
    | none => rw [hs] at h1; cases h1
    | some s =>
      rw [hs] at h1
      simp only [Option.map_some, Info.key, Option.some.injEq, Prod.mk.injEq] at h1
      have h2 : ((paramSlots rs).map (fun x => x.step))[i]? = some s.step := by rw [List.getElem?_map, hs]; rfl
      rw [paramSlots_steps, List.getElem?_map] at h2
      cases hd : (paramsOf (rs.map (·.reg)))[i]? with
      | none => rw [hd] at h2; cases h2
      | some d =>
        rw [hd] at h2
        simp only [Option.map_some, Option.some.injEq] at h2
        rw [h1.2, ← h2]
        exact fixed_param hfix (List.mem_of_getElem? hd)

theorem addrOk_new : AddrOk ([] : List (PReg α)) Opts.new := ⟨fun _ => rfl, fun _ => rfl, rfl⟩

/-- Everything about one call of `parse`. -/
theorem parse_all (rs : List (PReg α)) (hfix : ∀ r ∈ rs, OptShareSpec.Fixed r.reg) (m : Mem α) (o : Opts α) (m0 : Mem α)
    (ho : Opts.new.regs m rs = .ok (o, m0)) (argv : List (List UInt8)) (h1 : 1 ≤ argv.length) :
    ∃ b o' m', o.parse m0 argv = .ok (b, o', m') ∧
      (b = some true ↔ ∃ items r, Reads (rs.map (·.reg)) (argv.drop 1) items r ∧ Accepted (rs.map (·.reg)) items ∧ Complete (rs.map (·.reg)) items) ∧
      (b = some true → ∀ items r, Reads (rs.map (·.reg)) (argv.drop 1) items r →
        (∀ p, m' p = final p (writes rs 0 items) (initial p rs (m p))) ∧ AddrOk rs o' ∧
        Option.Stored (eraseAll (m 0) rs) items (o'.erase (m 0))) := by
  obtain ⟨hA, hm0⟩ := regs_addr rs [] Opts.new m o m0 addrOk_new (fun _ => rfl) ho
  rw [List.nil_append] at hA
  have hF := allFixed hfix hA
  have hre := regs_erase (m 0) Opts.new m rs
  rw [ho] at hre
  have hre : (Opt.Option.new (α := Unit)).regs (eraseAll (m 0) rs) = .ok (o.erase (m 0)) := hre
  have hM := Opt.regs_match hre
  have hpe := parse_erase (m 0) o hF m0 argv
  obtain ⟨b, oe, c1, c2, c3, _⟩ := Option.C36_parse (eraseAll (m 0) rs) (o.erase (m 0)) hre argv 1 false h1 h1 (fun _ => Nat.le_refl 1)
  rw [c1] at hpe
  cases hp : o.parse m0 argv with
  | throw => rw [hp] at hpe; cases hpe
  | ub => rw [hp] at hpe; cases hpe
  | ok t =>
    obtain ⟨b', o', m'⟩ := t
    rw [hp] at hpe
    simp only [Res.bind, Res.ok.injEq, Prod.mk.injEq] at hpe
    obtain ⟨rfl, rfl⟩ := hpe
    refine ⟨b, o', m', rfl, ?_, ?_⟩
    · rw [c2]
      constructor
      · rintro ⟨items, r, d1, d2, d3⟩
        exact ⟨items, r, (reads_erase _ _ _ _ _).mp d1, (accepts_erase _ hfix _).mp d2, (complete_erase _ _ _).mp d3⟩
      · rintro ⟨items, r, d1, d2, d3⟩
        exact ⟨items, r, (reads_erase _ _ _ _ _).mpr d1, (accepts_erase _ hfix _).mpr d2, (complete_erase _ _ _).mpr d3⟩
    · intro hb items r hr
      have hr' := (reads_erase (m 0) _ _ _ _).mpr hr
      rw [Opts.parse, if_neg (by omega)] at hp
      obtain ⟨t, t1, t2⟩ := Res.bind_eq_ok.mp hp
      obtain ⟨e, o2, m2⟩ := t
      cases e with
      | err => simp only [Res.pure_eq, Res.ok.injEq, Prod.mk.injEq] at t2; rw [← t2.1] at hb; cases hb
      | exit => simp only [Res.pure_eq, Res.ok.injEq, Prod.mk.injEq] at t2; rw [← t2.1] at hb; cases hb
      | fin =>
        simp only [Res.pure_eq, Res.ok.injEq, Prod.mk.injEq] at t2
        obtain ⟨_, rfl, rfl⟩ := t2
        obtain ⟨g1, g2⟩ := argLoop_mem (m 0) rs _ [] { o with nextDelimiter := argv.length } m0 _ _ _ _ items r (Opt.match_delim hM argv.length o.remainsAfter) ⟨hF.infos, hF.params⟩
          ⟨hA.info, hA.param, hA.rest⟩ t1 hr'
        refine ⟨fun p => ?_, AddrOk.same (o := { o with nextDelimiter := argv.length }) ⟨hA.info, hA.param, hA.rest⟩ g2, (c3 hb items r hr').1⟩
        rw [g1, apply_final, hm0, init_initial]
        rfl

/-- C146: whatever variables the declarations share, `parse` returns `true` for exactly the same command lines, and every variable then holds
what the values given to it - by whichever name or position - make of its default, in the order of the command line. -/
theorem C146_parse (rs : List (PReg α)) (hfix : ∀ r ∈ rs, OptShareSpec.Fixed r.reg) (m : Mem α) (o : Opts α) (m0 : Mem α)
    (ho : Opts.new.regs m rs = .ok (o, m0)) (argv : List (List UInt8)) (h1 : 1 ≤ argv.length) :
    ∃ b o' m', o.parse m0 argv = .ok (b, o', m') ∧
      (b = some true ↔ ∃ items r, Reads (rs.map (·.reg)) (argv.drop 1) items r ∧ Accepted (rs.map (·.reg)) items ∧ Complete (rs.map (·.reg)) items) ∧
      (b = some true → ∀ items r, Reads (rs.map (·.reg)) (argv.drop 1) items r →
        ∀ p, m' p = final p (writes rs 0 items) (initial p rs (m p))) := by
  obtain ⟨b, o', m', c1, c2, c3⟩ := parse_all rs hfix m o m0 ho argv h1
  exact ⟨b, o', m', c1, c2, fun hb items r hr => (c3 hb items r hr).1⟩

/-- C146: two names for one variable: the last value on the command line wins, whichever name it came with. -/
theorem C146_last_wins (rs : List (PReg α)) (hfix : ∀ r ∈ rs, OptShareSpec.Fixed r.reg) (m : Mem α) (o : Opts α) (m0 : Mem α)
    (ho : Opts.new.regs m rs = .ok (o, m0)) (argv : List (List UInt8)) (h1 : 1 ≤ argv.length) (o' : Opts α) (m' : Mem α)
    (hp : o.parse m0 argv = .ok (some true, o', m')) (items : List Item) (r : _root_.Option (List (List UInt8)))
    (hr : Reads (rs.map (·.reg)) (argv.drop 1) items r) (p : Nat) (before : List (Slot α × List UInt8)) (s : Slot α) (v : List UInt8) (y : α)
    (hw : (writes rs 0 items).filter (fun w => w.1.addr == p) = before ++ [(s, v)]) (hs : ∀ x, (s.step x v).2 = y) : m' p = y := by
  obtain ⟨b, o2, m2, c1, c2, c3⟩ := C146_parse rs hfix m o m0 ho argv h1
  rw [hp] at c1
  simp only [Res.ok.injEq, Prod.mk.injEq] at c1
  obtain ⟨rfl, rfl, rfl⟩ := c1
  rw [c3 rfl items r hr p, final, hw, List.foldl_append]
  exact hs _

/-- C146: a variable nothing on the command line goes to keeps the default of the last declaration that has one, or what it held. -/
theorem C146_untouched (rs : List (PReg α)) (hfix : ∀ r ∈ rs, OptShareSpec.Fixed r.reg) (m : Mem α) (o : Opts α) (m0 : Mem α)
    (ho : Opts.new.regs m rs = .ok (o, m0)) (argv : List (List UInt8)) (h1 : 1 ≤ argv.length) (o' : Opts α) (m' : Mem α)
    (hp : o.parse m0 argv = .ok (some true, o', m')) (items : List Item) (r : _root_.Option (List (List UInt8)))
    (hr : Reads (rs.map (·.reg)) (argv.drop 1) items r) (p : Nat) (hw : ∀ w ∈ writes rs 0 items, w.1.addr ≠ p) :
    m' p = initial p rs (m p) ∧ ((∀ q ∈ rs, q.addr ≠ p) → m' p = m p) := by
  obtain ⟨b, o2, m2, c1, c2, c3⟩ := C146_parse rs hfix m o m0 ho argv h1
  rw [hp] at c1
  simp only [Res.ok.injEq, Prod.mk.injEq] at c1
  obtain ⟨rfl, rfl, rfl⟩ := c1
  have e : (writes rs 0 items).filter (fun w => w.1.addr == p) = [] := by
    rw [List.filter_eq_nil_iff]
    intro w hw'
    simpa using hw w hw'
  have e2 : m' p = initial p rs (m p) := by
    rw [c3 rfl items r hr p, final, e]
    rfl
  refine ⟨e2, fun hq => ?_⟩
  rw [e2]
  clear e2 c2 c3 hr hp ho hw e hfix
  unfold initial
  generalize m p = x
  induction rs generalizing x with
  | nil => rfl
  | cons q rs ih =>
    rw [List.foldl_cons, if_neg (hq q (by simp))]
    exact ih (fun q' hq' => hq q' (by simp [hq'])) x

theorem lookup_mem {β : Type} {l : List (List UInt8 × β)} {n : List UInt8} {s : β} (h : l.lookup n = some s) : (n, s) ∈ l := by
  induction l with
  | nil => cases h
  | cons y l ih =>
    obtain ⟨k, t⟩ := y
    rw [List.lookup_cons] at h
    cases hk : n == k with
    | true =>
      rw [hk] at h
      simp only [Option.some.injEq] at h
      have : n = k := by simpa using hk
      rw [this, h]
      simp
    | false =>
      rw [hk] at h
      simp [ih h]

/-- C146: an option whose variable is used by no other declaration is not affected by the others: it takes the values given to its name. -/
theorem C146_own_variable (rs : List (PReg α)) (hfix : ∀ r ∈ rs, OptShareSpec.Fixed r.reg) (m : Mem α) (o : Opts α) (m0 : Mem α)
    (ho : Opts.new.regs m rs = .ok (o, m0)) (argv : List (List UInt8)) (h1 : 1 ≤ argv.length) (o' : Opts α) (m' : Mem α)
    (hp : o.parse m0 argv = .ok (some true, o', m')) (items : List Item) (r : _root_.Option (List (List UInt8)))
    (hr : Reads (rs.map (·.reg)) (argv.drop 1) items r) (n : List UInt8) (s : Slot α) (hs : slotOf rs n = some s)
    (hu : ∀ x ∈ optSlots rs, x.2.addr = s.addr → x = (n, s)) (hpar : ∀ x ∈ paramSlots rs, x.addr ≠ s.addr) (hrest : ∀ x, restSlot rs = some x → x.addr ≠ s.addr) :
    m' s.addr = (valuesOf n items).foldl (fun x v => (s.step x v).2) (initial s.addr rs (m s.addr)) := by
  obtain ⟨b, o2, m2, c1, c2, c3⟩ := C146_parse rs hfix m o m0 ho argv h1
  rw [hp] at c1
  simp only [Res.ok.injEq, Prod.mk.injEq] at c1
  obtain ⟨rfl, rfl, rfl⟩ := c1
  rw [c3 rfl items r hr s.addr, final]
  have key : ∀ k, (writes rs k items).filter (fun w => w.1.addr == s.addr) = (valuesOf n items).map fun v => (s, v) := by
    have hopt : ∀ (n' : List UInt8) (vs : List (List UInt8)),
        ((slotOf rs n').toList.flatMap fun t => vs.map fun v => (t, v)).filter (fun w => w.1.addr == s.addr) =
          (if n' = n then vs else []).map fun v => (s, v) := by
      intro n' vs
      cases hn : slotOf rs n' with
      | none =>
        rw [if_neg (fun e => by rw [e, hs] at hn; cases hn)]
        rfl
      | some t =>
        by_cases ht : t.addr = s.addr
        · have := hu (n', t) (lookup_mem hn) ht
          simp only [Prod.mk.injEq] at this
          obtain ⟨rfl, rfl⟩ := this
          simp
        · have : n' ≠ n := by
            intro e
            rw [e, hs] at hn
            injection hn with hn
            exact ht (by rw [hn])
          rw [if_neg this]
          simp [ht]
    have hpos : ∀ k v, ((slotAt rs k).toList.map fun t => (t, v)).filter (fun w : Slot α × List UInt8 => w.1.addr == s.addr) = [] := by
      intro k v
      cases hk : slotAt rs k with
      | none => rfl
      | some t =>
        have : t.addr ≠ s.addr := by
          rw [slotAt] at hk
          split at hk
          · rename_i q hq
            injection hk with hk
            subst hk
            exact hpar _ (List.mem_of_getElem? hq)
          · exact hrest _ hk
        simp [this]
    have hone : ∀ (n' v : List UInt8), ((slotOf rs n').toList.map fun t => (t, v)) = (slotOf rs n').toList.flatMap fun t => [v].map fun v => (t, v) := by
      intro n' v
      cases slotOf rs n' <;> rfl
    clear c3 hr hp
    induction items with
    | nil => intro k; rfl
    | cons it items ih =>
      intro k
      cases it with
      | flag n' =>
        rw [writes, List.filter_append, ih, hone, hopt]
        by_cases e : n' = n <;> simp [valuesOf, e]
      | one n' v =>
        rw [writes, List.filter_append, ih, hone, hopt]
        by_cases e : n' = n <;> simp [valuesOf, e]
      | many n' vs =>
        rw [writes, List.filter_append, ih, hopt]
        by_cases e : n' = n <;> simp [valuesOf, e]
      | pos v =>
        rw [writes, List.filter_append, ih, hpos]
        simp [valuesOf]
  rw [key, List.foldl_map]

/-- C146, finding: `isSet(&v)` of a variable with several names answers for the name declared first only: it is false although `v` was set by
another name. -/
theorem C146_finding_isSet (rs : List (PReg α)) (hfix : ∀ r ∈ rs, OptShareSpec.Fixed r.reg) (m : Mem α) (o : Opts α) (m0 : Mem α)
    (ho : Opts.new.regs m rs = .ok (o, m0)) (argv : List (List UInt8)) (h1 : 1 ≤ argv.length) (o' : Opts α) (m' : Mem α)
    (hp : o.parse m0 argv = .ok (some true, o', m')) (items : List Item) (r : _root_.Option (List (List UInt8)))
    (hr : Reads (rs.map (·.reg)) (argv.drop 1) items r) (p : Nat) (pre post : List (List UInt8 × Slot α)) (n : List UInt8) (s : Slot α)
    (hs : optSlots rs = pre ++ (n, s) :: post) (hsp : s.addr = p) (hpre : ∀ x ∈ pre, x.2.addr ≠ p) (hpar : ∀ x ∈ paramSlots rs, x.addr ≠ p)
    (hrest : ∀ x, restSlot rs = some x → x.addr ≠ p) : o'.isSet p = .ok (decide (valuesOf n items ≠ [])) := by
  obtain ⟨b, o2, m2, c1, _, c3⟩ := parse_all rs hfix m o m0 ho argv h1
  rw [hp] at c1
  simp only [Res.ok.injEq, Prod.mk.injEq] at c1
  obtain ⟨rfl, rfl, rfl⟩ := c1
  obtain ⟨_, hA, hS⟩ := c3 rfl items r hr
  have hmap : o'.infoVec.map Info.key = (optSlots rs).map fun x => (x.2.addr, x.2.step) := by
    apply List.ext_getElem?
    intro i
    rw [List.getElem?_map, List.getElem?_map]
    exact hA.info i
  have hi1 : (o'.infoVec[pre.length]?).map Info.key = some (s.addr, s.step) := by
    rw [hA.info, hs]
    simp
  cases hi : o'.infoVec[pre.length]? with
  | none => rw [hi] at hi1; cases hi1
  | some info =>
    rw [hi] at hi1
    simp only [Option.map_some, Info.key, Option.some.injEq, Prod.mk.injEq] at hi1
    have hfind : o'.infoVec.find? (fun i => i.var.addr == p) = some info := by
      rw [List.find?_eq_some_iff_getElem]
      have hlt : pre.length < o'.infoVec.length := (List.getElem?_eq_some_iff.mp hi).1
      refine ⟨by simp [hi1.1, hsp], pre.length, hlt, (List.getElem?_eq_some_iff.mp hi).2, ?_⟩
      intro j hj
      have e := hA.info j
      rw [hs, List.getElem?_append_left hj, List.getElem?_eq_getElem (show j < o'.infoVec.length by omega), List.getElem?_eq_getElem hj] at e
      simp only [Option.map_some, Info.key, Option.some.injEq, Prod.mk.injEq] at e
      have := hpre _ (List.getElem_mem hj)
      rw [e.1]
      simpa using this
    have hfp : o'.paramVec.find? (fun i => i.var.addr == p) = none := by
      rw [List.find?_eq_none]
      intro x hx
      obtain ⟨i, hi⟩ := List.getElem?_of_mem hx
      have e := hA.param i
      rw [hi] at e
      cases hq : (paramSlots rs)[i]? with
      | none => rw [hq] at e; cases e
      | some q =>
        rw [hq] at e
        simp only [Option.map_some, Info.key, Option.some.injEq, Prod.mk.injEq] at e
        have := hpar q (List.mem_of_getElem? hq)
        rw [e.1]
        simpa using this
    have hfr : o'.remains.filter (fun i => i.var.addr == p) = none := by
      cases hq : o'.remains with
      | none => rfl
      | some x =>
        have e := hA.rest
        rw [hq] at e
        cases hq' : restSlot rs with
        | none => rw [hq'] at e; cases e
        | some q =>
          rw [hq'] at e
          simp only [Option.map_some, Info.key, Option.some.injEq, Prod.mk.injEq] at e
          have := hrest q hq'
          simp [Option.filter, e.1, this]
    rw [Opts.isSet, hfind, hfp, hfr]
    simp only [Res.ok.injEq]
    have hn : ((optsOf (eraseAll (m 0) rs)).map (fun d => d.name))[pre.length]? = some n := by
      rw [optSlots_names, hs]
      simp
    rw [List.getElem?_map] at hn
    cases hd : (optsOf (eraseAll (m 0) rs))[pre.length]? with
    | none => rw [hd] at hn; cases hn
    | some d =>
      rw [hd] at hn
      simp only [Option.map_some, Option.some.injEq] at hn
      obtain ⟨info', i1, _, i2⟩ := hS.opts _ d hd
      have e : (o'.erase (m 0)).infoVec[pre.length]? = some (info.erase (m 0)) := by
        show (o'.infoVec.map (Info.erase (m 0)))[pre.length]? = _
        rw [List.getElem?_map, hi]
        rfl
      rw [e] at i1
      injection i1 with i1
      subst i1
      rw [hn] at i2
      have i2 : info.var.isSet = true ↔ valuesOf n items ≠ [] := i2
      cases hb : info.var.isSet with
      | true => exact (decide_eq_true (i2.mp hb)).symm
      | false =>
        refine (decide_eq_false fun hx => ?_).symm
        rw [i2.mpr hx] at hb
        cases hb

/-- C146, finding: sharing a variable does not make two names one option: if both are required, a command line with one of them only is refused,
although the variable has its value. -/
theorem C146_finding_must (rs : List (PReg α)) (hfix : ∀ r ∈ rs, OptShareSpec.Fixed r.reg) (m : Mem α) (o : Opts α) (m0 : Mem α)
    (ho : Opts.new.regs m rs = .ok (o, m0)) (argv : List (List UInt8)) (h1 : 1 ≤ argv.length) (items : List Item) (r : _root_.Option (List (List UInt8)))
    (hr : Reads (rs.map (·.reg)) (argv.drop 1) items r) (d : OptDecl α) (hd : d ∈ optsOf (rs.map (·.reg))) (hm : d.must = true)
    (hv : valuesOf d.name items = []) : ∃ b o' m', o.parse m0 argv = .ok (b, o', m') ∧ b ≠ some true := by
  obtain ⟨b, o', m', c1, c2, _⟩ := C146_parse rs hfix m o m0 ho argv h1
  refine ⟨b, o', m', c1, fun hb => ?_⟩
  obtain ⟨items', r', d1, _, d3⟩ := c2.mp hb
  obtain ⟨rfl, _⟩ := Opt.cmd_unique d1 hr
  exact d3.1 d hd hm hv

/-- C146: a copy made before `parse` is the same as the original: its `parse` writes the variables of the original. -/
theorem C146_copy (rs : List (PReg α)) (m : Mem α) (o c : Opts α) (m0 : Mem α) (ho : Opts.new.regs m rs = .ok (o, m0)) (hc : o.copy = .ok c) :
    c = o := by
  have hclean : ∀ (rs : List (PReg α)) (o1 : Opts α) (m : Mem α), ((∀ i ∈ o1.infoVec, i.var.isSet = false) ∧ (∀ i ∈ o1.paramVec, i.var.isSet = false) ∧
      ∀ i, o1.remains = some i → i.var.isSet = false) → ∀ o m0, o1.regs m rs = .ok (o, m0) → ((∀ i ∈ o.infoVec, i.var.isSet = false) ∧
      (∀ i ∈ o.paramVec, i.var.isSet = false) ∧ ∀ i, o.remains = some i → i.var.isSet = false) := by
    intro rs
    induction rs with
    | nil =>
      intro o1 m h o m0 e
      simp only [Opts.regs, Res.ok.injEq, Prod.mk.injEq] at e
      rw [← e.1]
      exact h
    | cons r rs ih =>
      intro o1 m h o m0 e
      rw [Opts.regs] at e
      obtain ⟨o2, e1, e2⟩ := Res.bind_eq_ok.mp e
      refine ih o2 _ ?_ o m0 e2
      obtain ⟨p, r⟩ := r
      obtain ⟨g1, g2, g3⟩ := h
      cases r with
      | opt st step mode must name =>
        simp only [Opts.reg1, Opts.appendSub] at e1
        split at e1
        · cases e1
        · split at e1
          · cases e1
          · simp only [Res.ok.injEq] at e1
            subst e1
            refine ⟨fun i hi => ?_, g2, g3⟩
            rcases List.mem_append.mp hi with hi | hi
            · exact g1 i hi
            · simp only [List.mem_singleton] at hi; subst hi; rfl
      | param st step name =>
        simp only [Opts.reg1] at e1
        split at e1
        · cases e1
        · simp only [Res.ok.injEq] at e1
          subst e1
          refine ⟨g1, fun i hi => ?_, g3⟩
          rcases List.mem_append.mp hi with hi | hi
          · exact g2 i hi
          · simp only [List.mem_singleton] at hi; subst hi; rfl
      | paramOpt st step name =>
        simp only [Opts.reg1] at e1
        split at e1
        · cases e1
        · simp only [Res.ok.injEq] at e1
          subst e1
          refine ⟨g1, fun i hi => ?_, g3⟩
          rcases List.mem_append.mp hi with hi | hi
          · exact g2 i hi
          · simp only [List.mem_singleton] at hi; subst hi; rfl
      | paramVec st step name =>
        simp only [Opts.reg1] at e1
        split at e1
        · cases e1
        · simp only [Res.ok.injEq] at e1
          subst e1
          refine ⟨g1, g2, fun i hi => ?_⟩
          simp only [Option.some.injEq] at hi
          subst hi
          rfl
      | help n | setDelimiter d r | appendDelimiter d | clearDelimiterList =>
        simp only [Opts.reg1, Res.ok.injEq] at e1
        subst e1
        exact ⟨g1, g2, g3⟩
  obtain ⟨h1, h2, h3⟩ := hclean rs Opts.new m ⟨fun i hi => absurd hi (by simp [Opts.new]), fun i hi => absurd hi (by simp [Opts.new]),
    fun i hi => by simp [Opts.new] at hi⟩ o m0 ho
  have hcopy : ∀ i : Info α, i.var.isSet = false → i.copy = i := by
    rintro ⟨⟨a, b, s⟩, _, _, _⟩ h
    have h : b = false := h
    subst h
    rfl
  have hmap : ∀ l : List (Info α), (∀ i ∈ l, i.var.isSet = false) → l.map Info.copy = l := by
    intro l h
    conv => rhs; rw [← List.map_id l]
    exact List.map_congr_left fun i hi => hcopy i (h i hi)
  rw [Opts.copy] at hc
  cases hr : o.remains with
  | none => rw [hr] at hc; cases hc
  | some q =>
    rw [hr] at hc
    simp only [Res.ok.injEq] at hc
    rw [← hc, hmap _ h1, hmap _ h2, hcopy q (h3 q hr), ← hr]

/-! ### examples -/

/-- A text variable. -/
def strStep (_ : List UInt8) (s : List UInt8) : Bool × List UInt8 := (true, s)

/-- `-o` and `-out` for one variable (address 1), default "a". -/
def twoNames : List (PReg (List UInt8)) := [⟨1, .opt [97] strStep .is1 false [111]⟩, ⟨1, .opt [97] strStep .is1 false [111, 117, 116]⟩]

example : ∀ r ∈ twoNames, OptShareSpec.Fixed r.reg := by
  intro r hr
  simp only [twoNames, List.mem_cons, List.not_mem_nil, or_false] at hr
  rcases hr with rfl | rfl <;> exact fun _ _ _ => rfl

/-- `-o x -out y`: the variable is "y". -/
example : ∃ o m0 o' m', Opts.new.regs (fun _ => []) twoNames = .ok (o, m0) ∧
    o.parse m0 [[], [45, 111], [120], [45, 111, 117, 116], [121]] = .ok (some true, o', m') ∧ m' 1 = [121] ∧ o'.isSet 1 = .ok true :=
  ⟨_, _, _, _, rfl, rfl, rfl, rfl⟩

/-- C146, finding: `-out y` alone sets the variable, and `isSet` says that it was not set. -/
theorem C146_finding_alias : ∃ o m0 o' m', Opts.new.regs (fun _ => []) twoNames = .ok (o, m0) ∧
    o.parse m0 [[], [45, 111, 117, 116], [121]] = .ok (some true, o', m') ∧ m' 1 = [121] ∧ o'.isSet 1 = .ok false :=
  ⟨_, _, _, _, rfl, rfl, rfl, rfl⟩

example : Reads (twoNames.map (·.reg)) [[45, 111], [120], [45, 111, 117, 116], [121]] [.one [111] [120], .one [111, 117, 116] [121]] none := by
  refine .one [111] [120] _ _ _ (by decide) ⟨_, rfl, ?_⟩ (by decide) rfl ?_
  · intro c hc
    cases hc
    decide
  · refine .one [111, 117, 116] [121] _ _ _ (by decide) ⟨_, rfl, ?_⟩ (by decide) rfl .nil
    intro c hc
    cases hc
    decide

/-- The declaration has a variable. -/
def declares {α : Type} : Reg α → Bool
  | .opt .. | .param .. | .paramOpt .. | .paramVec .. => true
  | _ => false

/-- Some declaration in the object is for the variable at `p`. -/
def Known {α : Type} (o : Opts α) (p : Nat) : Prop :=
  (∃ i ∈ o.paramVec, i.var.addr = p) ∨ (∃ i, o.remains = some i ∧ i.var.addr = p) ∨ ∃ i ∈ o.infoVec, i.var.addr = p

theorem isSet_known {α : Type} (o : Opts α) (p : Nat) : (Known o p → ∃ b, o.isSet p = .ok b) ∧ (¬ Known o p → o.isSet p = .throw) := by
  have hp : (∃ i ∈ o.paramVec, i.var.addr = p) ↔ ∃ i, o.paramVec.find? (fun i => i.var.addr == p) = some i := by
    rw [← Option.isSome_iff_exists, List.find?_isSome]; simp
  have hi : (∃ i ∈ o.infoVec, i.var.addr = p) ↔ ∃ i, o.infoVec.find? (fun i => i.var.addr == p) = some i := by
    rw [← Option.isSome_iff_exists, List.find?_isSome]; simp
  have hr : (∃ i, o.remains = some i ∧ i.var.addr = p) ↔ ∃ i, o.remains.filter (fun i => i.var.addr == p) = some i := by
    cases o.remains with
    | none => simp
    | some i => by_cases e : i.var.addr = p <;> simp [Option.filter, e]
  rw [Known, hp, hi, hr, Opts.isSet]
  cases o.paramVec.find? (fun i => i.var.addr == p) <;> cases o.remains.filter (fun i => i.var.addr == p) <;>
    cases o.infoVec.find? (fun i => i.var.addr == p) <;> simp

theorem known_reg1 {α : Type} (o o' : Opts α) (a : Nat) (r : Reg α) (hj : o.remains ≠ none → o.paramMode ≠ .exact) (h : o.reg1 a r = .ok o') (p : Nat) :
    (Known o' p ↔ Known o p ∨ (declares r = true ∧ a = p)) ∧ (o'.remains ≠ none → o'.paramMode ≠ .exact) := by
  cases r with
  | opt st step mode must name =>
    simp only [Opts.reg1, Opts.appendSub] at h
    split at h
    · cases h
    · split at h
      · cases h
      · cases h
        refine ⟨?_, hj⟩
        simp only [Known, declares, List.mem_append, List.mem_singleton, or_and_right, exists_or, exists_eq_left, true_and, or_assoc]
  | param st step name =>
    simp only [Opts.reg1] at h
    split at h
    · cases h
    · cases h
      refine ⟨?_, hj⟩
      simp only [Known, declares, List.mem_append, List.mem_singleton, or_and_right, exists_or, exists_eq_left, true_and]
      grind
  | paramOpt st step name =>
    simp only [Opts.reg1] at h
    split at h
    · cases h
    · cases h
      refine ⟨?_, by simp⟩
      simp only [Known, declares, List.mem_append, List.mem_singleton, or_and_right, exists_or, exists_eq_left, true_and]
      grind
  | paramVec st step name =>
    simp only [Opts.reg1] at h
    split at h
    · cases h
    · rename_i hm
      cases h
      have hn : o.remains = none := Classical.byContradiction fun g => hm (hj g)
      refine ⟨?_, by simp⟩
      simp only [Known, declares, hn, Option.some.injEq, exists_eq_left', true_and]
      simp only [reduceCtorEq, false_and, exists_false, false_or]
      grind
  | help name => cases h; exact ⟨by simp [Known, declares], hj⟩
  | setDelimiter d rm => cases h; exact ⟨by simp [Known, declares], hj⟩
  | appendDelimiter d => cases h; exact ⟨by simp [Known, declares], hj⟩
  | clearDelimiterList => cases h; exact ⟨by simp [Known, declares], hj⟩

/-- C146: after the declarations `isSet(&v)` throws exactly if `v` was never declared; otherwise it answers. -/
theorem C146_isSet_declared {α : Type} (rs : List (PReg α)) (m : Mem α) (o : Opts α) (m0 : Mem α) (ho : Opts.new.regs m rs = .ok (o, m0)) (p : Nat) :
    ((∃ r ∈ rs, declares r.reg = true ∧ r.addr = p) → ∃ b, o.isSet p = .ok b) ∧
    ((∀ r ∈ rs, declares r.reg = true → r.addr ≠ p) → o.isSet p = .throw) := by
  have key : ∀ (rs : List (PReg α)) (o1 : Opts α) (m : Mem α) (o : Opts α) (m0 : Mem α), (o1.remains ≠ none → o1.paramMode ≠ .exact) →
      o1.regs m rs = .ok (o, m0) → (Known o p ↔ Known o1 p ∨ ∃ r ∈ rs, declares r.reg = true ∧ r.addr = p) := by
    intro rs
    induction rs with
    | nil => intro o1 m o m0 _ h; cases h; simp
    | cons r rs ih =>
      intro o1 m o m0 hj h
      rw [Opts.regs, Res.bind_eq_ok] at h
      obtain ⟨o2, h1, h2⟩ := h
      obtain ⟨k1, k2⟩ := known_reg1 o1 o2 r.addr r.reg hj h1 p
      rw [ih o2 _ o m0 k2 h2, k1]
      simp [or_assoc]
  have hk := key rs Opts.new m o m0 (by simp [Opts.new]) ho
  have h0 : ¬ Known (Opts.new : Opts α) p := by simp [Known, Opts.new]
  constructor
  · intro h; exact (isSet_known o p).1 (hk.mpr (.inr h))
  · intro h
    refine (isSet_known o p).2 fun g => ?_
    rcases hk.mp g with g | ⟨r, h1, h2, h3⟩
    · exact h0 g
    · exact h r h1 h2 h3

#print axioms C146_isSet_declared
#print axioms C146_parse
#print axioms C146_last_wins
#print axioms C146_untouched
#print axioms C146_own_variable
#print axioms C146_finding_isSet
#print axioms C146_finding_must
#print axioms C146_copy
#print axioms C146_finding_alias

end Verif.Props.OptionShare
