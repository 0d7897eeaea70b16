import Verif.Proof.Option

/-! # C35, C36: command line options -/
set_option linter.unusedSimpArgs false
namespace Verif.Props.Option

open Verif.Opt Verif.Spec.Opt Verif.Spec.Numeral

/-- C35: for every integer type and every text, `convertInt` accepts exactly the texts whose value fits the type, and stores that value.
A refused text leaves the variable alone, except that a refused hexadecimal text clears it.  Missing from the full claim: texts without unit that
start with the minimum of a signed type and go on (`C35_min_then_more_accepted`). -/
theorem C35_convert_partial {ty : IntTy} {signed : Bool} (hv : ty.Valid signed) (x : Int) (s e : List UInt8) (hs : 0 ∉ s) (hl : s.length < 2 ^ 64 - 1)
    (hb : s.getLast?.bind unit = none → ¬ Bad ty s) :
    ∃ x', convertInt ty x (s ++ 0 :: e) = .ok ((optValue signed ty.lo ty.hi s).isSome, x') ∧
      (∀ v, optValue signed ty.lo ty.hi s = some v → x' = v) ∧
      (optValue signed ty.lo ty.hi s = none → x' = x ∨ (s.take 2 = [48, 120] ∧ x' = 0)) :=
  convertInt_spec hv x s e hs hl hb

/-- C35: for unsigned types there is no exception. -/
theorem C35_convert_unsigned {ty : IntTy} (hv : ty.Valid false) (x : Int) (s e : List UInt8) (hs : 0 ∉ s) (hl : s.length < 2 ^ 64 - 1) :
    ∃ x', convertInt ty x (s ++ 0 :: e) = .ok ((optValue false ty.lo ty.hi s).isSome, x') ∧ (∀ v, optValue false ty.lo ty.hi s = some v → x' = v) := by
  obtain ⟨x', h1, h2, _⟩ := convertInt_spec hv x s e hs hl (by
    intro _
    rintro ⟨_, _, e1, _⟩
    cases hv
    cases e1)
  exact ⟨x', h1, h2⟩

/-- C35: a number followed by a unit is accepted iff the product fits, without exception: "`d`k" for `d` any numeral. -/
theorem C35_unit {ty : IntTy} {signed : Bool} (hv : ty.Valid signed) (x : Int) (d : List UInt8) (u : UInt8) (f : Nat) (hu : unit u = some f) (e : List UInt8)
    (hd0 : d ≠ []) (hs : 0 ∉ d) (hx : (d ++ [u]).take 2 ≠ [48, 120]) (hl : d.length < 2 ^ 64 - 2) :
    ∃ x', convertInt ty x (d ++ [u] ++ 0 :: e) = .ok (((numeral signed d).any fun v => decide (ty.lo ≤ v * f ∧ v * f ≤ ty.hi)), x') ∧
      ∀ v, numeral signed d = some v → ty.lo ≤ v * f → v * f ≤ ty.hi → x' = v * f := by
  have hu0 : u ≠ 0 := by
    intro h; subst h; cases hu
  obtain ⟨x', h1, h2, _⟩ := convertInt_spec hv x (d ++ [u]) e (by simp [hs]; exact fun h => hu0 h.symm) (by simp; omega) (by simp [hu])
  have ho : optValue signed ty.lo ty.hi (d ++ [u]) = (numeral signed d).bind fun v => if ty.lo ≤ v * f ∧ v * f ≤ ty.hi then some (v * f) else none := by
    rw [optValue, if_neg hx, meant]
    have : (d ++ [u]).getLast?.bind unit = some f := by simp [hu]
    rw [this]
    simp only
    have hlen : (d ++ [u]).length > 1 := by
      cases d with
      | nil => exact absurd rfl hd0
      | cons _ _ => simp
    rw [if_pos hlen, List.dropLast_concat]
    cases numeral signed d <;> rfl
  refine ⟨x', ?_, ?_⟩
  · rw [h1, ho]
    cases numeral signed d with
    | none => rfl
    | some v =>
      simp only [Option.bind_some, Option.any_some]
      split
      · rename_i h; simp [h]
      · rename_i h; simp only [decide_eq_false h]; rfl
  · intro v hv h3 h4
    apply h2
    rw [ho, hv, Option.bind_some, if_pos ⟨h3, h4⟩]

/-- "2097151k" as `int`, in memory. -/
example : ∃ x', convertInt (.s Atoi.sint32) 7 ([50, 48, 57, 55, 49, 53, 49] ++ [75] ++ 0 :: [1, 2]) = .ok (true, x') ∧ x' = 2147482624 := by
  obtain ⟨x', h1, h2⟩ := C35_unit (.s Atoi.sint32 (2 ^ 31) (by simp [Verif.Props.Numeral.signedTypes])) 7 [50, 48, 57, 55, 49, 53, 49] 75 1024 rfl [1, 2] (by simp) (by decide) (by decide) (by decide)
  refine ⟨x', ?_, h2 2097151 (by decide +kernel) (by decide) (by decide)⟩
  rw [h1, show numeral true [50, 48, 57, 55, 49, 53, 49] = some 2097151 by decide +kernel]
  rfl

/-- "3g" does not fit an `int`. -/
example : convertInt (.s Atoi.sint32) 7 [51, 103, 0] = .ok (false, 7) := by decide +kernel

/-- C35, finding: the text "-2147483648x" is accepted as an `int`. -/
theorem C35_min_then_more_accepted :
    convertInt (.s Atoi.sint32) 7 ([45, 50, 49, 52, 55, 52, 56, 51, 54, 52, 56, 120] ++ [0]) = .ok (true, -2147483648) ∧
    optValue true (-2147483648) 2147483647 [45, 50, 49, 52, 55, 52, 56, 51, 54, 52, 56, 120] = none := ⟨by decide +kernel, by decide +kernel⟩

/-- C35, finding: a refused hexadecimal text clears the variable, although decimal texts leave it alone. -/
theorem C35_refused_hex_clears : convertInt (.s Atoi.sint32) 7 ([48, 120, 122] ++ [0]) = .ok (false, 0) ∧ convertInt (.s Atoi.sint32) 7 ([122] ++ [0]) = .ok (false, 7) :=
  ⟨by decide +kernel, by decide +kernel⟩

/-- The reading of the command line `args` as `items`, with `r` after the delimiter, under the declarations `rs`. -/
abbrev Reads {α : Type} (rs : List (Reg α)) (args : List (List UInt8)) (items : List Item) (r : _root_.Option (List (List UInt8))) : Prop :=
  Cmd (modeIn (optsOf rs)) (helpOf rs) (delimsOf rs) args items r

/-- What the variables hold afterwards. -/
structure Stored {α : Type} (rs : List (Reg α)) (items : List Item) (o : Verif.Opt.Option α) : Prop where
  opts : ∀ (i : Nat) (d : OptDecl α), (optsOf rs)[i]? = some d → ∃ info, o.infoVec[i]? = some info ∧ OptResult d items info.var.st info.var.isSet
  params : ∀ (i : Nat) (d : ParamDecl α), (paramsOf rs)[i]? = some d → ∃ info, o.paramVec[i]? = some info ∧ ParamResult d i items info.var.st info.var.isSet
  rest : ∀ d, restOf rs = some d → ∃ info, o.remains = some info ∧ RestResult d (paramsOf rs).length items info.var.st info.var.isSet
  noRest : restOf rs = none → o.remains = none
  lens : o.infoVec.length = (optsOf rs).length ∧ o.paramVec.length = (paramsOf rs).length
  count : restOf rs = none → (positionals items).length ≤ (paramsOf rs).length

theorem checks_iff {α : Type} {rs : List (Reg α)} {items : List Item} {o : Verif.Opt.Option α} (m : Match rs items o) : checks o = true ↔ Complete rs items := by
  have h1 : (∀ x ∈ o.infoVec, x.isMust = true → x.var.isSet = true) ↔ ∀ d ∈ optsOf rs, d.must = true → valuesOf d.name items ≠ [] := by
    constructor
    · intro h d hd hm
      obtain ⟨i, hi⟩ := List.getElem?_of_mem hd
      have hlt : i < o.infoVec.length := by rw [m.optLen]; exact (List.getElem?_eq_some_iff.mp hi).1
      obtain ⟨_, _, p3, _, _, p6⟩ := m.opts i d _ hi (List.getElem?_eq_getElem hlt)
      exact p6.mp (h _ (List.getElem_mem hlt) (by rw [p3]; exact hm))
    · intro h x hx hm
      obtain ⟨i, hi⟩ := List.getElem?_of_mem hx
      have hlt : i < (optsOf rs).length := by rw [← m.optLen]; exact (List.getElem?_eq_some_iff.mp hi).1
      obtain ⟨_, _, p3, _, _, p6⟩ := m.opts i _ x (List.getElem?_eq_getElem hlt) hi
      exact p6.mpr (h _ (List.getElem_mem hlt) (by rw [← p3]; exact hm))
  have h2 : (∀ x ∈ o.paramVec, x.isMust = true → x.var.isSet = true) ↔
      ∀ (i : Nat) (d : ParamDecl α), (paramsOf rs)[i]? = some d → d.must = true → i < (positionals items).length := by
    constructor
    · intro h i d hi hm
      have hlt : i < o.paramVec.length := by rw [m.paramLen]; exact (List.getElem?_eq_some_iff.mp hi).1
      obtain ⟨p3, _, _, p6⟩ := m.params i d _ hi (List.getElem?_eq_getElem hlt)
      exact p6.mp (h _ (List.getElem_mem hlt) (by rw [p3]; exact hm))
    · intro h x hx hm
      obtain ⟨i, hi⟩ := List.getElem?_of_mem hx
      have hlt : i < (paramsOf rs).length := by rw [← m.paramLen]; exact (List.getElem?_eq_some_iff.mp hi).1
      obtain ⟨p3, _, _, p6⟩ := m.params i _ x (List.getElem?_eq_getElem hlt) hi
      exact p6.mpr (h i _ (List.getElem?_eq_getElem hlt) (by rw [← p3]; exact hm))
  have h3 : (decide (o.paramMode = .variable) && o.remains.any fun r => r.isMust && !r.var.isSet) = false := by
    by_cases hm : o.paramMode = .variable
    · obtain ⟨d, hd⟩ := Option.isSome_iff_exists.mp (m.mode.mp hm)
      obtain ⟨info, r1, r2, _, _⟩ := m.rest d hd
      rw [r1]
      simp [r2]
    · simp [hm]
  rw [Complete, ← h1, ← h2, checks, h3]
  simp [List.any_eq_false]

/-- C36: after any declarations `rs` on a new object, `parse` ends without undefined behaviour, and
 * returns `true` exactly when the arguments have a reading whose values are all accepted and in which nothing required is missing;
 * then the variables hold what the reading says, and the position after the delimiter and the remaining arguments are right;
 * ends the program only if the help option is among the arguments. -/
theorem C36_parse {α : Type} (rs : List (Reg α)) (o : Verif.Opt.Option α) (ho : Option.new.regs rs = .ok o) (argv : List (List UInt8)) (startPos : Nat)
    (hn : Bool) (h1 : startPos ≤ argv.length) (h2 : 1 ≤ argv.length) (h3 : hn = false → 1 ≤ startPos) :
    ∃ b o', o.parse argv startPos hn = .ok (b, o') ∧
      (b = some true ↔ ∃ items r, Reads rs (argv.drop startPos) items r ∧ Accepts rs items ∧ Complete rs items) ∧
      (b = some true → ∀ items r, Reads rs (argv.drop startPos) items r → Stored rs items o' ∧
        (∀ t, r = some t → o'.nextDelimiter = argv.length - t.length ∧ o'.remainsAfter = o.remainsAfter.map (· ++ t)) ∧
        (r = none → o'.nextDelimiter = argv.length ∧ o'.remainsAfter = o.remainsAfter)) ∧
      (b = none → 45 :: helpOf rs ∈ argv) := by
  have m0 := match_delim (regs_match ho) argv.length o.remainsAfter
  obtain ⟨e, o', l1, l2, l3, l4⟩ := argLoop_spec rs (argv.length + 1) [] _ startPos (argv.drop startPos) m0 (by simp; omega) argv.length (by simp; omega) rfl
  rw [Verif.Opt.Option.parse, if_neg (by omega), if_neg (by
    rintro ⟨h4, h5⟩
    have := h3 (by simpa using h4)
    omega)]
  rw [l1]
  simp only [Res.ok_bind]
  cases e with
  | exit =>
    refine ⟨none, o', rfl, ?_, by simp, fun _ => List.mem_of_mem_drop (l4 rfl)⟩
    simp only [reduceCtorEq, false_iff, not_exists]
    rintro items r ⟨c1, c2, _⟩
    have := l3 items r c1 (by simpa using c2)
    cases this
  | err =>
    refine ⟨some false, o', rfl, ?_, by simp, by simp⟩
    simp only [Option.some.injEq, Bool.false_eq_true, false_iff, not_exists]
    rintro items r ⟨c1, c2, _⟩
    have := l3 items r c1 (by simpa using c2)
    cases this
  | fin =>
    obtain ⟨items, r, c1, c2, c3⟩ := l2 rfl
    rw [List.nil_append] at c2
    refine ⟨some (checks o'), o', rfl, ?_, ?_, by simp⟩
    · simp only [Option.some.injEq]
      rw [checks_iff c2]
      constructor
      · intro hc
        refine ⟨items, r, c1, ⟨?_, ?_, c2.count⟩, hc⟩
        · intro d hd
          obtain ⟨i, hi⟩ := List.getElem?_of_mem hd
          have hlt : i < o'.infoVec.length := by rw [c2.optLen]; exact (List.getElem?_eq_some_iff.mp hi).1
          obtain ⟨_, _, _, _, p5, _⟩ := c2.opts i d _ hi (List.getElem?_eq_getElem hlt)
          rw [p5]; rfl
        · intro i d v hi hv
          have hlt : i < o'.paramVec.length := by rw [c2.paramLen]; exact (List.getElem?_eq_some_iff.mp hi).1
          obtain ⟨_, _, p5, _⟩ := c2.params i d _ hi (List.getElem?_eq_getElem hlt)
          rw [hv] at p5
          simp only [Option.toList_some, feed] at p5
          split at p5
          · rename_i h; exact h
          · cases p5
      · rintro ⟨items', r', d1, _, d3⟩
        obtain ⟨rfl, rfl⟩ := cmd_unique c1 d1
        exact d3
    · intro _ items' r' hr
      obtain ⟨rfl, rfl⟩ := cmd_unique c1 hr
      refine ⟨⟨?_, ?_, ?_, c2.noRest, ⟨c2.optLen, c2.paramLen⟩, c2.count⟩, c3⟩
      · intro i d hi
        have hlt : i < o'.infoVec.length := by rw [c2.optLen]; exact (List.getElem?_eq_some_iff.mp hi).1
        exact ⟨_, List.getElem?_eq_getElem hlt, (c2.opts i d _ hi (List.getElem?_eq_getElem hlt)).2.2.2.2⟩
      · intro i d hi
        have hlt : i < o'.paramVec.length := by rw [c2.paramLen]; exact (List.getElem?_eq_some_iff.mp hi).1
        exact ⟨_, List.getElem?_eq_getElem hlt, (c2.params i d _ hi (List.getElem?_eq_getElem hlt)).2.2⟩
      · intro d hd
        obtain ⟨info, r1, _, _, r4⟩ := c2.rest d hd
        exact ⟨info, r1, r4⟩

/-- C36: the parts of a reading, written one after the other, are the arguments up to the delimiter: every argument belongs to exactly one
part, in order.  And there is one reading only. -/
theorem C36_reading {α : Type} (rs : List (Reg α)) (args : List (List UInt8)) (items : List Item) (r : _root_.Option (List (List UInt8))) (h : Reads rs args items r) :
    ((r = none ∧ args = items.flatMap Item.render) ∨ (∃ d t, r = some t ∧ d ∈ delimsOf rs ∧ args = items.flatMap Item.render ++ d :: t)) ∧
    ∀ items' r', Reads rs args items' r' → items' = items ∧ r' = r :=
  ⟨cmd_render h, fun _ _ h' => cmd_unique h' h⟩

theorem not_true_false {b : _root_.Option Bool} {p : Prop} (h : b = none → p) (h2 : b ≠ some true) : b ≠ some true ∧ (¬ p → b = some false) := by
  refine ⟨h2, fun hp => ?_⟩
  match b with
  | none => exact absurd (h rfl) hp
  | some true => exact absurd rfl h2
  | some false => rfl

/-- C36: a missing required option makes `parse` not return `true`: the option's name does not occur among the parts read. -/
theorem C36_missing_option {α : Type} (rs : List (Reg α)) (o : Verif.Opt.Option α) (ho : Option.new.regs rs = .ok o) (argv : List (List UInt8)) (h2 : 1 ≤ argv.length)
    (d : OptDecl α) (hd : d ∈ optsOf rs) (hm : d.must = true) (hno : 45 :: d.name ∉ argv.tail) :
    ∃ b o', o.parse argv = .ok (b, o') ∧ b ≠ some true ∧ (45 :: helpOf rs ∉ argv → b = some false) := by
  obtain ⟨b, o', p1, p2, _, p4⟩ := C36_parse rs o ho argv 1 false h2 h2 (fun _ => Nat.le_refl 1)
  refine ⟨b, o', p1, ?_⟩
  apply not_true_false p4
  intro hb
  obtain ⟨items, r, c1, _, c3, _⟩ := p2.mp hb
  have hv := c3 d hd hm
  apply hno
  have hmem : ∀ a, a ∈ items.flatMap Item.render → a ∈ argv.tail := by
    intro a ha
    rw [← List.drop_one]
    rcases cmd_render c1 with ⟨_, e⟩ | ⟨d, t, _, _, e⟩
    · rw [e]; exact ha
    · rw [e]; exact List.mem_append_left _ ha
  apply hmem
  rw [List.mem_flatMap]
  obtain ⟨v, hv⟩ := List.exists_mem_of_ne_nil _ hv
  rw [valuesOf, List.mem_flatMap] at hv
  obtain ⟨it, hit, hv⟩ := hv
  refine ⟨it, hit, ?_⟩
  cases it with
  | pos _ => simp at hv
  | flag n => simp only at hv; split at hv <;> simp_all [Item.render]
  | one n x => simp only at hv; split at hv <;> simp_all [Item.render]
  | many n vs => simp only at hv; split at hv <;> simp_all [Item.render]

/-- C36: an unknown option after any readable arguments makes `parse` not return `true`. -/
theorem C36_unknown {α : Type} (rs : List (Reg α)) (o : Verif.Opt.Option α) (ho : Option.new.regs rs = .ok o) (argv : List (List UInt8)) (h2 : 1 ≤ argv.length)
    (pre : List (List UInt8)) (items : List Item) (hpre : Reads rs pre items none) (n : List UInt8) (rest : List (List UInt8))
    (hargs : argv.tail = pre ++ (45 :: n) :: rest) (hopt : OptText (45 :: n)) (hnd : 45 :: n ∉ delimsOf rs) (hun : ∀ d ∈ optsOf rs, d.name ≠ n) :
    ∃ b o', o.parse argv = .ok (b, o') ∧ b ≠ some true ∧ (45 :: helpOf rs ∉ argv → b = some false) := by
  obtain ⟨b, o', p1, p2, _, p4⟩ := C36_parse rs o ho argv 1 false h2 h2 (fun _ => Nat.le_refl 1)
  refine ⟨b, o', p1, ?_⟩
  apply not_true_false p4
  intro hb
  obtain ⟨its, r, c1, acc⟩ := p2.mp hb
  rw [List.drop_one, hargs] at c1
  clear acc
  clear hargs p2 p1
  have hmn : modeIn (optsOf rs) n = none := by
    rw [modeIn, Option.map_eq_none_iff, List.find?_eq_none]
    intro d hd
    simpa using hun d hd
  generalize hz : (none : _root_.Option (List (List UInt8))) = z at hpre
  induction hpre generalizing its r with
  | nil => obtain ⟨_, ⟨hm, _⟩ | ⟨hm, _⟩ | ⟨hm, _⟩⟩ := cmd_inv_opt c1 hnd hopt <;> (rw [hmn] at hm; cases hm)
  | delim => cases hz
  | flag k t items z hd ho hh hm h ih =>
    obtain ⟨_, ⟨_, items', _, hc⟩ | ⟨hm', _⟩ | ⟨hm', _⟩⟩ := cmd_inv_opt c1 hd ho
    · exact ih _ _ hc hz
    · rw [hm] at hm'; cases hm'
    · rw [hm] at hm'; cases hm'
  | one k v t items z hd ho hh hm h ih =>
    obtain ⟨_, ⟨hm', _⟩ | ⟨_, v', t', items', e0, _, hc⟩ | ⟨hm', _⟩⟩ := cmd_inv_opt c1 hd ho
    · rw [hm] at hm'; cases hm'
    · injection e0 with e0 e0'
      subst e0'
      exact ih _ _ hc hz
    · rw [hm] at hm'; cases hm'
  | many k vs t items z hd ho hh hm hv hvs hr h ih =>
    obtain ⟨_, ⟨hm', _⟩ | ⟨hm', _⟩ | ⟨_, vs', t', items', e0, _, hvs', hr', _, hc⟩⟩ := cmd_inv_opt c1 hd ho
    · rw [hm] at hm'; cases hm'
    · rw [hm] at hm'; cases hm'
    · have e0 : vs ++ (t ++ (45 :: n) :: rest) = vs' ++ t' := by rw [← List.append_assoc]; exact e0
      obtain ⟨_, e2⟩ := split_unique e0 hvs hvs' (by
        intro a ha
        cases t with
        | nil => simp only [List.nil_append, List.head?_cons, Option.some.injEq] at ha; exact ha ▸ hopt
        | cons x t => simp only [List.cons_append, List.head?_cons, Option.some.injEq] at ha; exact hr a (by simp [ha])) hr'
      subst e2
      exact ih _ _ hc hz
  | pos v t items z hd ho h ih =>
    obtain ⟨items', _, hc⟩ := cmd_inv_pos c1 hd ho
    exact ih _ _ hc hz

/-- A holder for `std::vector<std::string>`, which accepts everything, and one for numbers below ten. -/
def strStep (st : List (List UInt8)) (s : List UInt8) : Bool × List (List UInt8) := (true, st ++ [s])

/-- A holder for a digit. -/
def digStep (st : List (List UInt8)) (s : List UInt8) : Bool × List (List UInt8) :=
  if s.length = 1 ∧ s.all (fun c => 48 ≤ c ∧ c ≤ 57) then (true, [s]) else (false, st)

/-- `-n` must, `-v` list, one parameter, and the arguments `-v a b -n 5 x`. -/
example : ∃ o o', Option.new.regs [.opt [] digStep .is1 true [110], .opt [] strStep .any false [118], .param [] strStep [102]] = .ok o ∧
    o.parse [[], [45, 118], [97], [98], [45, 110], [53], [120]] = .ok (some true, o') ∧
    o'.infoVec.map (·.var.st) = [[[53]], [[97], [98]]] ∧ o'.paramVec.map (·.var.st) = [[[120]]] :=
  ⟨_, _, rfl, rfl, rfl, rfl⟩

/-- C36: declarations are accepted iff every one of them fits those before it; otherwise there is an exception.  A new object says
that no delimiter position is known (-1), and the vector for the arguments after a delimiter is that of the last `setDelimiter`. -/
theorem C36_declarations {α : Type} (rs : List (Reg α)) :
    (Declarable rs → ∃ o, Option.new.regs rs = .ok o ∧ o.nextDelimiter = -1 ∧ o.remainsAfter = remainOf rs) ∧
    (¬ Declarable rs → Option.new.regs rs = .throw) := by
  have := regs_known rs [] Option.new Known.new
  simp only [List.nil_append] at this
  rcases this with ⟨h1, o, h2, h3⟩ | ⟨h1, h2⟩
  · exact ⟨fun _ => ⟨o, h2, h3.delim, h3.remain⟩, fun h => absurd h1 h⟩
  · exact ⟨fun h => absurd h h1, fun _ => h2⟩

/-- The declarations of a usual program are accepted; a name like `9`, a name used twice, or two lists of remaining values are not. -/
example : ∃ o, (Option.new (α := List (List UInt8))).regs [.opt [] strStep .is1 true [97], .param [] strStep [102], .paramVec [] strStep [103], .help [104]] = .ok o := ⟨_, rfl⟩
example : (Option.new (α := List (List UInt8))).regs [.opt [] strStep .is1 true [57]] = .throw ∧
    (Option.new (α := List (List UInt8))).regs [.opt [] strStep .is1 true [97], .opt [] strStep .is0 true [97]] = .throw ∧
    (Option.new (α := List (List UInt8))).regs [.paramVec [] strStep [97], .paramVec [] strStep [98]] = .throw := ⟨rfl, rfl, rfl⟩

/-- Whether `parse` returned true, returned false, or ended the program. -/
def answer {α : Type} (r : Res (_root_.Option Bool × Verif.Opt.Option α)) : Res (_root_.Option Bool) := r.bind fun x => .ok x.1

/-- C36, finding: without a help option, the argument "-" ends the program (the empty help name is taken for one). -/
theorem C36_dash_exits : ∃ o, (Option.new (α := List (List UInt8))).regs [.param [] strStep [102]] = .ok o ∧ answer (o.parse [[], [45]]) = .ok none :=
  ⟨_, rfl, rfl⟩

/-- C36, finding: values refused by `appendParamVec`'s type are dropped and `parse` still returns true: "abc" for a list of digits. -/
theorem C36_bad_rest_ignored : ∃ o, (Option.new (α := List (List UInt8))).regs [.paramVec [] digStep [102]] = .ok o ∧ answer (o.parse [[], [97, 98, 99]]) = .ok (some true) :=
  ⟨_, rfl, rfl⟩

/-- C36, finding: a delimiter that does not look like an option is swallowed by a list option: `-v a end b` with the delimiter `end`. -/
theorem C36_delimiter_swallowed :
    ∃ o o', (Option.new (α := List (List UInt8))).regs [.opt [] strStep .any false [118], .setDelimiter [101, 110, 100] none] = .ok o ∧
    o.parse [[], [45, 118], [97], [101, 110, 100], [98]] = .ok (some true, o') ∧ o'.infoVec.map (·.var.st) = [[[97], [101, 110, 100], [98]]] ∧ o'.nextDelimiter = 5 :=
  ⟨_, _, rfl, rfl, rfl, rfl⟩

#print axioms C35_convert_partial
#print axioms C35_convert_unsigned
#print axioms C35_unit
#print axioms C36_parse
#print axioms C36_reading
#print axioms C36_declarations
#print axioms C36_missing_option
#print axioms C36_unknown

end Verif.Props.Option
