import Verif.Model.SocketSmpl
import Verif.Spec.SocketSmpl
import Verif.Props.Option
import Verif.Props.SocketSetup
set_option linter.unusedSimpArgs false

/-! # C117: the socket sample -/
namespace Verif.Props.SocketSmpl
open Verif Verif.SocketSmpl Verif.Spec.SocketSmpl Verif.Opt
open Verif.Spec.Opt hiding Str Fits
open Verif.Spec.Numeral (MinThenMore)
open Verif.Props.Option (Reads C36_parse)

/-- A text `convertInt` reads right (C35): no zero byte, not the minimum of `int` followed by more (a finding of C05). -/
def Plain (s : Str) : Prop := 0 ∉ s ∧ s.length < 2 ^ 64 - 1 ∧ ¬ MinThenMore (2 ^ 31) s

theorem plain_one : Plain [49] := by
  refine ⟨by simp, by simp, ?_⟩
  rintro ⟨_, _, _, _, h, _⟩
  simp at h

theorem setInt_spec {ty : IntTy} {signed : Bool} (hv : ty.Valid signed) (x : Int) (s : Str) (h0 : 0 ∉ s) (hl : s.length < 2 ^ 64 - 1)
    (hb : ¬ Bad ty s) :
    (optValue signed ty.lo ty.hi s = none → (setInt ty (.int x) s).1 = false) ∧
    (∀ v, optValue signed ty.lo ty.hi s = some v → setInt ty (.int x) s = (true, .int v)) := by
  obtain ⟨x', h1, h2, _⟩ := convertInt_spec hv x s [] h0 hl (fun _ => hb)
  refine ⟨fun h => ?_, fun v h => ?_⟩
  · simp [setInt, h1, h]
  · simp [setInt, h1, h, h2 v h]

theorem feed_int {ty : IntTy} {signed : Bool} (hv : ty.Valid signed) (vs : List Str)
    (h : ∀ s ∈ vs, 0 ∉ s ∧ s.length < 2 ^ 64 - 1 ∧ ¬ Bad ty s) (x : Int) :
    feed (setInt ty) (.int x) vs = (lastNumber signed ty.lo ty.hi x vs).map .int := by
  induction vs generalizing x with
  | nil => rfl
  | cons s vs ih =>
    obtain ⟨h0, hl, hb⟩ := h s (by simp)
    obtain ⟨a1, a2⟩ := setInt_spec hv x s h0 hl hb
    rw [feed, lastNumber]
    cases ho : optValue signed ty.lo ty.hi s with
    | none => simp [a1 ho]
    | some v =>
      rw [a2 v ho]
      simp only [if_true]
      exact ih (fun s hs => h s (by simp [hs])) v

theorem feed_text (vs : List Str) (x : Str) : feed setText (.text x) vs = some (.text (vs.getLast?.getD x)) := by
  induction vs generalizing x with
  | nil => rfl
  | cons s vs ih =>
    rw [feed]
    simp only [setText, if_true]
    rw [ih]
    cases vs with
    | nil => rfl
    | cons a b => rw [List.getLast?_cons_cons]; simp [List.getLast?_eq_some_getLast]

theorem feed_flag (vs : List Str) (b : Bool) : feed setFlag (.flag b) vs = some (.flag (b || !vs.isEmpty)) := by
  induction vs generalizing b with
  | nil => simp [feed]
  | cons s vs ih =>
    rw [feed]
    simp only [setFlag, if_true]
    rw [ih]
    simp

theorem modes : modeIn (optsOf (regs 3)) = options := by
  funext n
  simp only [modeIn, optsOf, regs, List.filterMap_cons, List.filterMap_nil, List.find?_cons, options, sIp, List.find?_nil]
  by_cases h1 : n = [105, 112]
  · subst h1; rfl
  by_cases h2 : n = [118]
  · subst h2; rfl
  by_cases h3 : n = [109]
  · subst h3; rfl
  by_cases h4 : n = [112]
  · subst h4; rfl
  by_cases h5 : n = [116]
  · subst h5; rfl
  simp [h1, h2, h3, h4, h5, Ne.symm h1, Ne.symm h2, Ne.symm h3, Ne.symm h4, Ne.symm h5]

theorem reads_iff (args : List Str) (items : List Item) (r : _root_.Option (List Str)) :
    Reads (regs 3) args items r ↔ Cmd options [] [] args items r := by
  rw [Reads, modes]
  rfl

theorem no_rest {args : List Str} {items : List Item} {r : _root_.Option (List Str)} (h : Cmd options [] [] args items r) : r = none := by
  induction h with
  | nil => rfl
  | delim d rest h => cases h
  | flag _ _ _ _ _ _ _ _ _ ih => exact ih
  | one _ _ _ _ _ _ _ _ _ _ ih => exact ih
  | many _ _ _ _ _ _ _ _ _ _ _ _ _ ih => exact ih
  | pos _ _ _ _ _ _ _ ih => exact ih

theorem values_mem (n : Str) (items : List Item) (s : Str) (h : s ∈ valuesOf n items) : s = [49] ∨ s ∈ items.flatMap Item.render := by
  rw [valuesOf, List.mem_flatMap] at h
  obtain ⟨it, h1, h2⟩ := h
  cases it with
  | flag m => simp only at h2; split at h2 <;> simp_all
  | one m v =>
    simp only at h2
    split at h2
    · refine .inr (List.mem_flatMap.mpr ⟨_, h1, ?_⟩)
      simp at h2
      simp [Item.render, h2]
    · cases h2
  | many m vs =>
    simp only at h2
    split at h2
    · exact .inr (List.mem_flatMap.mpr ⟨_, h1, by simp [Item.render, h2]⟩)
    · cases h2
  | pos v => cases h2

theorem bad_u (s : Str) : ¬ Bad (.u Atoi.uint16) s := by
  rintro ⟨_, _, h, _⟩
  cases h

theorem bad_s {s : Str} (h : ¬ MinThenMore (2 ^ 31) s) : ¬ Bad (.s Atoi.sint32) s := by
  rintro ⟨t, W, h1, h2, h3⟩
  cases h1
  simp only [Numeral.signedTypes, List.mem_cons, List.not_mem_nil, or_false, Prod.mk.injEq] at h2
  rcases h2 with ⟨h2, _⟩ | ⟨h2, _⟩ | ⟨_, rfl⟩ | ⟨h2, _⟩
  · exact absurd (congrArg (·.hi) h2) (by decide)
  · exact absurd (congrArg (·.hi) h2) (by decide)
  · exact h h3
  · exact absurd (congrArg (·.hi) h2) (by decide)

theorem valid_s : IntTy.Valid (.s Atoi.sint32) true := .s _ (2 ^ 31) (by simp [Numeral.signedTypes])
theorem valid_u : IntTy.Valid (.u Atoi.uint16) false := .u _ (by simp)

/-- The whole of `main` is one parse with the declarations, the default of `-m` being both families. -/
theorem main_parse : ∃ o, Option.new.regs (regs 3) = .ok o ∧ ∀ argv, main argv = parseArgs o argv :=
  ⟨_, rfl, fun _ => rfl⟩

theorem main_spec (argv : List Str) (h1 : argv ≠ []) (hp : ∀ a ∈ argv.tail, Plain a) :
    (∃ items m p t, Parts argv.tail items ∧ Numbers items m p t ∧
      main argv = (toMsec t).bind fun ms => .ok (.run ⟨(valuesOf [105, 112] items).getLast?.getD [], !(valuesOf [118] items).isEmpty,
        m, p, ms, (positionals items)[0]?.getD sCmd⟩)) ∨
    ((∀ items m p t, Parts argv.tail items → ¬ Numbers items m p t) ∧
      (main argv = .ok .usage ∨ main argv = .ok .help ∧ [45] ∈ argv)) := by
  obtain ⟨o, ho, hm⟩ := main_parse
  have hlen : 1 ≤ argv.length := by cases argv with | nil => exact absurd rfl h1 | cons => simp
  obtain ⟨b, o', p1, p2, p3, p4⟩ := C36_parse (regs 3) o ho argv 1 false hlen hlen (fun _ => Nat.le_refl 1)
  rw [List.drop_one] at p2 p3
  -- the feeds of the numbers
  have hfeed : ∀ items r, Reads (regs 3) argv.tail items r → ∀ n, ∀ s ∈ valuesOf n items, Plain s := by
    intro items r hr n s hs
    rcases values_mem n items s hs with rfl | h
    · exact plain_one
    · apply hp
      rcases cmd_render hr with ⟨_, e⟩ | ⟨d, t, _, _, e⟩
      · rw [e]; exact h
      · rw [e]; exact List.mem_append_left _ h
  have fm : ∀ items r, Reads (regs 3) argv.tail items r → ∀ n x, feed (setInt (.s Atoi.sint32)) (.int x) (valuesOf n items) =
      (lastNumber true (-2147483648) 2147483647 x (valuesOf n items)).map .int := fun items r hr n x =>
    feed_int valid_s _ (fun s hs => ⟨(hfeed items r hr n s hs).1, (hfeed items r hr n s hs).2.1, bad_s (hfeed items r hr n s hs).2.2⟩) x
  have fp : ∀ items r, Reads (regs 3) argv.tail items r → ∀ n x, feed (setInt (.u Atoi.uint16)) (.int x) (valuesOf n items) =
      (lastNumber false 0 65535 x (valuesOf n items)).map .int := fun items r hr n x =>
    feed_int valid_u _ (fun s hs => ⟨(hfeed items r hr n s hs).1, (hfeed items r hr n s hs).2.1, bad_u s⟩) x
  rw [hm, parseArgs, p1, Res.ok_bind]
  simp only
  by_cases hb : b = some true
  · left
    obtain ⟨items, r, c1, c2, c3⟩ := p2.mp hb
    obtain ⟨st, _, _⟩ := p3 hb items r c1
    have hr := no_rest ((reads_iff _ _ _).mp c1)
    subst hr
    obtain ⟨i0, e0, f0, _⟩ := st.opts 0 _ rfl
    obtain ⟨i1, e1, f1, _⟩ := st.opts 1 _ rfl
    obtain ⟨i2, e2, f2, _⟩ := st.opts 2 _ rfl
    obtain ⟨i3, e3, f3, _⟩ := st.opts 3 _ rfl
    obtain ⟨i4, e4, f4, _⟩ := st.opts 4 _ rfl
    obtain ⟨j, ej, fj, _⟩ := st.params 0 _ rfl
    have f0' := (feed_text _ _).symm.trans f0
    have f1' := (feed_flag _ _).symm.trans f1
    have fj' := (feed_text _ _).symm.trans fj
    have f2' := (fm _ _ c1 _ _).symm.trans f2
    have f4' := (fm _ _ c1 _ _).symm.trans f4
    have f3' := (fp _ _ c1 _ _).symm.trans f3
    simp only [Option.some.injEq, Option.map_eq_some_iff] at f0' f1' f2' f3' f4' fj'
    obtain ⟨m, m1, m2⟩ := f2'
    obtain ⟨p, q1, q2⟩ := f3'
    obtain ⟨t, t1, t2⟩ := f4'
    refine ⟨items, m, p, t, ⟨(reads_iff _ _ _).mp c1, st.count rfl⟩, ⟨m1, q1, t1⟩, ?_⟩
    have aux : ∀ {β : Type} {l : List β} {i : Nat} {x : β}, l[i]? = some x → at? l i = .ok x := by
      intro β l i x h
      simp [at?, h]
    rw [hb]
    simp only
    rw [config, aux e0, aux e1, aux e2, aux e3, aux e4, aux ej]
    simp only [Res.ok_bind, ← f0', ← f1', ← m2, ← q2, ← t2, ← fj', bind_assoc, Res.pure_eq, Bool.false_or]
    have : (positionals items)[0]?.toList.getLast?.getD sCmd = (positionals items)[0]?.getD sCmd := by
      cases (positionals items)[0]? <;> rfl
    rw [this]
    rfl
  · right
    constructor
    · rintro items m p t ⟨hc, hcount⟩ ⟨n1, n2, n3⟩
      apply hb
      have c1 := (reads_iff _ _ _).mpr hc
      rw [p2]
      refine ⟨items, none, c1, ⟨?_, ?_, fun _ => hcount⟩, ?_, ?_⟩
      · intro d hd
        simp only [optsOf, regs, List.filterMap_cons, List.filterMap_nil, List.mem_cons, List.not_mem_nil, or_false] at hd
        rcases hd with rfl | rfl | rfl | rfl | rfl
        · simp only [feed_text]; rfl
        · simp only [feed_flag]; rfl
        · simp only [fm _ _ c1, n1]; rfl
        · simp only [fp _ _ c1, n2]; rfl
        · simp only [fm _ _ c1, n3]; rfl
      · intro i d v hd hv
        match i with
        | 0 =>
          obtain rfl : _ = d := Option.some.inj hd
          rfl
        | i + 1 => exact absurd hd (by simp [paramsOf, regs])
      · intro d hd hm
        simp only [optsOf, regs, List.filterMap_cons, List.filterMap_nil, List.mem_cons, List.not_mem_nil, or_false] at hd
        rcases hd with rfl | rfl | rfl | rfl | rfl <;> cases hm
      · intro i d hd hm
        match i with
        | 0 =>
          obtain rfl : _ = d := Option.some.inj hd
          cases hm
        | i + 1 => exact absurd hd (by simp [paramsOf, regs])
    · match b, p4, hb with
      | none, p4, _ => exact .inr ⟨rfl, p4 rfl⟩
      | some false, _, _ => exact .inl rfl
      | some true, _, hb => exact absurd rfl hb

theorem unique {args : List Str} {items items' : List Item} (h : Parts args items) (h' : Parts args items') : items = items' :=
  (cmd_unique h.1 h'.1).1

theorem numbers_unique {items : List Item} {m p t m' p' t' : Int} (h : Numbers items m p t) (h' : Numbers items m' p' t') :
    m = m' ∧ p = p' ∧ t = t' := by
  obtain ⟨a, b, c⟩ := h
  obtain ⟨a', b', c'⟩ := h'
  exact ⟨Option.some.inj (a.symm.trans a'), Option.some.inj (b.symm.trans b'), Option.some.inj (c.symm.trans c')⟩

/-- The program begins its work exactly for the command lines made of options with numbers of their ranges and at most one text, with a
time limit that fits; it then works with the last value of each option, or the default. -/
theorem C117_run (argv : List Str) (h1 : argv ≠ []) (hp : ∀ a ∈ argv.tail, Plain a) (c : Config) :
    main argv = .ok (.run c) ↔ ∃ items sec, Parts argv.tail items ∧ Numbers items c.mode c.port sec ∧ Fits sec ∧
      c.timeoutMsec = sec * 1000 ∧ c.ip = (valuesOf [105, 112] items).getLast?.getD [] ∧
      (c.verbose = true ↔ valuesOf [118] items ≠ []) ∧ c.cmd = (positionals items)[0]?.getD [99, 109, 100] := by
  rcases main_spec argv h1 hp with ⟨items, m, p, t, a1, a2, a3⟩ | ⟨a1, a2⟩
  · rw [a3]
    constructor
    · intro h
      rw [toMsec] at h
      split at h
      · rename_i hf
        obtain rfl := Outcome.run.inj (Res.ok.inj h)
        refine ⟨items, t, a1, a2, hf, rfl, rfl, ?_, rfl⟩
        cases valuesOf [118] items <;> simp
      · cases h
    · rintro ⟨items', sec, b1, b2, b3, b4, b5, b6, b7⟩
      obtain rfl := unique a1 b1
      obtain ⟨e1, e2, e3⟩ := numbers_unique a2 b2
      subst e3
      rw [toMsec, if_pos (show -2147483648 ≤ t * 1000 ∧ t * 1000 ≤ 2147483647 from b3)]
      obtain ⟨ip, v, cm, cp, ms, cmd⟩ := c
      simp only at e1 e2 b4 b5 b6 b7
      subst e1 e2 b4 b5 b7
      have : v = !(valuesOf [118] items).isEmpty := by
        cases v <;> cases h : valuesOf [118] items <;> simp_all
      subst this
      rfl
  · constructor
    · intro h
      rcases a2 with a2 | ⟨a2, _⟩ <;> rw [a2] at h <;> cases h
    · rintro ⟨items', sec, b1, b2, _⟩
      exact absurd b2 (a1 _ _ _ _ b1)

/-- Otherwise the usage or the help is printed, or the time limit overflows; "bad mode" is never said. -/
theorem C117_else (argv : List Str) (h1 : argv ≠ []) (hp : ∀ a ∈ argv.tail, Plain a) :
    (∃ c, main argv = .ok (.run c)) ∨ main argv = .ok .usage ∨ (main argv = .ok .help ∧ [45] ∈ argv) ∨
      (main argv = .ub ∧ ∃ items m p sec, Parts argv.tail items ∧ Numbers items m p sec ∧ ¬ Fits sec) := by
  rcases main_spec argv h1 hp with ⟨items, m, p, t, a1, a2, a3⟩ | ⟨a1, a2 | a2⟩
  · rw [a3, toMsec]
    split
    · exact .inl ⟨_, rfl⟩
    · rename_i h
      exact .inr (.inr (.inr ⟨rfl, items, m, p, t, a1, a2, h⟩))
  · exact .inr (.inl a2)
  · exact .inr (.inr (.inl a2))

theorem ofInt_port {p : Int} (h0 : 0 ≤ p) (h1 : p ≤ 65535) : (BitVec.ofInt 16 p).toNat = p.toNat := by
  rw [BitVec.toNat_ofInt]
  congr 1
  exact Int.emod_eq_of_lt h0 (by omega)

/-- With no `-m` the server listens for both families, with `-m 4` for IPv4 and with `-m 6` for IPv6, at its port. -/
theorem C117_listens (c : Config) (a : SocketSetup.Srv) (h0 : 0 ≤ c.port) (h1 : c.port ≤ 65535) (h : (serve c a).1 = true) :
    (c.mode = 3 → (serve c a).2.2 = listening .both c.port.toNat) ∧
    (∀ m, m ≠ 0 → ∀ f, documented m = some f → c.mode = m → (serve c a).2.2 = listening f c.port.toNat) := by
  obtain ⟨fd, _, _, b1, b2⟩ := SocketSetup.C80_bind_partial _ _ _ h
  rw [ofInt_port h0 h1] at b1 b2
  refine ⟨?_, ?_⟩
  · intro hm
    rw [hm] at b1
    rw [serve, hm, b1 (by decide)]
    rfl
  · intro m hm0 f hf hm
    rw [documented.eq_def] at hf
    split at hf
    · exact absurd rfl hm0
    · cases hf
      rw [hm] at b2
      rw [serve, hm, b2 (by decide)]
      rfl
    · cases hf
      rw [hm] at b1
      rw [serve, hm, b1 (by decide)]
      rfl
    · cases hf

/-- Finding: `-m 0` is documented as both families, but the value goes to `bind` as it is: the server listens for IPv4 only. -/
theorem C117_finding_mode0 (c : Config) (a : SocketSetup.Srv) (h0 : 0 ≤ c.port) (h1 : c.port ≤ 65535) (h : (serve c a).1 = true)
    (hm : c.mode = 0) :
    documented 0 = some .both ∧ (serve c a).2.2 = listening .v4 c.port.toNat ∧ (serve c a).2.2 ≠ listening .both c.port.toNat := by
  obtain ⟨fd, _, _, _, b2⟩ := SocketSetup.C80_bind_partial _ _ _ h
  rw [ofInt_port h0 h1, hm] at b2
  have : (serve c a).2.2 = listening .v4 c.port.toNat := by
    rw [serve, hm, b2 (by decide)]
    rfl
  refine ⟨rfl, this, ?_⟩
  rw [this]
  simp [listening]

/-- The `switch` is right and only stands in the wrong place: with the value it gives for a documented mode, the server listens for the
documented family. -/
theorem C117_switch (m : Int) (f : Family) (hf : documented m = some f) :
    ∃ k, switchMode m = some k ∧ ∀ (c : Config) (a : SocketSetup.Srv), c.mode = k → 0 ≤ c.port → c.port ≤ 65535 → (serve c a).1 = true →
      (serve c a).2.2 = listening f c.port.toNat := by
  have v6 : ∀ (c : Config) (a : SocketSetup.Srv) (_ : 0 ≤ c.port) (_ : c.port ≤ 65535) (_ : (serve c a).1 = true), c.mode = 3 →
      (serve c a).2.2 = listening .both c.port.toNat := fun c a h0 h1 h => (C117_listens c a h0 h1 h).1
  rw [documented.eq_def] at hf
  split at hf
  · cases hf
    exact ⟨3, rfl, fun c a hm h0 h1 h => v6 c a h0 h1 h hm⟩
  · cases hf
    refine ⟨1, rfl, fun c a hm h0 h1 h => ?_⟩
    obtain ⟨fd, _, _, b1, b2⟩ := SocketSetup.C80_bind_partial _ _ _ h
    rw [ofInt_port h0 h1, hm] at b2
    rw [serve, hm, b2 (by decide)]
    rfl
  · cases hf
    refine ⟨2, rfl, fun c a hm h0 h1 h => ?_⟩
    obtain ⟨fd, _, _, b1, b2⟩ := SocketSetup.C80_bind_partial _ _ _ h
    rw [ofInt_port h0 h1, hm] at b1
    rw [serve, hm, b1 (by decide)]
    rfl
  · cases hf

/-- Finding: a mode that is not documented is not refused: `-m 5` begins to work. -/
theorem C117_finding_bad_mode : documented 5 = none ∧
    main [[], [45, 109], [53]] = .ok (.run ⟨[], false, 5, 50000, 5000, sCmd⟩) ∧ switchMode 5 = none := ⟨rfl, by decide +kernel, rfl⟩

/-- Finding: the multiplication of the time limit by 1000 overflows for more than 2147483 seconds. -/
theorem C117_finding_overflow (argv : List Str) (h1 : argv ≠ []) (hp : ∀ a ∈ argv.tail, Plain a) (items : List Item) (m p sec : Int)
    (hi : Parts argv.tail items) (hn : Numbers items m p sec) (hs : 2147483 < sec) : main argv = .ub := by
  rcases main_spec argv h1 hp with ⟨items', m', p', t', a1, a2, a3⟩ | ⟨a1, a2⟩
  · obtain rfl := unique hi a1
    obtain ⟨_, _, rfl⟩ := numbers_unique hn a2
    rw [a3, toMsec, if_neg (by omega)]
    rfl
  · exact absurd hn (a1 _ _ _ _ hi)

/-- Finding: a client without text sends "cmd": that is the default value, and the name of the parameter is the help text. -/
theorem C117_finding_default : main [[], [45, 105, 112], [58, 58, 49]] = .ok (.run ⟨[58, 58, 49], false, 3, 50000, 5000, [99, 109, 100]⟩) := by
  decide +kernel

/-- The hypotheses hold: `-ip ::1 -p 80 hi`; and `-t 2147484` overflows. -/
example : main [[], [45, 105, 112], [58, 58, 49], [45, 112], [56, 48], [104, 105]] =
    .ok (.run ⟨[58, 58, 49], false, 3, 80, 5000, [104, 105]⟩) := by decide +kernel
example : main [[], [45, 116], [50, 49, 52, 55, 52, 56, 52]] = .ub := by decide +kernel
example : Plain [56, 48] := ⟨by decide, by decide, by rintro ⟨_, _, _, _, h, _⟩; simp at h⟩
example : Parts [[45, 112], [56, 48], [104, 105]] [.one [112] [56, 48], .pos [104, 105]] := by
  refine ⟨.one _ _ _ _ _ (by simp) ⟨_, rfl, ?_⟩ (by simp) (by decide) (.pos _ _ _ _ (by simp) ?_ .nil), by decide⟩
  · intro c hc
    obtain rfl := Option.some.inj hc
    decide
  · rintro ⟨_, h, _⟩
    simp at h
example : Numbers [.one [112] [56, 48], .pos [104, 105]] 3 80 5 := ⟨by decide +kernel, by decide +kernel, by decide +kernel⟩
example : (serve ⟨[], false, 3, 80, 5000, []⟩ ⟨some 3, true, true, true, true⟩).1 = true := by decide +kernel

#print axioms C117_run
#print axioms C117_else
#print axioms C117_listens
#print axioms C117_finding_mode0
#print axioms C117_finding_bad_mode
#print axioms C117_finding_overflow
#print axioms C117_finding_default
#print axioms C117_switch
end Verif.Props.SocketSmpl
