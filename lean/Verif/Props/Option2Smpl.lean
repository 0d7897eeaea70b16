import Verif.Spec.Option2Smpl
import Verif.Proof.Option
set_option linter.unusedSimpArgs false

/-! # C116: options in two steps -/
namespace Verif.Props.Option2Smpl
open Verif Verif.Option2Smpl Verif.Spec.Option2Smpl Verif.Opt
open Verif.Spec.Opt (feed OptText)

variable {α : Type}

/-- An object with one option that takes a value. -/
def obj (step : α → Str → Bool × α) (name : Str) (ds : List Str) (st : α) (set : Bool) (n : Int) : Opt.Option α :=
  { infoVec := [{ var := { st, isSet := set, step }, mode := .is1, isMust := false, opt := name }]
    paramVec := [], remains := none, optMap := [(name, 0)], paramMode := .exact, helpOpt := [104], delimiters := ds
    remainsAfter := none, nextDelimiter := n }

theorem pairs_cons (name v : Str) (vs : List Str) : pairs name (v :: vs) = (45 :: name) :: v :: pairs name vs := rfl

/-- The arguments are pairs, and maybe a delimiter and more. -/
def Split (step : α → Str → Bool × α) (name : Str) (ds : List Str) (st : α) (args : List Str) (vs : List Str) (st' : α)
    (tail : List Str) : Prop :=
  feed step st vs = some st' ∧ args = pairs name vs ++ tail ∧ ∀ a, tail.head? = some a → a ∈ ds

theorem loop (step : α → Str → Bool × α) (name : Str) (ds : List Str) (n : Int) (ho : OptText (45 :: name)) (hh : name ≠ [104])
    (hd : (45 :: name : Str) ∉ ds) : ∀ (m : Nat) (args : List Str) (fuel pos : Nat) (st : α) (set : Bool), args.length ≤ m →
    args.length < fuel →
    (∃ vs st' tail set', Split step name ds st args vs st' tail ∧
      argLoop fuel (obj step name ds st set n) pos args =
        .ok (.fin, obj step name ds st' set' (if tail = [] then n else pos + 2 * vs.length + 1))) ∨
    ((∀ vs st' tail, ¬ Split step name ds st args vs st' tail) ∧
      ∃ e o, e ≠ End.fin ∧ argLoop fuel (obj step name ds st set n) pos args = .ok (e, o)) := by
  intro m
  induction m with
  | zero =>
    intro args fuel pos st set hm hf
    obtain ⟨fuel, rfl⟩ : ∃ k, fuel = k + 1 := ⟨fuel - 1, by omega⟩
    obtain rfl : args = [] := List.length_eq_zero_iff.mp (by omega)
    exact .inl ⟨[], st, [], set, ⟨rfl, rfl, by simp⟩, rfl⟩
  | succ m ih =>
    intro args fuel pos st set hm hf
    obtain ⟨fuel, rfl⟩ : ∃ k, fuel = k + 1 := ⟨fuel - 1, by omega⟩
    match args, hm, hf with
    | [], _, _ => exact .inl ⟨[], st, [], set, ⟨rfl, rfl, by simp⟩, rfl⟩
    | a :: rest, hm, hf =>
      simp only [List.length_cons] at hm hf
      by_cases had : a ∈ ds
      · refine .inl ⟨[], st, a :: rest, set, ⟨rfl, rfl, by simpa using had⟩, ?_⟩
        rw [argLoop, if_pos (by simpa [obj] using had)]
        simp [obj]
      rw [argLoop, if_neg (by simpa [obj] using had)]
      -- no splitting begins with another word
      have hno : a ≠ 45 :: name → ∀ vs st' tail, ¬ Split step name ds st (a :: rest) vs st' tail := by
        intro hne vs st' tail ⟨_, h2, h3⟩
        match vs with
        | [] =>
          rw [show pairs name [] = [] from rfl, List.nil_append] at h2
          exact had (h3 a (by rw [← h2]; rfl))
        | v :: vs =>
          rw [pairs_cons] at h2
          simp at h2
          exact hne h2.1
      by_cases hopt : isOpt a = true
      · rw [if_pos hopt]
        obtain ⟨t, rfl, _⟩ := (isOpt_iff a).mp hopt
        by_cases ht : t = name
        · subst ht
          simp only [List.drop_one, List.tail_cons]
          rw [if_neg (by simpa [obj] using Ne.symm hh)]
          have hf1 : Config.mapFind (obj step t ds st set n).optMap t = some 0 := by simp [obj, Config.mapFind]
          simp only [hf1]
          have ha : at? (obj step t ds st set n).infoVec 0 = .ok { var := { st, isSet := set, step }, mode := .is1, isMust := false, opt := t } := rfl
          rw [ha, Res.ok_bind]
          simp only
          match rest, hm, hf, hno with
          | [], _, _, _ =>
            refine .inr ⟨?_, .err, _, by simp, rfl⟩
            intro vs st' tail ⟨_, h2, h3⟩
            match vs with
            | [] =>
              rw [show pairs t [] = [] from rfl, List.nil_append] at h2
              exact had (h3 _ (by rw [← h2]; rfl))
            | v :: vs => rw [pairs_cons] at h2; simp at h2
          | v :: rest, hm, hf, _ =>
            simp only [List.length_cons] at hm hf
            simp only [Var.set]
            have hcase : ∀ vs st' tail, Split step t ds st ((45 :: t) :: v :: rest) vs st' tail →
                ∃ vs1, vs = v :: vs1 ∧ (step st v).1 = true ∧ Split step t ds (step st v).2 rest vs1 st' tail := by
              intro vs st' tail ⟨h1, h2, h3⟩
              match vs with
              | [] =>
                rw [show pairs t [] = [] from rfl, List.nil_append] at h2
                exact absurd (h3 _ (by rw [← h2]; rfl)) had
              | w :: vs =>
                rw [pairs_cons] at h2
                simp only [List.cons_append, List.cons.injEq, true_and] at h2
                obtain ⟨rfl, h2⟩ := h2
                rw [feed] at h1
                split at h1
                · rename_i hb
                  exact ⟨vs, rfl, hb, h1, h2, h3⟩
                · cases h1
            by_cases hb : (step st v).1 = true
            · simp only [hb, if_true]
              have hput : (obj step t ds st set n).putVar 0 { var := { st, isSet := set, step }, mode := .is1, isMust := false, opt := t }
                  { st := (step st v).2, isSet := true, step } = obj step t ds (step st v).2 true n := rfl
              rw [hput]
              rcases ih rest fuel (pos + 2) (step st v).2 true (by omega) (by omega) with ⟨vs, st', tail, set', ⟨h1, h2, h3⟩, h4⟩ | ⟨h1, h2⟩
              · refine .inl ⟨v :: vs, st', tail, set', ⟨?_, ?_, h3⟩, ?_⟩
                · rw [feed, if_pos hb, h1]
                · rw [pairs_cons, h2]; rfl
                · rw [h4]
                  congr 3
                  split
                  · rfl
                  · simp only [List.length_cons]; omega
              · refine .inr ⟨fun vs st' tail hs => ?_, h2⟩
                obtain ⟨vs1, _, _, h⟩ := hcase vs st' tail hs
                exact h1 _ _ _ h
            · simp only [hb, if_false, Bool.false_eq_true]
              refine .inr ⟨fun vs st' tail hs => ?_, .err, _, by simp, rfl⟩
              obtain ⟨_, _, h, _⟩ := hcase vs st' tail hs
              exact hb h
        · refine .inr ⟨hno (by simpa using ht), ?_⟩
          simp only [List.drop_one, List.tail_cons]
          by_cases hx : (obj step name ds st set n).helpOpt = t
          · exact ⟨.exit, _, by simp, by rw [if_pos hx]⟩
          · rw [if_neg hx]
            have hf1 : Config.mapFind (obj step name ds st set n).optMap t = none := by simp [obj, Config.mapFind, Ne.symm ht]
            simp only [hf1]
            exact ⟨.err, _, by simp, rfl⟩
      · rw [if_neg hopt]
        refine .inr ⟨hno (fun e => hopt (by rw [e]; exact (isOpt_iff _).mpr ho)), .err, _, by simp, rfl⟩

theorem split_unique {step : α → Str → Bool × α} {name : Str} {ds : List Str} (hd : (45 :: name : Str) ∉ ds) :
    ∀ (vs vs' : List Str) (tail tail' : List Str), (∀ a, tail.head? = some a → a ∈ ds) → (∀ a, tail'.head? = some a → a ∈ ds) →
    pairs name vs ++ tail = pairs name vs' ++ tail' → vs = vs' ∧ tail = tail'
  | [], [], tail, tail', _, _, h => ⟨rfl, h⟩
  | v :: vs, [], tail, tail', _, h2, h => by
    rw [pairs_cons] at h
    exact absurd (h2 (45 :: name) (by rw [show tail' = pairs name [] ++ tail' from rfl, ← h]; rfl)) hd
  | [], v :: vs, tail, tail', h1, _, h => by
    rw [pairs_cons] at h
    exact absurd (h1 (45 :: name) (by rw [show tail = pairs name [] ++ tail from rfl, h]; rfl)) hd
  | v :: vs, w :: vs', tail, tail', h1, h2, h => by
    rw [pairs_cons, pairs_cons] at h
    simp only [List.cons_append, List.cons.injEq, true_and] at h
    obtain ⟨rfl, h⟩ := h
    obtain ⟨rfl, rfl⟩ := split_unique (step := step) hd vs vs' tail tail' h1 h2 h
    exact ⟨rfl, rfl⟩

theorem regs1_obj (c : Conv α) : Option.new.regs (regs1 c) = .ok (obj (c.step .int) [120] [sInit, sRun, sStatus] (c.dflt .int) false (-1)) := rfl

theorem regs2_obj (c : Conv α) {cmd : Str} {k : Kind} {name : Str} (h : command cmd = some (k, name)) :
    Option.new.regs (regs2 c k name) = .ok (obj (c.step k) name [] (c.dflt k) false (-1)) := by
  unfold command at h
  repeat' split at h
  all_goals first | (cases h; rfl) | cases h

theorem command_iff (cmd : Str) (k : Kind) (name : Str) : command cmd = some (k, name) ↔ Command cmd k name := by
  have e1 : "init".toUTF8.toList = sInit := by decide +kernel
  have e2 : "run".toUTF8.toList = sRun := by decide +kernel
  have e3 : "status".toUTF8.toList = sStatus := by decide +kernel
  have e4 : "s".toUTF8.toList = [115] := by decide +kernel
  have e5 : "d".toUTF8.toList = [100] := by decide +kernel
  have e6 : "c".toUTF8.toList = [99] := by decide +kernel
  constructor
  · intro h
    unfold command at h
    repeat' split at h
    · rename_i h'; cases h; rw [h', ← e1, ← e4]; exact .init
    · rename_i h'; cases h; rw [h', ← e2, ← e5]; exact .run
    · rename_i h'; cases h; rw [h', ← e3, ← e6]; exact .status
    · cases h
  · intro h
    cases h
    · rw [e1, e4]; rfl
    · rw [e2, e5]; rfl
    · rw [e3, e6]; rfl

theorem mem_cmds (a : Str) : a ∈ [sInit, sRun, sStatus] ↔ ∃ k name, Command a k name := by
  simp only [← command_iff]
  constructor
  · intro h
    simp only [List.mem_cons, List.not_mem_nil, or_false] at h
    rcases h with rfl | rfl | rfl
    · exact ⟨_, _, rfl⟩
    · exact ⟨_, _, rfl⟩
    · exact ⟨_, _, rfl⟩
  · rintro ⟨k, name, h⟩
    unfold command at h
    repeat' split at h
    all_goals first | (rename_i h'; rw [h']; simp) | cases h

theorem checks_obj (step : α → Str → Bool × α) (name : Str) (ds : List Str) (st : α) (set : Bool) (n : Int) :
    checks (obj step name ds st set n) = true := rfl

theorem name_ok {cmd : Str} {k : Kind} {name : Str} (h : command cmd = some (k, name)) : OptText (45 :: name) ∧ name ≠ [104] := by
  unfold command at h
  repeat' split at h
  all_goals first | (cases h; exact ⟨⟨_, rfl, by intro c hc; cases hc; decide⟩, by decide⟩) | cases h

theorem second_spec (c : Conv α) (argv : List Str) (pos : Nat) (x : α) {cmd : Str} {k : Kind} {name : Str}
    (h : command cmd = some (k, name)) (h1 : 1 ≤ pos) (h2 : pos ≤ argv.length) :
    (∃ ys y, argv.drop pos = pairs name ys ∧ Takes c k ys y ∧ second c argv pos x k name = .ok (.done k x y)) ∨
    ((∀ ys y, argv.drop pos = pairs name ys → ¬ Takes c k ys y) ∧
      (second c argv pos x k name = .ok .help ∨ second c argv pos x k name = .ok (.usage 2))) := by
  have hs : second c argv pos x k name = (do
      let (e, o) ← argLoop (argv.length + 1) (obj (c.step k) name [] (c.dflt k) false (argv.length : Nat)) pos (argv.drop pos)
      match e with
      | .exit => .ok .help
      | .err => .ok (.usage 2)
      | .fin => if checks o = false then .ok (.usage 2) else do
        let y ← at? o.infoVec 0
        .ok (.done k x y.var.st)) := by
    rw [second, regs2_obj c h, Res.ok_bind, Opt.Option.parse, if_neg (by omega), if_neg (by simp; omega)]
    have : ({ obj (c.step k) name [] (c.dflt k) false (-1) with nextDelimiter := (argv.length : Int) } : Opt.Option α)
        = obj (c.step k) name [] (c.dflt k) false (argv.length : Nat) := rfl
    rw [this]
    cases argLoop (argv.length + 1) (obj (c.step k) name [] (c.dflt k) false (argv.length : Nat)) pos (argv.drop pos) with
    | throw => rfl
    | ub => rfl
    | ok r =>
      obtain ⟨e, o⟩ := r
      simp only [Res.ok_bind]
      cases e
      · cases hc : checks o <;> simp [hc, Res.ok_bind, Res.pure_eq]
      · simp [Res.ok_bind, Res.pure_eq]
      · simp [Res.ok_bind, Res.pure_eq]
  obtain ⟨n1, n2⟩ := name_ok h
  rcases loop (c.step k) name [] (argv.length : Nat) n1 n2 (by simp) (argv.drop pos).length (argv.drop pos) (argv.length + 1) pos (c.dflt k)
    false (by omega) (by simp; omega) with ⟨vs, st', tail, set', ⟨a1, a2, a3⟩, a4⟩ | ⟨a1, e, o, a2, a3⟩
  · refine .inl ⟨vs, st', ?_, a1, ?_⟩
    · match tail, a3, a2 with
      | [], _, a2 => simpa using a2
      | t :: _, a3, _ => exact absurd (a3 t rfl) (by simp)
    · rw [hs, a4]
      rfl
  · refine .inr ⟨fun ys y e1 e2 => a1 ys y [] ⟨e2, by simpa using e1, by simp⟩, ?_⟩
    rw [hs, a3, Res.ok_bind]
    cases e with
    | fin => exact absurd rfl a2
    | err => exact .inr rfl
    | exit => exact .inl rfl

theorem main_spec (c : Conv α) (prog : Str) (args : List Str) :
    (∃ xs x tail, args = pairs [120] xs ++ tail ∧ Takes c .int xs x ∧ (∀ a, tail.head? = some a → a ∈ [sInit, sRun, sStatus]) ∧
      main c (prog :: args) = (do
        let cmd ← at? (prog :: args) (if tail = [] then args.length else 2 * xs.length + 1)
        match command cmd with
        | none => .ok (.usage 1)
        | some (k, name) => second c (prog :: args) (if tail = [] then args.length + 1 else 2 * xs.length + 2) x k name)) ∨
    ((∀ xs x tail, args = pairs [120] xs ++ tail → Takes c .int xs x → ¬ ∀ a, tail.head? = some a → a ∈ [sInit, sRun, sStatus]) ∧
      (main c (prog :: args) = .ok .help ∨ main c (prog :: args) = .ok (.usage 1))) := by
  have hs : ∀ e o, argLoop (args.length + 2) (obj (c.step .int) [120] [sInit, sRun, sStatus] (c.dflt .int) false (args.length + 1 : Nat)) 1 args
      = .ok (e, o) → main c (prog :: args) = (match e with
        | .exit => .ok .help
        | .err => .ok (.usage 1)
        | .fin => if checks o = false then .ok (.usage 1) else choose c (prog :: args) o) := by
    intro e o he
    rw [main, regs1_obj, Res.ok_bind, Opt.Option.parse, if_neg (by simp), if_neg (by simp)]
    have : ({ obj (c.step .int) [120] [sInit, sRun, sStatus] (c.dflt .int) false (-1) with nextDelimiter := ((prog :: args).length : Int) } : Opt.Option α)
        = obj (c.step .int) [120] [sInit, sRun, sStatus] (c.dflt .int) false (args.length + 1 : Nat) := rfl
    rw [this]
    simp only [List.length_cons, List.drop_one, List.tail_cons, he, Res.ok_bind]
    cases e
    · cases hc : checks o <;> simp [hc, Res.ok_bind, Res.pure_eq]
    · simp [Res.ok_bind, Res.pure_eq]
    · simp [Res.ok_bind, Res.pure_eq]
  rcases loop (c.step .int) [120] [sInit, sRun, sStatus] (args.length + 1 : Nat) ⟨_, rfl, by intro c hc; cases hc; decide⟩ (by decide) (by decide)
    args.length args (args.length + 2) 1 (c.dflt .int) false (by omega) (by omega) with ⟨vs, st', tail, set', ⟨a1, a2, a3⟩, a4⟩ | ⟨a1, e, o, a2, a3⟩
  · refine .inl ⟨vs, st', tail, a2, a1, a3, ?_⟩
    have e0 : (if tail = [] then ((args.length + 1 : Nat) : Int) else ((1 : Nat) : Int) + 2 * vs.length + 1)
        = (((if tail = [] then args.length else 2 * vs.length + 1) + 1 : Nat) : Int) := by split <;> omega
    have e1 : (if tail = [] then args.length + 1 else 2 * vs.length + 2) = (if tail = [] then args.length else 2 * vs.length + 1) + 1 := by
      split <;> omega
    rw [e0] at a4
    rw [e1, hs _ _ a4]
    generalize (if tail = [] then args.length else 2 * vs.length + 1) = q
    have e2 : ∀ o : Opt.Option α, o.nextDelimiter = ((q + 1 : Nat) : Int) → choose c (prog :: args) o = (do
        let x ← at? o.infoVec 0
        let cmd ← at? (prog :: args) q
        match command cmd with
        | none => .ok (.usage 1)
        | some (k, name) => second c (prog :: args) (q + 1) x.var.st k name) := by
      intro o ho
      rw [choose, ho]
      have : (((q + 1 : Nat) : Int) - 1).toNat = q := by omega
      rw [this, if_neg (by omega)]
      rfl
    exact e2 (obj (c.step .int) [120] [sInit, sRun, sStatus] st' set' ((q + 1 : Nat) : Int)) rfl
  · refine .inr ⟨fun xs x tail h1 h2 h3 => a1 xs x tail ⟨h2, h1, h3⟩, ?_⟩
    rw [hs _ _ a3]
    cases e with
    | fin => exact absurd rfl a2
    | err => exact .inr rfl
    | exit => exact .inl rfl

theorem x_text : "x".toUTF8.toList = [120] := by decide +kernel

theorem pairs_len (name : Str) (vs : List Str) : (pairs name vs).length = 2 * vs.length := by
  induction vs with
  | nil => rfl
  | cons v vs ih => rw [pairs_cons]; simp [ih]; omega

/-- The word at the place of the command. -/
theorem cmd_at (prog : Str) (xs : List Str) (t : Str) (ts : List Str) :
    at? (prog :: (pairs [120] xs ++ t :: ts)) (2 * xs.length + 1) = .ok t := by
  have := pairs_len [120] xs
  rw [at?_eq_ok (by simp; omega)]
  congr 1
  rw [List.getElem_cons_succ, List.getElem_append_right (by omega)]
  simp [this]

theorem drop_at (prog : Str) (xs : List Str) (t : Str) (ts : List Str) :
    (prog :: (pairs [120] xs ++ t :: ts)).drop (2 * xs.length + 2) = ts := by
  have := pairs_len [120] xs
  rw [List.drop_succ_cons, List.drop_append, List.drop_of_length_le (by omega), this]
  simp

/-- Every right command line is understood: the common variable, the command and its variable are as written. -/
theorem C116_right (c : Conv α) (prog : Str) (args : List Str) (k : Kind) (x y : α) (h : Right c args k x y) :
    main c (prog :: args) = .ok (.done k x y) := by
  obtain ⟨xs, cmd, name, ys, rfl, hc, hx, hy⟩ := h
  rw [x_text]
  have hmem : ∀ a, (cmd :: pairs name ys).head? = some a → a ∈ [sInit, sRun, sStatus] := by
    intro a ha
    cases ha
    exact (mem_cmds _).mpr ⟨k, name, hc⟩
  rcases main_spec c prog (pairs [120] xs ++ cmd :: pairs name ys) with ⟨xs', x', tail, e1, hx', ht, e⟩ | ⟨hno, _⟩
  · obtain ⟨rfl, rfl⟩ := split_unique (step := c.step .int) (by decide) _ _ _ _ hmem ht e1
    obtain rfl : x = x' := by
      have := hx.symm.trans hx'
      simpa using this
    rw [e]
    simp only [reduceCtorEq, if_false]
    rw [cmd_at, Res.ok_bind, (command_iff cmd k name).mpr hc]
    simp only
    have hlen := pairs_len [120] xs
    rcases second_spec c (prog :: (pairs [120] xs ++ cmd :: pairs name ys)) (2 * xs.length + 2) x ((command_iff cmd k name).mpr hc)
      (by omega) (by simp; omega) with ⟨ys', y', d1, d2, d3⟩ | ⟨d1, _⟩
    · rw [drop_at] at d1
      obtain ⟨rfl, _⟩ := split_unique (step := c.step .int) (name := name) (ds := []) (by simp) ys ys' [] [] (by simp) (by simp) (by simpa using d1)
      obtain rfl : y = y' := by
        have := hy.symm.trans d2
        simpa using this
      exact d3
    · rw [drop_at] at d1
      exact absurd hy (d1 ys y rfl)
  · exact absurd hmem (hno xs x _ rfl hx)

/-- Nothing else is: if the program gets through, the command line was right - or it had no command, and the last word of it (the
program's name, if there are no arguments) happens to be a command. -/
theorem C116_only_right (c : Conv α) (prog : Str) (args : List Str) (k : Kind) (x y : α) (h : main c (prog :: args) = .ok (.done k x y)) :
    Right c args k x y ∨
    (∃ xs name, args = pairs "x".toUTF8.toList xs ∧ Takes c .int xs x ∧ y = c.dflt k ∧ Command ((prog :: args).getLast (by simp)) k name) := by
  rcases main_spec c prog args with ⟨xs, x', tail, e1, hx, ht, e⟩ | ⟨_, e | e⟩
  · rw [e] at h
    match tail, ht, e1 with
    | [], _, e1 =>
      simp only [if_true] at h
      have hlast : at? (prog :: args) args.length = .ok ((prog :: args).getLast (by simp)) := by
        rw [at?_eq_ok (by simp), List.getLast_eq_getElem]; rfl
      rw [hlast, Res.ok_bind] at h
      cases hc : command ((prog :: args).getLast (by simp)) with
      | none => rw [hc] at h; cases h
      | some kn =>
        obtain ⟨k', name⟩ := kn
        rw [hc] at h
        simp only at h
        rcases second_spec c (prog :: args) (args.length + 1) x' hc (by omega) (by simp) with ⟨ys, y', d1, d2, d3⟩ | ⟨_, d | d⟩
        · rw [d3] at h
          cases h
          have : ys = [] := by
            have h0 : (pairs name ys).length = 0 := by rw [← d1]; simp
            rw [pairs_len] at h0
            exact List.length_eq_zero_iff.mp (by omega)
          subst this
          refine .inr ⟨xs, name, by rw [x_text, e1, List.append_nil], hx, ?_, (command_iff _ _ _).mp hc⟩
          rw [Takes, feed] at d2
          exact (Option.some.inj d2).symm
        · rw [d] at h; cases h
        · rw [d] at h; cases h
    | t :: ts, ht, e1 =>
      simp only [reduceCtorEq, if_false] at h
      subst e1
      rw [cmd_at, Res.ok_bind] at h
      cases hc : command t with
      | none => rw [hc] at h; cases h
      | some kn =>
        obtain ⟨k', name⟩ := kn
        rw [hc] at h
        simp only at h
        have hlen := pairs_len [120] xs
        rcases second_spec c (prog :: (pairs [120] xs ++ t :: ts)) (2 * xs.length + 2) x' hc (by omega) (by simp; omega) with
          ⟨ys, y', d1, d2, d3⟩ | ⟨_, d | d⟩
        · rw [d3] at h
          cases h
          rw [drop_at] at d1
          exact .inl ⟨xs, t, name, ys, by rw [x_text, d1], (command_iff _ _ _).mp hc, hx, d2⟩
        · rw [d] at h; cases h
        · rw [d] at h; cases h
  · rw [e] at h; cases h
  · rw [e] at h; cases h

/-- If the conversion of `-x` refuses the three words (as that to `int` does), a command line without arguments is the only wrong one
that gets through. -/
theorem C116_only_right_int (c : Conv α) (hint : ∀ st w k name, Command w k name → (c.step .int st w).1 = false) (prog : Str)
    (args : List Str) (k : Kind) (x y : α) (h : main c (prog :: args) = .ok (.done k x y)) :
    Right c args k x y ∨ (args = [] ∧ ∃ name, Command prog k name) := by
  rcases C116_only_right c prog args k x y h with h | ⟨xs, name, e1, hx, _, hc⟩
  · exact .inl h
  · refine .inr ?_
    rcases List.eq_nil_or_concat xs with rfl | ⟨xs', v, rfl⟩
    · have : args = [] := e1
      subst this
      exact ⟨rfl, name, hc⟩
    · exfalso
      have hl : (prog :: args).getLast (by simp) = v := by
        have e2 : prog :: args = (prog :: pairs "x".toUTF8.toList xs' ++ [45 :: "x".toUTF8.toList]) ++ [v] := by
          rw [e1, List.concat_eq_append]
          simp only [pairs, List.flatMap_append, List.flatMap_cons, List.flatMap_nil, List.append_nil, List.cons_append, List.append_assoc,
            List.nil_append]
        have e3 : (prog :: args).getLast? = some v := by rw [e2, List.getLast?_concat]
        rw [List.getLast?_eq_some_getLast (by simp)] at e3
        exact Option.some.inj e3
      rw [hl] at hc
      have hstep : ∀ (vs : List Str) (st : α), feed (c.step .int) st (vs ++ [v]) = none := by
        intro vs
        induction vs with
        | nil => intro st; simp [feed, hint st v k name hc]
        | cons w vs ih => intro st; simp only [List.cons_append, feed]; split <;> simp [ih]
      rw [Takes, List.concat_eq_append, hstep] at hx
      cases hx

/-- The program always ends in one of its ways. -/
theorem C116_never_undefined (c : Conv α) (prog : Str) (args : List Str) : ∃ r, main c (prog :: args) = .ok r := by
  rcases main_spec c prog args with ⟨xs, x', tail, e1, hx, ht, e⟩ | ⟨_, e | e⟩
  · rw [e]
    have hlen := pairs_len [120] xs
    have hq : (if tail = [] then args.length else 2 * xs.length + 1) < (prog :: args).length := by
      split
      · simp
      · rename_i h
        have := List.length_pos_iff.mpr h
        rw [e1]; simp; omega
    rw [at?_eq_ok hq, Res.ok_bind]
    cases hc : command ((prog :: args)[if tail = [] then args.length else 2 * xs.length + 1]) with
    | none => exact ⟨_, rfl⟩
    | some kn =>
      obtain ⟨k, name⟩ := kn
      simp only
      have hq2 : (if tail = [] then args.length + 1 else 2 * xs.length + 2) ≤ (prog :: args).length := by
        split
        · simp
        · rename_i h
          have := List.length_pos_iff.mpr h
          rw [e1]; simp; omega
      rcases second_spec c (prog :: args) _ x' hc (by split <;> omega) hq2 with ⟨ys, y', _, _, d⟩ | ⟨_, d | d⟩
      · exact ⟨_, d⟩
      · exact ⟨_, d⟩
      · exact ⟨_, d⟩
  · exact ⟨_, e⟩
  · exact ⟨_, e⟩

/-- A conversion for the examples: digits only for `int`, everything for the others; the value is the text. -/
def textConv : Conv Str where
  dflt k := match k with | .int => [53] | .str => [97, 98, 99] | .dbl => [49, 46, 50] | .chr => [88]
  step k st s := match k with | .int => (s.all fun c => 48 ≤ c && c ≤ 57, s) | _ => (true, s)

/-- Finding: started under the name of a command (`argv[0]` is "run"), the program takes its own name for the command. -/
theorem C116_finding_own_name (c : Conv α) : main c [sRun] = .ok (.done .dbl (c.dflt .int) (c.dflt .dbl)) := rfl

example : Right textConv [[45, 120], [55], sRun, [45, 100], [57]] .dbl [55] [57] :=
  ⟨[[55]], sRun, [100], [[57]], by decide +kernel, (command_iff _ _ _).mp rfl, by rfl, by rfl⟩
example : ∀ st w k name, Command w k name → (textConv.step .int st w).1 = false := by
  intro st w k name h
  have e : w ∈ [sInit, sRun, sStatus] := (mem_cmds w).mpr ⟨k, name, h⟩
  simp only [List.mem_cons, List.not_mem_nil, or_false] at e
  rcases e with rfl | rfl | rfl <;> rfl
example : main textConv [[112], [45, 120], [55]] = .ok (.usage 1) := rfl
example : main textConv [[112], sRun, [45, 115], [55]] = .ok (.usage 2) := rfl

#print axioms C116_right
#print axioms C116_only_right
#print axioms C116_only_right_int
#print axioms C116_never_undefined
#print axioms C116_finding_own_name

end Verif.Props.Option2Smpl
