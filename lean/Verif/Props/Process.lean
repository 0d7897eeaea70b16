import Verif.Proof.Process
/-!
# Properties of `process.hpp` (C63, C64, C65)
-/
namespace Verif.Props.Process
open Verif.Process

/-- C63: whatever the interleaving and whatever `execv` does, `Start` returns `true` only if the new program runs and `false` only if
it does not and never will. Missing, and false in general: this needs `maxFd` (an indeterminate value, process.hpp:172) not to exceed
the descriptor of the write end, and the write end not to be one of the standard descriptors if these are redirected. -/
theorem C63_reports_partial (c : Call) (fds : Fds) (h : Fresh c fds) (hm : c.m ≤ c.w) (hstd : c.closeStdio = true → 3 ≤ c.w)
    (s : St) (hs : Steps c (St.start c fds) s) :
    (s.pp = .done true → s.cp = .running) ∧
    (s.pp = .done false → ∀ t, Steps c s t → t.cp ≠ .running) := by
  have i0 := Inv.start h
  have g := InvG.steps h.ne hstd hm i0 InvG.start hs
  refine ⟨fun hp => ?_, fun hp t ht => ?_⟩
  · rcases hc : s.cp with _ | k | _ | _ | _ | _ | _ | _ | _
    · exact absurd hp ((g.early (by rw [hc]; trivial)).2.2 _)
    · exact absurd hp ((g.early (by rw [hc]; trivial)).2.2 _)
    · exact absurd hp ((g.early (by rw [hc]; trivial)).2.2 _)
    · exact absurd hp ((g.early (by rw [hc]; trivial)).2.2 _)
    · exact absurd hp ((g.early (by rw [hc]; trivial)).2.2 _)
    · rcases g.closeW hc with e | e
      · exact absurd hp (e.2 _)
      · rw [hp] at e; cases e.2
    · rcases g.exit hc with e | e
      · exact absurd hp (e.2 _)
      · rw [hp] at e; cases e.2
    · rcases g.exited hc with e | e
      · exact absurd hp (e.2 _)
      · rw [hp] at e; cases e.2
    · rfl
  · intro hr
    have keep : ∀ t, Steps c s t → t.pp = .done false := by
      intro t ht
      induction ht with
      | refl => exact hp
      | tail _ st ih =>
        cases st <;> simp_all
    exact ((InvG.steps h.ne hstd hm i0 InvG.start (hs.trans ht)).running hr).2 (keep t ht)

/-- C63: the same for the caller: where nothing more can happen `Start` has returned. An execution has at most 11 steps, so the call
returns, whatever the system calls do. -/
theorem C63_returns (c : Call) (fds : Fds) (h : Fresh c fds) :
    (∀ s, Steps c (St.start c fds) s → (∀ t, ¬ Step c s t) → ∃ b, s.pp = .done b) ∧
    (∀ s t, Step c s t → left t < left s) ∧ left (St.start c fds) = 11 := by
  refine ⟨fun s hs hn => ?_, fun s t => left_step, rfl⟩
  rcases hp : s.pp with _ | _ | b
  · obtain ⟨t, ht⟩ := progress ((Inv.start h).steps hs) (by rw [hp]; simp); exact absurd ht (hn t)
  · obtain ⟨t, ht⟩ := progress ((Inv.start h).steps hs) (by rw [hp]; simp); exact absurd ht (hn t)
  · exact ⟨b, rfl⟩

/-- C63: with `maxFd` above the write end, which is what the loop is meant for, the failure of `execv` is never reported: once the
child has come to `execv`, `Start` cannot return `false` any more, and if `execv` fails it returns `true` with the child dead. -/
theorem C63_exec_failure_unreported (c : Call) (fds : Fds) (h : Fresh c fds) (hw : 3 ≤ c.w) (hm : c.w < c.m) (s : St)
    (hs : Steps c (St.start c fds) s) (he : s.cp = .exec) :
    (∀ t, Steps c s t → t.pp ≠ .done false) ∧
    Step c s { s with cp := .err } ∧
    ∀ t, Steps c { s with cp := .err } t → (∀ u, ¬ Step c t u) → t.pp = .done true ∧ t.cp = .exited := by
  have i := (Inv.start h).steps hs
  have e := InvE.steps hw hm (Inv.start h) (s := St.start c fds)
    ⟨fun _ => rfl, fun e => by simp [St.start] at e, fun _ => by simp [St.start]⟩ hs
  have b : InvB s := ⟨by rw [he]; trivial, e.exec he, e.buf (by rw [he]; trivial), e.pp (by rw [he]; trivial)⟩
  have st : Step c s { s with cp := .err } := .execFails he
  refine ⟨fun t ht => (b.steps ht).pp, st, fun t ht hn => ?_⟩
  have hcp : ∀ t, Steps c { s with cp := .err } t → t.cp = .err ∨ t.cp = .closeW ∨ t.cp = .exit ∨ t.cp = .exited := by
    intro t ht
    induction ht with
    | refl => exact .inl rfl
    | tail _ k ih => cases k <;> simp_all
  have bt := (b.step st).steps ht
  have it := (i.step st).steps ht
  refine ⟨?_, ?_⟩
  · rcases hp : t.pp with _ | _ | r
    · obtain ⟨u, hu⟩ := progress it (by rw [hp]; simp); exact absurd hu (hn u)
    · obtain ⟨u, hu⟩ := progress it (by rw [hp]; simp); exact absurd hu (hn u)
    · cases r with
      | false => exact absurd hp bt.pp
      | true => rfl
  · rcases hcp t ht with hc | hc | hc | hc
    · exact absurd (Step.write hc) (hn _)
    · exact absurd (Step.childCloseW hc) (hn _)
    · exact absurd (Step.exit hc) (hn _)
    · exact hc

/-- C63: the same happens with any `maxFd` if the caller has its standard descriptors closed, so that the pipe gets 0 and 1: the
redirection of descriptor 1 replaces the write end, a failure of `execv` is not reported. -/
theorem C63_closed_stdio_unreported : ∃ (c : Call) (fds : Fds) (s : St), Fresh c fds ∧ c.m = 0 ∧ c.closeStdio = true ∧
    Steps c (St.start c fds) s ∧ s.cp = .exited ∧ s.pp = .done true := by
  refine ⟨⟨0, 1, 0, true⟩, fun _ => none, ?_⟩
  have hf : Fresh ⟨0, 1, 0, true⟩ (fun _ => none) := ⟨by decide, rfl, rfl, fun _ _ => by simp, fun _ _ => by simp⟩
  refine ⟨_, hf, rfl, rfl, .tail (.tail (.tail (.tail (.tail (.tail (.tail (.tail (.tail (.tail (.tail .refl (.parentClose rfl))
    (.closeR rfl)) (.null (k := 0) (n := 0) rfl rfl)) (.null (k := 1) (n := 0) rfl rfl)) (.null (k := 2) (n := 0) rfl rfl))
    (.closeFds rfl)) (.execFails rfl)) (.write rfl)) (.childCloseW rfl)) (.exit rfl))
    (.parentEof rfl rfl ⟨fun fd b => ?_, fun fd b => by simp⟩), rfl, rfl⟩
  simp only [St.start, Handle.upd]
  split
  · simp
  · split <;> simp

/-- C63, finding.  `Start` may return false, after its only `waitpid` with WNOHANG, while the child is still on its way to `exit`: nobody
waits for that child any more, it stays as a zombie. -/
theorem C63_finding_failed_child_not_waited (c : Call) (fds : Fds) (h : Fresh c fds) (hm : c.m ≤ c.w) (hs : c.closeStdio = false) :
    ∃ s t, Steps c (St.start c fds) s ∧ Step c s t ∧ t.pp = .done false ∧ t.cp = .closeW := by
  have hrw : c.w ≠ c.r := fun e => h.1 (by rw [e])
  refine ⟨_, _, .tail (.tail (.tail (.tail (.tail .refl (.closeR rfl)) (.closeFds (by simp [afterCloseR, hs]))) (.execFails rfl)) (.write rfl)) (.parentClose rfl),
    .parentRead rfl ?_, rfl, rfl⟩
  have : ¬ (3 ≤ c.w ∧ c.w < c.m) := by omega
  simp [St.start, Handle.upd, hrw, this]

/-- C63: the program that was started has no descriptor of the pipe and none between 3 and `maxFd`; if asked for, its standard
descriptors are at `/dev/null`, or closed, and not closed if the caller's are open. -/
theorem C63_descriptors (c : Call) (fds : Fds) (h : Fresh c fds) (s : St) (hs : Steps c (St.start c fds) s) (hr : s.cp = .running) :
    (∀ fd o b, s.chd fd = some (o, b) → o ≠ .pipeR ∧ o ≠ .pipeW ∧ b = false ∧ (fd < 3 ∨ c.m ≤ fd)) ∧
    (c.closeStdio = true → ∀ j, j < 3 → s.chd j = none ∨ s.chd j = some (.null, false)) ∧
    (c.closeStdio = true → (∀ j, j < 3 → fds j ≠ none) → ∀ j, j < 3 → s.chd j = some (.null, false)) := by
  have i := (Inv.start h).steps hs
  have v := invC_steps h (Inv.start h) (InvC.start h) hs
  have hstd : c.closeStdio = true → ∀ j, j < 3 → s.chd j = none ∨ s.chd j = some (.null, false) :=
    fun hc => v.stdAll hc (.inr (.inr hr))
  refine ⟨fun fd o b e => ⟨?_, ?_, v.keep hr fd o b e, ?_⟩, hstd, fun hc ho j hj => ?_⟩
  · rintro rfl; exact v.noR (by rw [hr]; simp) fd b e
  · rintro rfl; exact i.running hr fd b e
  · apply Decidable.byContradiction
    intro hn
    rw [v.closed (.inr hr) fd (by omega) (by omega)] at e; cases e
  · exact (hstd hc j hj).resolve_left (v.openRun ho hc hr j hj)

/-- The caller's standard descriptors are open; the pipe gets 3 and 4. -/
def caller : Fds := fun fd => if fd < 3 then some (.other, false) else none

example (m : Nat) : Fresh ⟨3, 4, m, true⟩ caller :=
  ⟨by simp, rfl, rfl, fun fd b => by simp only [caller]; split <;> simp, fun fd b => by simp only [caller]; split <;> simp⟩

/-- A call that starts the program. -/
example : ∃ s, Steps ⟨3, 4, 4, true⟩ (St.start ⟨3, 4, 4, true⟩ caller) s ∧ s.cp = .running ∧ s.pp = .done true := by
  refine ⟨_, .tail (.tail (.tail (.tail (.tail (.tail (.tail (.tail .refl (.parentClose rfl)) (.closeR rfl))
    (.null (k := 0) (n := 3) rfl rfl)) (.null (k := 1) (n := 3) rfl rfl)) (.null (k := 2) (n := 3) rfl rfl)) (.closeFds rfl))
    (.exec rfl)) (.parentEof rfl rfl ⟨fun fd b => ?_, fun fd b => ?_⟩), rfl, rfl⟩
  · simp only [St.start, Handle.upd, caller]
    repeat' split
    all_goals simp
  · simp only [St.start, Handle.upd, caller]
    repeat' split
    all_goals simp_all

/-- A call whose program does not exist, reported. -/
example : ∃ s, Steps ⟨3, 4, 4, false⟩ (St.start ⟨3, 4, 4, false⟩ caller) s ∧ s.cp = .closeW ∧ s.pp = .done false :=
  ⟨_, .tail (.tail (.tail (.tail (.tail (.tail .refl (.parentClose rfl)) (.closeR rfl)) (.closeFds rfl)) (.execFails rfl))
    (.write rfl)) (.parentRead rfl (by simp [St.start, Handle.upd])), rfl, rfl⟩

/-- C64: what a sequence of calls of `isAlive` answers if the child ends after `n` of them in the way `e`: `true` with code 0 before,
`false` with the exit code (its low byte; -1 for a signal) once, and `false` with code 0 from then on, the exit code is lost. -/
theorem C64_isAlive (n : Nat) (e : End) (es : List Ev) (he : ∀ sig, e = .killed sig → sig % 128 ≠ 0) :
    watch .running (List.replicate n .ask ++ .ends e :: es) =
      List.replicate n (true, 0) ++
      (match es.count .ask with
        | 0 => []
        | k + 1 => (false, match e with | .exited code => ((code % 256 : Nat) : Int) | .killed _ => -1) ::
            List.replicate k (false, 0)) := by
  rw [watch_running, watch, watch_zombie]
  congr 1
  cases es.count .ask with
  | zero => rfl
  | succ k =>
    simp only [isAlive, if_true]
    cases e with
    | exited code =>
      simp only [End.status]
      have h1 : code % 256 * 256 % 128 = 0 := by omega
      have h2 : code % 256 * 256 / 256 % 256 = code % 256 := by omega
      simp [h1, h2]
    | killed sig =>
      simp only [End.status]
      simp [he sig rfl]

/-- C64: an object without a child answers `false`. -/
theorem C64_invalid (k : Kid) : isAlive false k = (false, 0, k) := rfl

/-- Two calls while it runs, two after it ended with code 3: the second of these does not see the code. -/
example : watch .running [.ask, .ask, .ends (.exited 3), .ask, .ask] = [(true, 0), (true, 0), (false, 3), (false, 0)] := by decide
example : ∀ sig, End.killed 9 = .killed sig → sig % 128 ≠ 0 := by intro sig h; cases h; decide

/-- C65: the command line built on Windows gives the program exactly the arguments, if no argument has a backslash directly before a
quotation mark or at its end and the program name has no quotation mark. Missing, and false: other arguments. -/
theorem C65_cmdLine_partial (exe : List UInt8) (args : List (List UInt8)) (he : 34 ∉ exe) (ha : ∀ a ∈ args, Plain a) :
    argvOf (cmdLine exe args) = exe :: args := by
  rw [argvOf_cmdLine exe args he, words_args args ha]
  rfl

/-- C65: an argument with a backslash directly before a quotation mark or at its end never arrives. -/
theorem C65_cmdLine_iff (exe a : List UInt8) (he : 34 ∉ exe) : argvOf (cmdLine exe [a]) = [exe, a] ↔ Plain a := by
  constructor
  · intro h
    rw [argvOf_cmdLine exe [a] he] at h
    have hw : words true 0 (some []) (escape a ++ [34]) = [a] := by
      have := (List.cons.inj h).2
      simp only [List.map_cons, List.map_nil, List.flatten_cons, List.flatten_nil, List.append_nil] at this
      rw [List.cons_append, List.cons_append, words_cons, if_neg (by decide), if_neg (by decide), if_pos (by simp)] at this
      simp only at this
      rw [words_cons, if_neg (by decide), if_pos rfl, if_neg (by decide)] at this
      simpa using this
    have l := (words_length a true 0 (some []) (by simp)).2
    rw [hw] at l
    rcases l (by simp) with p | ⟨q, r⟩
    · exact ((plainB_iff 0 a).1 p).1
    · rcases r with ⟨_, h0⟩ | r
      · omega
      · simp only [List.flatten_cons, List.flatten_nil, List.append_nil] at q
        rw [q] at r; simp at r
  · intro h
    exact C65_cmdLine_partial exe [a] he (by simpa using h)

/-- C65: the form of `run` with separate parameters passes exactly the parameters that are not empty, in order: an empty argument
cannot be passed. -/
theorem C65_runArgs (ps : List (List UInt8)) : runArgs ps = ps.filter (· ≠ []) := by
  rw [runArgs]; congr 1; funext p; cases p <;> simp

/-- `c:\x "y"` is passed, `c:\` and `\"` are not. -/
example : Plain [99, 58, 92, 120, 32, 34, 121, 34] := by simp [Plain]
example : ¬ Plain [99, 58, 92] := by simp [Plain]
example : argvOf (cmdLine [120] [[99, 58, 92], [97]]) = [[120], [99, 58, 34, 32, 97]] := by decide
example : (34 : UInt8) ∉ ([99, 58, 92, 120] : List UInt8) := by decide

#print axioms C63_reports_partial
#print axioms C63_returns
#print axioms C63_exec_failure_unreported
#print axioms C63_closed_stdio_unreported
#print axioms C63_finding_failed_child_not_waited
#print axioms C63_descriptors
#print axioms C64_isAlive
#print axioms C65_cmdLine_partial
#print axioms C65_cmdLine_iff

end Verif.Props.Process
