import Verif.Spec.TestRun
set_option linter.unusedSimpArgs false
namespace Verif.TestRun
open Verif.TestRunSpec

/-- The result of a function with its outcome as the framework sees it. -/
def endOf {α : Type} : Except Exc α → End α
  | .ok a => .ret a
  | .error e => .thr e

theorem exec_trace {W α : Type} (p : Prog W α) (s : St W)
    (h1 : s.ok + (trace p s.w).checks.count true ≤ intMax)
    (h2 : s.ng + (trace p s.w).checks.count false ≤ intMax) :
    exec p s = (endOf (trace p s.w).out,
      ⟨s.ok + (trace p s.w).checks.count true, s.ng + (trace p s.w).checks.count false, s.exc,
        s.out ++ (trace p s.w).lines, (trace p s.w).w⟩) := by
  induction p generalizing s with
  | ret a => simp [exec, trace, endOf]
  | thr e => simp [exec, trace, endOf]
  | set b k ih =>
    cases b
    · simp only [trace, List.count_cons, beq_self_eq_true, if_true, exec] at h1 h2 ⊢
      simp at h1 h2 ⊢
      rw [if_neg (by omega), ih _ (by simpa using h1) (by simp; omega)]
      simp; omega
    · simp only [trace, List.count_cons, beq_self_eq_true, if_true, exec] at h1 h2 ⊢
      simp at h1 h2 ⊢
      rw [if_neg (by omega), ih _ (by simp; omega) (by simpa using h2)]
      simp; omega
  | print l k ih =>
    simp only [trace, exec] at h1 h2 ⊢
    rw [ih _ (by simpa using h1) (by simpa using h2)]; simp
  | get k ih =>
    simp only [trace, exec] at h1 h2 ⊢
    rw [ih _ _ (by simpa using h1) (by simpa using h2)]
  | put w k ih =>
    simp only [trace, exec] at h1 h2 ⊢
    rw [ih _ (by simpa using h1) (by simpa using h2)]

theorem runOne_eq {W : Type} (t : Entry W) (s : St W)
    (h1 : s.ok + (trace t.2 s.w).checks.count true ≤ intMax)
    (h2 : s.ng + (trace t.2 s.w).checks.count false ≤ intMax)
    (h3 : s.exc + (trace t.2 s.w).threw.toNat ≤ intMax) :
    runOne t s = some
      ⟨s.ok + (trace t.2 s.w).checks.count true, s.ng + (trace t.2 s.w).checks.count false,
        s.exc + (trace t.2 s.w).threw.toNat, s.out ++ report t.1 (trace t.2 s.w),
        (trace t.2 s.w).w⟩ := by
  unfold runOne
  dsimp only
  rw [exec_trace _ _ (by simpa using h1) (by simpa using h2)]
  simp only [report, Trace.threw] at h3 ⊢
  rcases ho : (trace t.2 s.w).out with e | a
  · rw [ho] at h3
    simp at h3
    simp only [endOf]
    rw [if_neg (by omega)]
    simp
  · simp [endOf]

theorem runAll_eq {W : Type} (l : List (Entry W)) (s : St W)
    (h1 : s.ok + ((traces l s.w).flatMap (·.checks)).count true ≤ intMax)
    (h2 : s.ng + ((traces l s.w).flatMap (·.checks)).count false ≤ intMax)
    (h3 : s.exc + (traces l s.w).countP (·.threw) ≤ intMax) :
    runAll l s = some
      ⟨s.ok + ((traces l s.w).flatMap (·.checks)).count true,
        s.ng + ((traces l s.w).flatMap (·.checks)).count false,
        s.exc + (traces l s.w).countP (·.threw),
        s.out ++ (List.zipWith (fun e t => report e.1 t) l (traces l s.w)).flatten,
        lastW l s.w⟩ := by
  induction l generalizing s with
  | nil => simp [runAll, traces, lastW]
  | cons e l ih =>
    simp only [traces, List.flatMap_cons, List.count_append, List.countP_cons] at h1 h2 h3 ⊢
    have e3 : (trace e.2 s.w).threw.toNat = if (trace e.2 s.w).threw = true then 1 else 0 := by
      cases (trace e.2 s.w).threw <;> rfl
    unfold runAll
    rw [runOne_eq e s (by omega) (by omega) (by omega)]
    dsimp only
    rw [ih _ (by dsimp only; omega) (by dsimp only; omega) (by dsimp only; omega)]
    simp only [lastW, List.zipWith_cons_cons, List.flatten_cons, List.append_assoc, e3,
      Option.some.injEq, St.mk.injEq, and_true]
    omega

theorem callOpt_eq {W : Type} (f : Option (Prog W Unit)) (s : St W)
    (h1 : s.ok + (traceOpt f s.w).checks.count true ≤ intMax)
    (h2 : s.ng + (traceOpt f s.w).checks.count false ≤ intMax) :
    callOpt f s = (endOf (traceOpt f s.w).out,
      ⟨s.ok + (traceOpt f s.w).checks.count true, s.ng + (traceOpt f s.w).checks.count false,
        s.exc, s.out ++ (traceOpt f s.w).lines, (traceOpt f s.w).w⟩) := by
  cases f with
  | none => simp [callOpt, traceOpt, endOf]
  | some p => exact exec_trace p s h1 h2

theorem trace_tryCatch {W α β : Type} (p : Prog W α) (f : α → Prog W β) (h : Exc → Prog W β)
    (w : W) :
    trace (p.tryCatch f h) w =
      let t := trace p w
      let u := match t.out with
        | .ok a => trace (f a) t.w
        | .error e => trace (h e) t.w
      ⟨t.checks ++ u.checks, t.lines ++ u.lines, u.out, u.w⟩ := by
  induction p generalizing w with
  | ret a => simp [Prog.tryCatch, trace]
  | thr e => simp [Prog.tryCatch, trace]
  | set b k ih => simp [Prog.tryCatch, trace, ih]
  | print l k ih => simp [Prog.tryCatch, trace, ih]
  | get k ih => simp [Prog.tryCatch, trace, ih]
  | put w k ih => simp [Prog.tryCatch, trace, ih]

theorem trace_bind {W α β : Type} (p : Prog W α) (f : α → Prog W β) (w : W) :
    trace (p >>= f) w =
      let t := trace p w
      let u : Trace W β := match t.out with
        | .ok a => trace (f a) t.w
        | .error e => ⟨[], [], .error e, t.w⟩
      ⟨t.checks ++ u.checks, t.lines ++ u.lines, u.out, u.w⟩ := by
  show trace (p.tryCatch f .thr) w = _
  rw [trace_tryCatch]
  rfl

theorem trace_pure {W α : Type} (a : α) (w : W) : trace (pure a : Prog W α) w = ⟨[], [], .ok a, w⟩ :=
  rfl

theorem trace_test {W : Type} (b : Bool) (m : String) (w : W) :
    trace (test b m : Prog W Unit) w = ⟨[b], if b then [] else [.failed m], .ok (), w⟩ := by
  cases b <;> simp [test, trace]

theorem contains_iff (t s : List Char) : contains t s = true ↔ t <:+: s := by
  induction s with
  | nil => simp [contains]
  | cons c s ih =>
    simp only [contains, Bool.or_eq_true, ih, List.isPrefixOf_iff_prefix]
    rw [List.infix_cons_iff]

theorem findLast_append (d b : List Char) (h : '/' ∉ b) :
    findLast '/' (d ++ '/' :: b) = some d.length := by
  have hn : b.reverse.findIdx? (· == '/') = none := by
    rw [List.findIdx?_eq_none_iff]
    intro x hx
    have : x ≠ '/' := by rintro rfl; exact h (by simpa using hx)
    simpa using this
  simp [findLast, List.findIdx?_append, hn, List.findIdx?_cons]

theorem findLast_none (b : List Char) (h : '/' ∉ b) : findLast '/' b = none := by
  have hn : b.reverse.findIdx? (· == '/') = none := by
    rw [List.findIdx?_eq_none_iff]
    intro x hx
    have : x ≠ '/' := by rintro rfl; exact h (by simpa using hx)
    simpa using this
  simp [findLast, hn]

theorem find_none (b : List Char) (h : '.' ∉ b) : find '.' b = none := by
  simp only [find, List.findIdx?_eq_none_iff]
  intro x hx
  have : x ≠ '.' := by rintro rfl; exact h (by simpa using hx)
  simpa using this

theorem find_append (b e : List Char) (h : '.' ∉ b) : find '.' (b ++ '.' :: e) = some b.length := by
  have := find_none b h
  unfold find at *
  simp [List.findIdx?_append, this, List.findIdx?_cons]

end Verif.TestRun
