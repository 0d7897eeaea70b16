import Verif.Proof.TestRun
set_option linter.unusedSimpArgs false
/-!
# C71: the unit test framework reports what happened
-/
namespace Verif.Props.TestRun
open Verif.TestRun Verif.TestRunSpec

/-- A run in which neither `init` nor `term` throws: every registered test was run once, in
order, each in the state the one before left (`traces`), an exception in one did not keep the
others from running, the counters printed are the numbers of successful checks, failed checks and
tests left by an exception, the total is their sum, and the exit code is 0 exactly if nothing
failed. -/
theorem C71_run {W : Type} (init term : Option (Prog W Unit)) (l : List (Entry W))
    (argv0 : List Char) (w : W)
    (hi : (traceOpt init w).threw = false)
    (ht : (traceOpt term (lastW l (traceOpt init w).w)).threw = false)
    (hn : (allChecks init term l w).length + numThrew init l w ≤ 2147483647) :
    run init term l argv0 (St.start w) =
      some (if false ∈ allChecks init term l w ∨ 0 < numThrew init l w then 1 else 0,
        ⟨(allChecks init term l w).count true, (allChecks init term l w).count false,
          numThrew init l w,
          (traceOpt init w).lines ++
            (List.zipWith (fun e t => report e.1 t) l (traces l (traceOpt init w).w)).flatten ++
            (traceOpt term (lastW l (traceOpt init w).w)).lines ++
            [.summary (getBaseName argv0) l.length
              ((allChecks init term l w).length + numThrew init l w)
              ((allChecks init term l w).count true) ((allChecks init term l w).count false)
              (numThrew init l w)],
          (traceOpt term (lastW l (traceOpt init w).w)).w⟩) := by
  have hc : ∀ l : List Bool, l.count true + l.count false = l.length := fun l => by
    induction l with
    | nil => rfl
    | cons b l ih => cases b <;> simp <;> omega
  have hcc := hc (allChecks init term l w)
  have hmem : false ∈ allChecks init term l w ↔ 0 < (allChecks init term l w).count false :=
    List.count_pos_iff.symm
  have e1 : ∀ b, (allChecks init term l w).count b =
      (traceOpt init w).checks.count b +
        ((traces l (traceOpt init w).w).flatMap (·.checks)).count b +
        (traceOpt term (lastW l (traceOpt init w).w)).checks.count b := by
    intro b; simp [allChecks, Nat.add_assoc]
  have ht1 := e1 true
  have hf1 := e1 false
  generalize (allChecks init term l w).count true = CT at *
  generalize (allChecks init term l w).count false = CF at *
  simp only [hmem]
  generalize (allChecks init term l w).length = CL at *
  unfold numThrew at hn ⊢
  have im : intMax = 2147483647 := rfl
  unfold run runBody
  rw [callOpt_eq init _ (by simp [St.start]; omega) (by simp [St.start]; omega)]
  have hi' : endOf (traceOpt init w).out = .ret () := by
    unfold Trace.threw at hi
    rcases h : (traceOpt init w).out with e | a
    · rw [h] at hi; simp at hi
    · simp [endOf]
  simp only [St.start, hi']
  rw [runAll_eq l _ (by dsimp only; omega) (by dsimp only; omega) (by dsimp only; omega)]
  dsimp only
  rw [callOpt_eq term _ (by dsimp only; omega) (by dsimp only; omega)]
  have ht' : endOf (traceOpt term (lastW l (traceOpt init w).w)).out = .ret () := by
    unfold Trace.threw at ht
    rcases h : (traceOpt term (lastW l (traceOpt init w).w)).out with e | a
    · rw [h] at ht; simp at ht
    · simp [endOf]
  simp only [ht']
  rw [if_neg (by omega)]
  simp only [Nat.zero_add, Option.some.injEq, Prod.mk.injEq, St.mk.injEq, List.nil_append]
  rw [← hcc, ht1, hf1]
  refine ⟨?_, rfl, rfl, trivial, ?_, trivial⟩
  · congr 1
    apply propext
    omega
  · congr 3
    omega

/-- The exit code alone, with exceptions in `init` and `term` counted as failures: it is 0 exactly
if no exception left `init`, a test or `term` and no check failed. -/
theorem C71_exit_code {W : Type} (init term : Option (Prog W Unit)) (l : List (Entry W))
    (argv0 : List Char) (w : W)
    (hn : (allChecks init term l w).length + numThrew init l w ≤ 2147483647) :
    ∃ r s, run init term l argv0 (St.start w) = some (r, s) ∧
      (r = 0 ↔ (traceOpt init w).threw = false ∧
        (traceOpt term (lastW l (traceOpt init w).w)).threw = false ∧
        (∀ c ∈ allChecks init term l w, c = true) ∧
        ∀ t ∈ traces l (traceOpt init w).w, t.threw = false) ∧ (r = 0 ∨ r = 1) := by
  have hc : ∀ l : List Bool, l.count true + l.count false = l.length := fun l => by
    induction l with
    | nil => rfl
    | cons b l ih => cases b <;> simp <;> omega
  cases hi : (traceOpt init w).threw with
  | false =>
    cases ht : (traceOpt term (lastW l (traceOpt init w).w)).threw with
    | false =>
      refine ⟨_, _, C71_run init term l argv0 w hi ht hn, ?_, ?_⟩
      · constructor
        · intro h
          split at h
          · simp at h
          · rename_i hne
            rw [not_or] at hne
            refine ⟨rfl, rfl, ?_, ?_⟩
            · intro c hc'
              cases c with
              | true => rfl
              | false => exact absurd hc' hne.1
            · intro t hm
              have h0 : numThrew init l w = 0 := by omega
              unfold numThrew at h0
              rw [List.countP_eq_zero] at h0
              simpa using h0 t hm
        · rintro ⟨_, _, hA, hB⟩
          rw [if_neg]
          rw [not_or]
          refine ⟨fun hm => by simpa using hA _ hm, ?_⟩
          have : numThrew init l w = 0 := by
            unfold numThrew
            rw [List.countP_eq_zero]
            intro t hm; simp [hB t hm]
          omega
      · split <;> simp
    | true =>
      have hcc := hc (allChecks init term l w)
      have e1 : ∀ b, (allChecks init term l w).count b =
          (traceOpt init w).checks.count b +
            ((traces l (traceOpt init w).w).flatMap (·.checks)).count b +
            (traceOpt term (lastW l (traceOpt init w).w)).checks.count b := by
        intro b; simp [allChecks, Nat.add_assoc]
      have ht1 := e1 true
      have hf1 := e1 false
      unfold numThrew at hn
      have im : intMax = 2147483647 := rfl
      unfold run runBody
      rw [callOpt_eq init _ (by simp [St.start]; omega) (by simp [St.start]; omega)]
      have hi' : endOf (traceOpt init w).out = .ret () := by
        unfold Trace.threw at hi
        rcases h : (traceOpt init w).out with e | a
        · rw [h] at hi; simp at hi
        · simp [endOf]
      simp only [St.start, hi']
      rw [runAll_eq l _ (by dsimp only; omega) (by dsimp only; omega) (by dsimp only; omega)]
      dsimp only
      rw [callOpt_eq term _ (by dsimp only; omega) (by dsimp only; omega)]
      obtain ⟨e, he⟩ : ∃ e, (traceOpt term (lastW l (traceOpt init w).w)).out = .error e := by
        unfold Trace.threw at ht
        rcases h : (traceOpt term (lastW l (traceOpt init w).w)).out with e | a
        · exact ⟨e, rfl⟩
        · rw [h] at ht; simp at ht
      simp only [he, endOf]
      exact ⟨_, _, rfl, by simp, by simp⟩
  | true =>
    have hcc := hc (allChecks init term l w)
    have e1 : ∀ b, (allChecks init term l w).count b =
        (traceOpt init w).checks.count b +
          ((traces l (traceOpt init w).w).flatMap (·.checks)).count b +
          (traceOpt term (lastW l (traceOpt init w).w)).checks.count b := by
      intro b; simp [allChecks, Nat.add_assoc]
    have ht1 := e1 true
    have hf1 := e1 false
    have im : intMax = 2147483647 := rfl
    unfold run runBody
    rw [callOpt_eq init _ (by simp [St.start]; omega) (by simp [St.start]; omega)]
    obtain ⟨e, he⟩ : ∃ e, (traceOpt init w).out = .error e := by
      unfold Trace.threw at hi
      rcases h : (traceOpt init w).out with e | a
      · exact ⟨e, rfl⟩
      · rw [h] at hi; simp at hi
    simp only [St.start, he, endOf]
    exact ⟨_, _, rfl, by simp, by simp⟩

/-- If `init` throws no test is run: the state is the one `init` left, the only line after those
of `init` tells the exception, and the exit code is 1. -/
theorem C71_init_throws {W : Type} (init : Prog W Unit) (term : Option (Prog W Unit))
    (l : List (Entry W)) (argv0 : List Char) (w : W) (e : Exc)
    (he : (trace init w).out = .error e) (hn : (trace init w).checks.length ≤ 2147483647) :
    ∃ s, run (some init) term l argv0 (St.start w) = some (1, s) ∧ s.w = (trace init w).w ∧
      s.out = (trace init w).lines ++ [.err (if e.isStd then some e.what else none)] := by
  have hc : (trace init w).checks.count true ≤ (trace init w).checks.length := List.count_le_length
  have hc' : (trace init w).checks.count false ≤ (trace init w).checks.length :=
    List.count_le_length
  have im : intMax = 2147483647 := rfl
  unfold run runBody
  rw [callOpt_eq (some init) _ (by simp [St.start, traceOpt]; omega)
    (by simp [St.start, traceOpt]; omega)]
  simp only [St.start, traceOpt, he, endOf]
  exact ⟨_, rfl, rfl, by simp⟩

/-- `CYBOZU_TEST_ASSERT`: the checks made by the expression, then one check with its value; an
exception of the expression leaves the test function. -/
theorem C71_assert {W : Type} (x : Prog W Bool) (w : W) :
    (trace (testAssert x) w).checks =
      (trace x w).checks ++ (match (trace x w).out with | .ok b => [b] | .error _ => []) ∧
    (trace (testAssert x) w).threw = (trace x w).threw := by
  unfold testAssert
  rw [trace_bind]
  rcases h : (trace x w).out with e | b <;> simp [h, trace_test, Trace.threw]

/-- `CYBOZU_TEST_EQUAL`: one check with the result of the comparison of the two values, for
expressions that make no checks themselves and do not throw. -/
theorem C71_equal {W : Type} (eq : Int → Int → Bool) (x y : Prog W Int)
    (hx : ∀ w, (trace x w).checks = [] ∧ (trace x w).threw = false)
    (hy : ∀ w, (trace y w).checks = [] ∧ (trace y w).threw = false) (w : W) :
    ∃ a b, (trace x w).out = .ok a ∧ (trace y (trace x w).w).out = .ok b ∧
      (trace (testEqual eq x y) w).checks = [eq a b] ∧
      (trace (testEqual eq x y) w).threw = false := by
  have ex : ∀ (p : Prog W Int) w, (trace p w).threw = false → ∃ a, (trace p w).out = .ok a := by
    intro p w h
    unfold Trace.threw at h
    rcases ho : (trace p w).out with e | a
    · rw [ho] at h; simp at h
    · exact ⟨a, rfl⟩
  obtain ⟨a, ha⟩ := ex x w (hx w).2
  obtain ⟨b, hb⟩ := ex y (trace x w).w (hy _).2
  refine ⟨a, b, ha, hb, ?_⟩
  unfold testEqual
  simp only [trace_bind, ha, hb, trace_test, (hx _).1, (hy _).1]
  cases heq : eq a b with
  | true => simp [trace_pure, Trace.threw]
  | false =>
    obtain ⟨a', ha'⟩ := ex x (trace y (trace x w).w).w (hx _).2
    obtain ⟨b', hb'⟩ := ex y (trace x (trace y (trace x w).w).w).w (hy _).2
    simp [trace_bind, ha', hb', (hx _).1, (hy _).1, trace, trace_pure, Trace.threw]

/-- `CYBOZU_TEST_EQUAL_ARRAY` on arrays `a`, `b`: one check for each of the `n` indices. -/
theorem C71_equal_array {W : Type} (eq : Int → Int → Bool) (a b : Nat → Int) (n : Nat) (w : W) :
    (trace (testArray eq (fun i => .ret (a i)) (fun i => .ret (b i)) n) w).checks =
      (List.range n).map (fun i => eq (a i) (b i)) ∧
    (trace (testArray eq (fun i => .ret (a i)) (fun i => .ret (b i)) n) w).threw = false := by
  have h : ∀ n i, (trace (testArrayGo eq (fun i => .ret (a i)) (fun i => .ret (b i)) n i) w).checks =
      (List.range n).map (fun j => eq (a (i + j)) (b (i + j))) ∧
      (trace (testArrayGo eq (fun i => .ret (a i)) (fun i => .ret (b i)) n i) w).threw = false ∧
      (trace (testArrayGo eq (fun i => .ret (a i)) (fun i => .ret (b i)) n i) w).w = w := by
    intro n
    induction n with
    | zero => intro i; simp [testArrayGo, trace_pure, Trace.threw]
    | succ n ih =>
      intro i
      have := ih (i + 1)
      rw [List.range_succ_eq_map]
      simp only [testArrayGo, trace_bind, trace, trace_test]
      cases heq : eq (a i) (b i) <;>
        simp [trace_pure, trace_bind, trace, heq, this.1, this.2.1, this.2.2, Trace.threw,
          Function.comp_def] <;>
        refine ⟨fun j _ => by congr 2 <;> omega, ?_⟩ <;>
        simpa [Trace.threw] using this.2.1
  have := h n 0
  simp only [Nat.zero_add] at this
  exact ⟨this.1, this.2.1⟩

/-- `CYBOZU_TEST_EXCEPTION`: the checks of the statement, then one check which succeeds exactly
if an exception of the named class left the statement; no exception gets out. -/
theorem C71_exception {W : Type} (stmt : Prog W Unit) (cls : Nat) (w : W) :
    (trace (testException stmt cls) w).checks = (trace stmt w).checks ++
      [match (trace stmt w).out with | .ok _ => false | .error e => decide (cls ∈ e.isA)] ∧
    (trace (testException stmt cls) w).threw = false := by
  unfold testException
  simp only [trace_bind, trace_tryCatch]
  rcases h : (trace stmt w).out with e | a
  · by_cases hc : cls ∈ e.isA <;>
      simp [hc, trace, trace_bind, trace_test, trace_pure, Trace.threw]
  · simp [trace, trace_bind, trace_test, trace_pure, Trace.threw]

/-- `CYBOZU_TEST_EXCEPTION_MESSAGE`: it succeeds exactly if an exception of the named class whose
text contains `msg` left the statement. -/
theorem C71_exception_message {W : Type} (stmt : Prog W Unit) (cls : Nat) (msg : List Char)
    (w : W) :
    (∃ b, (trace (testExceptionMessage stmt cls msg) w).checks = (trace stmt w).checks ++ [b] ∧
      (b = true ↔ ∃ e, (trace stmt w).out = .error e ∧ cls ∈ e.isA ∧ msg <:+: e.what)) ∧
    (trace (testExceptionMessage stmt cls msg) w).threw = false := by
  unfold testExceptionMessage
  simp only [trace_bind, trace_tryCatch]
  rcases h : (trace stmt w).out with e | a
  · by_cases hc : cls ∈ e.isA
    · by_cases hm : contains msg e.what = true
      · have := (contains_iff _ _).1 hm
        simp [hc, hm, this, trace, trace_bind, trace_test, trace_pure, Trace.threw]
      · have : ¬ msg <:+: e.what := fun h => hm ((contains_iff _ _).2 h)
        simp [hc, hm, this, trace, trace_bind, trace_test, trace_pure, Trace.threw]
    · simp [hc, trace, trace_bind, trace_test, trace_pure, Trace.threw]
  · simp [trace, trace_bind, trace_test, trace_pure, Trace.threw]

/-- `CYBOZU_TEST_NO_EXCEPTION`: one check after those of the statement, successful exactly if
nothing was thrown; no exception gets out. -/
theorem C71_no_exception {W : Type} (stmt : Prog W Unit) (w : W) :
    (trace (testNoException stmt) w).checks = (trace stmt w).checks ++ [!(trace stmt w).threw] ∧
    (trace (testNoException stmt) w).threw = false := by
  unfold testNoException
  simp only [trace_bind, trace_tryCatch]
  rcases h : (trace stmt w).out with e | a
  · simp [h, trace, trace_bind, trace_test, trace_pure, Trace.threw]
  · simp [h, trace, trace_bind, trace_test, trace_pure, Trace.threw]

/-- What the macros print after the lines of the statement: nothing on success; the failure, and why the exception is not the
expected one. -/
theorem C71_diagnostics {W : Type} (stmt : Prog W Unit) (cls : Nat) (msg : List Char) (w : W) :
    ((trace (testException stmt cls) w).lines = (trace stmt w).lines ++
      match (trace stmt w).out with
      | .ok _ => [.failed "CYBOZU_TEST_EXCEPTION", .noException]
      | .error e => if cls ∈ e.isA then [] else [.failed "CYBOZU_TEST_EXCEPTION", .unexpected]) ∧
    (∀ a, (trace stmt w).out = .ok a → (trace (testExceptionMessage stmt cls msg) w).lines = (trace stmt w).lines ++
      [.failed "CYBOZU_TEST_EXCEPTION_MESSAGE", .noException]) ∧
    (∀ e, (trace stmt w).out = .error e →
      (cls ∉ e.isA → (trace (testExceptionMessage stmt cls msg) w).lines = (trace stmt w).lines ++
        [.failed "CYBOZU_TEST_EXCEPTION_MESSAGE", .unexpected]) ∧
      (cls ∈ e.isA → ¬ msg <:+: e.what → (trace (testExceptionMessage stmt cls msg) w).lines = (trace stmt w).lines ++
        [.failed "CYBOZU_TEST_EXCEPTION_MESSAGE", .badMessage e.what]) ∧
      (cls ∈ e.isA → msg <:+: e.what → (trace (testExceptionMessage stmt cls msg) w).lines = (trace stmt w).lines)) ∧
    (trace (testNoException stmt) w).lines = (trace stmt w).lines ++
      (if (trace stmt w).threw then [.failed "CYBOZU_TEST_NO_EXCEPTION"] else []) := by
  refine ⟨?_, ?_, ?_, ?_⟩
  · unfold testException
    simp only [trace_bind, trace_tryCatch]
    rcases h : (trace stmt w).out with e | a
    · by_cases hc : cls ∈ e.isA <;>
        simp [hc, trace, trace_bind, trace_test, trace_pure, Trace.threw]
    · simp [trace, trace_bind, trace_test, trace_pure, Trace.threw]
  · intro a h
    unfold testExceptionMessage
    simp [trace_tryCatch, h, trace, trace_bind, trace_test, trace_pure, Trace.threw]
  · intro e h
    unfold testExceptionMessage
    refine ⟨fun hc => ?_, fun hc hm => ?_, fun hc hm => ?_⟩
    · simp [trace_tryCatch, h, hc, trace, trace_bind, trace_test, trace_pure, Trace.threw]
    · have : contains msg e.what = false := by
        rw [Bool.eq_false_iff]
        exact fun h => hm ((contains_iff _ _).1 h)
      simp [trace_tryCatch, h, hc, this, trace, trace_bind, trace_test, trace_pure, Trace.threw]
    · have : contains msg e.what = true := (contains_iff _ _).2 hm
      simp [trace_tryCatch, h, hc, this, trace, trace_bind, trace_test, trace_pure, Trace.threw]
  · unfold testNoException
    simp only [trace_bind, trace_tryCatch]
    rcases h : (trace stmt w).out with e | a
    · simp [h, trace, trace_bind, trace_test, trace_pure, Trace.threw]
    · simp [h, trace, trace_bind, trace_test, trace_pure, Trace.threw]

/-- `CYBOZU_TEST_EQUAL_ARRAY` prints, for each index where the values differ, the failure, the index and the two values. -/
theorem C71_array_diagnostics {W : Type} (eq : Int → Int → Bool) (a b : Nat → Int) (n : Nat) (w : W) :
    (trace (testArray eq (fun i => .ret (a i)) (fun i => .ret (b i)) n) w).lines =
      (List.range n).flatMap fun (i : Nat) => if eq (a i) (b i) then [] else
        [.failed "CYBOZU_TEST_EQUAL_ARRAY", .value "i" i, .value "lhs" (a i), .value "rhs" (b i)] := by
  have h : ∀ n i, (trace (testArrayGo eq (fun i => .ret (a i)) (fun i => .ret (b i)) n i) w).lines =
      (List.range n).flatMap (fun (j : Nat) => if eq (a (i + j)) (b (i + j)) then [] else
        [.failed "CYBOZU_TEST_EQUAL_ARRAY", .value "i" ((i + j : Nat) : Int), .value "lhs" (a (i + j)), .value "rhs" (b (i + j))]) := by
    intro n
    induction n with
    | zero => intro i; simp [testArrayGo, trace_pure]
    | succ n ih =>
      intro i
      have := ih (i + 1)
      have e : ∀ j, i + 1 + j = i + (j + 1) := fun j => by omega
      simp only [e] at this
      rw [List.range_succ_eq_map, List.flatMap_cons, List.flatMap_map]
      simp only [testArrayGo, trace_bind, trace, trace_test]
      cases heq : eq (a i) (b i) <;>
        simp [trace_pure, trace_bind, trace, heq, this, Trace.threw, Function.comp_def]
  have := h n 0
  simp only [Nat.zero_add] at this
  exact this

/-- `CYBOZU_TEST_FAIL` is a failed check. -/
theorem C71_fail {W : Type} (w : W) : (trace (testFail : Prog W Unit) w).checks = [false] := by
  simp [testFail, trace_test]

/-- The printed name is the part of `argv[0]` after the last `/` up to the first `.`. -/
theorem C71_base_name (dir : Option (List Char)) (base : List Char) (ext : Option (List Char))
    (h1 : '/' ∉ base) (h2 : '.' ∉ base) (h3 : '/' ∉ ext.getD []) :
    getBaseName ((match dir with | none => [] | some d => d ++ ['/']) ++ base ++
      (match ext with | none => [] | some e => '.' :: e)) = base := by
  have hs : ∀ s : List Char, '/' ∉ s →
      getBaseName ((match dir with | none => [] | some d => d ++ ['/']) ++ s) = 
        match find '.' s with | none => s | some p => s.take p := by
    intro s hs
    unfold getBaseName
    cases dir with
    | none =>
      simp only [List.nil_append, findLast_none s hs, List.drop_zero]
      cases find '.' s <;> rfl
    | some d =>
      have : d ++ ['/'] ++ s = d ++ '/' :: s := by simp
      have h' : (d ++ '/' :: s).drop (d.length + 1) = s := by
        rw [show d ++ '/' :: s = (d ++ ['/']) ++ s by simp]
        exact List.drop_left' (by simp)
      simp only [this, findLast_append d s hs, h']
      cases find '.' s <;> rfl
  rw [List.append_assoc]
  cases ext with
  | none => rw [hs _ (by simpa using h1)]; simp [find_none base h2]
  | some e =>
    rw [hs _ (by simp at h3 ⊢; exact ⟨h1, h3⟩)]
    simp [find_append base e h2]

/-- A `size_t` compared with a non-negative `int` is compared by value. -/
theorem C71_equal_size_int (lhs : BitVec 64) (rhs : BitVec 32) (h : 0 ≤ rhs.toInt) :
    isEqualSizeInt lhs rhs = true ↔ (lhs.toNat : Int) = rhs.toInt := by
  have hm : rhs.msb = false := by
    rw [BitVec.msb_eq_toInt]; simp; omega
  unfold isEqualSizeInt
  rw [beq_iff_eq, BitVec.signExtend_eq_setWidth_of_msb_false hm, BitVec.toInt_eq_toNat_of_msb hm,
    ← BitVec.toNat_inj, BitVec.toNat_setWidth]
  have := rhs.isLt
  rw [Nat.mod_eq_of_lt (by omega)]
  omega

/-- Finding: a negative `int` compares equal to a huge `size_t`. -/
theorem C71_finding_negative_int :
    isEqualSizeInt 18446744073709551615#64 (-1 : BitVec 32) = true ∧ (-1 : BitVec 32).toInt = -1 := by
  decide

/-- Finding: floating point numbers are compared by their bits, so `CYBOZU_TEST_EQUAL(0.0, -0.0)`
fails although `0.0 == -0.0` and a NaN is equal to itself although `NaN != NaN`. -/
theorem C71_finding_float_bits :
    isEqualFloat 0x00000000#32 0x80000000#32 = false ∧
    isEqualDouble 0x0000000000000000#64 0x8000000000000000#64 = false ∧
    isEqualFloat 0x7fc00000#32 0x7fc00000#32 = true := by
  decide

/-- Finding: `CYBOZU_TEST_NEAR` on unsigned numbers accepts only `x ≥ y`: the other difference
wraps around. -/
theorem C71_finding_near_unsigned (x y : BitVec 32) (eps : Nat) (h : x < y)
    (he : eps ≤ 2147483648) (hd : y.toNat - x.toNat ≤ 2147483648) : isNearU32 x y eps = false := by
  have hx := x.isLt
  have hy := y.isLt
  have hlt : x.toNat < y.toNat := by simpa [BitVec.lt_def] using h
  simp only [isNearU32, BitVec.toNat_sub, decide_eq_false_iff_not]
  omega

/-- Finding: the operands of `CYBOZU_TEST_EQUAL` are evaluated again to print them; what is
printed need not be what was compared. Here `x` is `++n`. -/
theorem C71_finding_evaluated_twice :
    (trace (testEqual (· == ·) (.get fun n : Int => .put (n + 1) (.ret (n + 1))) (.ret 5)) 0).lines =
      [.failed "CYBOZU_TEST_EQUAL", .value "lhs" 2, .value "rhs" 5] := by
  decide

/-- Two tests, the first left by an exception after a failed check, the second runs all the same;
the state goes from one to the next. -/
example :
    run (W := Nat) (some (.put 7 (.ret ()))) none
      [("a", .set true (.set false (.thr ⟨true, ['x'], [0]⟩))),
       ("b", .get fun n => .set (n == 7) (.ret ()))] "./dir/my_test.exe".toList (St.start 0) =
    some (1, ⟨2, 1, 1, [.module "a", .stopped "a" ['x'], .module "b",
      .summary "my_test".toList 2 4 2 1 1], 7⟩) := by
  decide

/-- The hypotheses of `C71_run` hold for a run with a failure and an exception. -/
example : (traceOpt (W := Nat) (some (.put 7 (.ret ()))) 0).threw = false ∧
    (allChecks (W := Nat) (some (.put 7 (.ret ()))) none
      [("a", .set true (.set false (.thr ⟨true, ['x'], [0]⟩)))] 0).length +
    numThrew (W := Nat) (some (.put 7 (.ret ()))) 
      [("a", .set true (.set false (.thr ⟨true, ['x'], [0]⟩)))] 0 = 3 := by
  decide

/-- `init` throws. -/
example : run (W := Unit) (some (.thr ⟨false, [], []⟩)) none [("a", .ret ())] ['t'] (St.start ()) =
    some (1, ⟨0, 0, 0, [.err none], ()⟩) := by
  decide

/-- The exception macros on a statement that throws class 3. -/
example : (trace (W := Unit) (testException (.thr ⟨true, "abc".toList, [3, 1]⟩) 1) ()).checks = [true] ∧
    (trace (W := Unit) (testException (.thr ⟨true, "abc".toList, [3, 1]⟩) 2) ()).checks = [false] ∧
    (trace (W := Unit) (testExceptionMessage (.thr ⟨true, "abc".toList, [3]⟩) 3 "bc".toList) ()).checks =
      [true] ∧
    (trace (W := Unit) (testExceptionMessage (.thr ⟨true, "abc".toList, [3]⟩) 3 "bd".toList) ()).checks =
      [false] := by
  decide

example : getBaseName "/usr/local/my_test.exe".toList = "my_test".toList := by decide

example : isNearU32 1#32 2#32 2 = false := by decide

end Verif.Props.TestRun

#print axioms Verif.Props.TestRun.C71_run
#print axioms Verif.Props.TestRun.C71_exit_code
#print axioms Verif.Props.TestRun.C71_exception_message
