import Verif.Spec.Bench
import Mathlib.Tactic.FieldSimp
import Mathlib.Tactic.Linarith
import Mathlib.Tactic.NormNum
import Mathlib.Tactic.Ring
set_option linter.unusedSimpArgs false

/-!
# C107: measuring the time of a function
-/
namespace Verif.Props.Bench
open Verif.Bench
open Verif.Spec.Bench

/-- The value read at time `t`. -/
def rd (w t : Nat) : BitVec 64 := BitVec.ofNat 64 (t % 2 ^ w)

/-- What happens to `clock_` in one stretch. -/
def addPair (w : Nat) (x : BitVec 64) (p : Nat × Nat) : BitVec 64 := x - rd w p.1 + rd w p.2

theorem rd_64 (w t : Nat) (h : 64 ≤ w) : rd w t = BitVec.ofNat 64 t := by
  unfold rd
  apply BitVec.eq_of_toNat_eq
  simp only [BitVec.toNat_ofNat]
  obtain ⟨k, rfl⟩ : ∃ k, w = 64 + k := ⟨w - 64, by omega⟩
  rw [Nat.pow_add, Nat.mod_mul_right_mod]

theorem sub_add_ofNat (x : BitVec 64) (a b : Nat) (h : a ≤ b) :
    x - BitVec.ofNat 64 a + BitVec.ofNat 64 b = x + BitVec.ofNat 64 (b - a) := by
  have : BitVec.ofNat 64 b = BitVec.ofNat 64 a + BitVec.ofNat 64 (b - a) := by
    rw [← BitVec.ofNat_add]
    congr 1
    omega
  rw [this, ← BitVec.add_assoc, BitVec.sub_add_cancel]

theorem addPair_sane (w : Nat) (x : BitVec 64) (p : Nat × Nat) (h1 : p.1 ≤ p.2) (h2 : w < 64 → p.1 / 2 ^ w = p.2 / 2 ^ w) :
    addPair w x p = x + BitVec.ofNat 64 (p.2 - p.1) := by
  unfold addPair
  by_cases hw : w < 64
  · have h := h2 hw
    have e1 := Nat.div_add_mod p.1 (2 ^ w)
    have e2 := Nat.div_add_mod p.2 (2 ^ w)
    rw [h] at e1
    generalize 2 ^ w * (p.2 / 2 ^ w) = q at e1 e2
    unfold rd
    generalize p.1 % 2 ^ w = r1 at e1 ⊢
    generalize p.2 % 2 ^ w = r2 at e2 ⊢
    rw [sub_add_ofNat _ _ _ (by omega)]
    congr 2
    omega
  · rw [rd_64 w _ (by omega), rd_64 w _ (by omega), sub_add_ofNat _ _ _ h1]

theorem fold_sane (w : Nat) (l : List (Nat × Nat)) : ∀ (x : BitVec 64), Sane w l →
    l.foldl (addPair w) x = x + BitVec.ofNat 64 (elapsed l) := by
  induction l with
  | nil => intro x _; simp [elapsed]
  | cons p l ih =>
    intro x h
    have hp := h p (by simp)
    rw [List.foldl_cons, ih _ (fun q hq => h q (by simp [hq])), addPair_sane w x p hp.1 hp.2]
    simp only [elapsed, List.map_cons, List.sum_cons]
    rw [BitVec.ofNat_add, BitVec.add_assoc]

theorem fold_zero (w : Nat) (l : List (Nat × Nat)) (h : Sane w l) (he : elapsed l < 2 ^ 64) :
    (l.foldl (addPair w) 0).toNat = elapsed l := by
  rw [fold_sane w l 0 h]
  simp
  omega

theorem elapsed_take (l : List (Nat × Nat)) (k : Nat) : elapsed (l.take k) ≤ elapsed l := by
  have := List.take_append_drop k l
  have e : elapsed l = elapsed (l.take k) + elapsed (l.drop k) := by
    unfold elapsed
    rw [← List.sum_append, ← List.map_append, this]
  omega

theorem runs_ok {σ : Type} (func : σ → Res σ) (n : Nat) : ∀ (s t : σ), runs func n s = .ok t ↔ Calls func n s t := by
  induction n with
  | zero =>
    intro s t
    constructor
    · intro h; simp [runs] at h; subst h; exact .nil _
    · intro h; cases h; rfl
  | succ n ih =>
    intro s t
    unfold runs
    rw [Res.bind_eq_ok]
    constructor
    · rintro ⟨a, h1, h2⟩; exact .cons h1 ((ih _ _).1 h2)
    · intro h; cases h with | cons h r => exact ⟨_, h, (ih _ _).2 r⟩

theorem pass_ok {σ : Type} (e : Env σ) (func : σ → Res σ) (n : Nat) (c : Clk) (s : σ) (r : Clk × σ)
    (h : pass e func n c s = .ok r) :
    ∃ t, Calls func n (e.tick s).2 t ∧ r.2 = (e.tick t).2 ∧ r.1.count = c.count + 1 ∧
      r.1.clock = addPair e.w c.clock ((e.tick s).1, (e.tick t).1) := by
  unfold pass at h
  obtain ⟨t, h1, h2⟩ := Res.bind_eq_ok.1 h
  refine ⟨t, (runs_ok _ _ _ _).1 h1, ?_⟩
  unfold stop at h2
  simp only at h2
  split at h2
  · simp only [Res.ok.injEq] at h2
    subst h2
    exact ⟨rfl, rfl, rfl⟩
  · cases h2

theorem loop_ok {σ : Type} (e : Env σ) (func : σ → Res σ) (n k : Nat) : ∀ (c : Clk) (s : σ) (r : Clk × σ),
    loop e func n k c s = .ok r →
    ∃ l, Measured e.tick func n l s r.2 ∧ l.length ≤ k ∧ (1 ≤ k → 1 ≤ l.length) ∧ r.1.count = c.count + l.length ∧
      r.1.clock = l.foldl (addPair e.w) c.clock ∧
      (∀ j, 1 ≤ j → j < l.length → ((l.take j).foldl (addPair e.w) c.clock).toNat ≤ maxClk) ∧
      (l.length = k ∨ maxClk < r.1.clock.toNat) := by
  induction k with
  | zero =>
    intro c s r h
    simp [loop] at h
    subst h
    exact ⟨[], .nil _, by simp, by simp, by simp, by simp, by simp, by simp⟩
  | succ k ih =>
    intro c s r h
    unfold loop at h
    obtain ⟨q, h1, h2⟩ := Res.bind_eq_ok.1 h
    obtain ⟨t, ht, hs, hc, hk⟩ := pass_ok e func n c s q h1
    split at h2
    · next hlt =>
      simp only [Res.ok.injEq] at h2
      subst h2
      refine ⟨[((e.tick s).1, (e.tick t).1)], ?_, by simp, by simp, by simp [hc], by simp [hk], ?_, .inr hlt⟩
      · rw [hs]; exact .cons ht (.nil _)
      · intro j a b; simp at b; omega
    · next hlt =>
      obtain ⟨l, m, a1, a2, a3, a4, a5, a6⟩ := ih _ _ _ h2
      refine ⟨((e.tick s).1, (e.tick t).1) :: l, ?_, by simp; omega, by simp, by rw [a3, hc]; simp; omega,
        by rw [a4, hk]; rfl, ?_, ?_⟩
      · rw [hs] at m; exact .cons ht m
      · intro j b1 b2
        obtain ⟨i, rfl⟩ : ∃ i, j = i + 1 := ⟨j - 1, by omega⟩
        rw [List.take_succ_cons, List.foldl_cons, ← hk]
        by_cases hi : i = 0
        · subst hi; simp; omega
        · exact a5 i (by omega) (by simpa using b2)
      · rcases a6 with a6 | a6
        · left; simp [a6]
        · right; exact a6

/-- What a run of the outer loop measures. -/
theorem loop_measured {σ : Type} (e : Env σ) (func : σ → Res σ) (n : Nat) (s : σ) (r : Clk × σ)
    (h : loop e func n loopN2 .zero s = .ok r) :
    ∃ l, Measured e.tick func n l s r.2 ∧ r.1.count = l.length ∧ 1 ≤ l.length ∧ l.length ≤ 100 ∧
      (Sane e.w l → elapsed l < 2 ^ 64 → r.1.clock.toNat = elapsed l ∧ StopsWhen 100000000 100 l) := by
  obtain ⟨l, m, a1, a2, a3, a4, a5, a6⟩ := loop_ok e func n loopN2 .zero s r h
  refine ⟨l, m, by simpa [Clk.zero] using a3, a2 (by decide), a1, ?_⟩
  intro hs he
  have hc : r.1.clock.toNat = elapsed l := by rw [a4]; exact fold_zero _ _ hs he
  refine ⟨hc, a2 (by decide), a1, ?_, ?_⟩
  · intro k k1 k2
    have := a5 k k1 k2
    have e' := fold_zero e.w (l.take k) (fun p hp => hs p (List.mem_of_mem_take hp))
      (Nat.lt_of_le_of_lt (elapsed_take l k) he)
    have : ((l.take k).foldl (addPair e.w) 0).toNat ≤ maxClk := this
    rw [e'] at this
    exact this
  · rw [hc] at a6
    exact a6

/-- `CYBOZU_BENCH` calls the function `g_loopNum` times in each of `g_clk.getCount()` stretches, at least one and at most 100; if the
clock does not go backwards and the register does not wrap in a stretch (a 64-bit register may), `g_clk.getClock()` is exactly the time
the stretches took, and measuring stops with the first stretch that brings it over 10^8. -/
theorem C107_bench {σ : Type} (e : Env σ) (cpuTimer cb : Bool) (msg : List UInt8) (func : σ → Res σ) (s : σ) (d : Done σ)
    (h : bench e cpuTimer cb msg func s = .ok d) :
    ∃ l, Measured e.tick func d.loopNum l s d.s ∧ d.clk.count = l.length ∧ 1 ≤ l.length ∧ l.length ≤ 100 ∧
      d.loopNum = (if cpuTimer then 1000 else 100) ∧
      (Sane e.w l → elapsed l < 2 ^ 64 → d.clk.clock.toNat = elapsed l ∧ StopsWhen 100000000 100 l) := by
  unfold bench at h
  obtain ⟨r, h1, h2⟩ := Res.bind_eq_ok.1 h
  simp only [Res.ok.injEq] at h2
  subst h2
  obtain ⟨l, m, a, b, c, f⟩ := loop_measured e func _ s r h1
  exact ⟨l, m, a, b, c, rfl, f⟩

/-- `CYBOZU_BENCH_T` gives the time of all stretches divided by the number of calls. -/
theorem C107_average {σ : Type} (e : Env σ) (cpuTimer : Bool) (func : σ → Res σ) (s s' : σ) (v : Option Rat)
    (h : benchT e cpuTimer func s = .ok (v, s')) :
    ∃ l n t, Measured e.tick func n l s s' ∧ 0 < l.length * n ∧ v = some t ∧
      (Sane e.w l → elapsed l < 2 ^ 64 → t * ((l.length * n : Nat) : Rat) = (elapsed l : Rat)) := by
  unfold benchT at h
  obtain ⟨r, h1, h2⟩ := Res.bind_eq_ok.1 h
  simp only [Res.ok.injEq, Prod.mk.injEq] at h2
  obtain ⟨hv, hs⟩ := h2
  subst hs
  obtain ⟨l, m, a, b, c, f⟩ := loop_measured e func _ s r h1
  have hn : 0 < loopN1 cpuTimer := by cases cpuTimer <;> decide
  have hv' : average r.1 (loopN1 cpuTimer) = some ((r.1.clock.toNat : Rat) / r.1.count / (loopN1 cpuTimer : Nat)) := by
    unfold average; rw [if_neg (by omega)]
  refine ⟨l, loopN1 cpuTimer, _, m, Nat.mul_pos b hn, by rw [← hv, hv'], ?_⟩
  intro x y
  rw [(f x y).1, a]
  have h1 : ((l.length : Nat) : Rat) ≠ 0 := by exact_mod_cast (by omega : l.length ≠ 0)
  have h2 : ((loopN1 cpuTimer : Nat) : Rat) ≠ 0 := by exact_mod_cast (by omega : loopN1 cpuTimer ≠ 0)
  rw [Nat.cast_mul, div_div, div_mul_cancel₀]
  exact mul_ne_zero h1 h2

/-- `CYBOZU_BENCH_C` calls the function exactly as often as it is told, in one stretch. -/
theorem C107_bench_c {σ : Type} (e : Env σ) (cb : Bool) (msg : List UInt8) (N : Nat) (func : σ → Res σ) (s : σ) (d : Done σ)
    (h : benchC e cb msg N func s = .ok d) :
    ∃ p, Measured e.tick func N [p] s d.s ∧ d.clk.count = 1 ∧ d.loopNum = N ∧
      (Sane e.w [p] → p.2 - p.1 < 2 ^ 64 → d.clk.clock.toNat = p.2 - p.1) := by
  unfold benchC at h
  obtain ⟨r, h1, h2⟩ := Res.bind_eq_ok.1 h
  simp only [Res.ok.injEq] at h2
  subst h2
  obtain ⟨t, ht, hs, hc, hk⟩ := pass_ok e func N _ s r h1
  refine ⟨((e.tick s).1, (e.tick t).1), ?_, by simpa [Clk.zero] using hc, rfl, ?_⟩
  · simp only [hs]; exact .cons ht (.nil _)
  · intro x y
    have := fold_zero e.w [((e.tick s).1, (e.tick t).1)] x (by simpa [elapsed] using y)
    simp only [List.foldl_cons, List.foldl_nil] at this
    have e2 : r.1.clock = addPair e.w 0 ((e.tick s).1, (e.tick t).1) := hk
    rw [e2, this]
    simp [elapsed]

theorem runs_total {σ : Type} (func : σ → Res σ) (n : Nat) : ∀ s, (∃ t, runs func n s = .ok t) ∨
    (∃ t, func t = .throw ∧ runs func n s = .throw) ∨ (∃ t, func t = .ub ∧ runs func n s = .ub) := by
  induction n with
  | zero => intro s; exact .inl ⟨s, rfl⟩
  | succ n ih =>
    intro s
    unfold runs
    cases h : func s with
    | ok t =>
      rcases ih t with h' | h' | h' <;> simp_all
    | throw => exact .inr (.inl ⟨s, h, rfl⟩)
    | ub => exact .inr (.inr ⟨s, h, rfl⟩)

theorem pass_total {σ : Type} (e : Env σ) (func : σ → Res σ) (n : Nat) (c : Clk) (s : σ) (hc : c.count + 1 < 2 ^ 31) :
    (∃ r, pass e func n c s = .ok r) ∨ (∃ t, func t = .throw ∧ pass e func n c s = .throw) ∨
      (∃ t, func t = .ub ∧ pass e func n c s = .ub) := by
  unfold pass
  simp only
  rcases runs_total func n (start e c s).2 with ⟨t, h⟩ | ⟨t, h1, h2⟩ | ⟨t, h1, h2⟩
  · left
    rw [h]
    have : (start e c s).1.count + 1 < 2 ^ 31 := hc
    unfold stop
    rw [Res.ok_bind, if_pos this]
    exact ⟨_, rfl⟩
  · right; left; exact ⟨t, h1, by rw [h2]; rfl⟩
  · right; right; exact ⟨t, h1, by rw [h2]; rfl⟩

theorem loop_total {σ : Type} (e : Env σ) (func : σ → Res σ) (n k : Nat) : ∀ (c : Clk) (s : σ), c.count + k < 2 ^ 31 →
    (∃ r, loop e func n k c s = .ok r) ∨ (∃ t, func t = .throw ∧ loop e func n k c s = .throw) ∨
      (∃ t, func t = .ub ∧ loop e func n k c s = .ub) := by
  induction k with
  | zero => intro c s _; exact .inl ⟨_, rfl⟩
  | succ k ih =>
    intro c s hk
    unfold loop
    rcases pass_total e func n c s (by omega) with ⟨r, h⟩ | ⟨t, h1, h2⟩ | ⟨t, h1, h2⟩
    · rw [h, Res.ok_bind]
      obtain ⟨_, _, _, hc, _⟩ := pass_ok e func n c s r h
      split
      · exact .inl ⟨_, rfl⟩
      · exact ih r.1 r.2 (by omega)
    · right; left; exact ⟨t, h1, by rw [h2]; rfl⟩
    · right; right; exact ⟨t, h1, by rw [h2]; rfl⟩

/-- Measuring itself never fails: if it throws or is undefined, a call of the function was. -/
theorem C107_only_func_fails {σ : Type} (e : Env σ) (cpuTimer cb : Bool) (msg : List UInt8) (N : Nat) (func : σ → Res σ) (s : σ) :
    ((∃ d, bench e cpuTimer cb msg func s = .ok d) ∨ (∃ t, func t = .throw ∧ bench e cpuTimer cb msg func s = .throw) ∨
      (∃ t, func t = .ub ∧ bench e cpuTimer cb msg func s = .ub)) ∧
    ((∃ d, benchC e cb msg N func s = .ok d) ∨ (∃ t, func t = .throw ∧ benchC e cb msg N func s = .throw) ∨
      (∃ t, func t = .ub ∧ benchC e cb msg N func s = .ub)) := by
  constructor
  · unfold bench
    rcases loop_total e func (loopN1 cpuTimer) loopN2 .zero s (by decide) with ⟨r, h⟩ | ⟨t, h1, h2⟩ | ⟨t, h1, h2⟩
    · exact .inl ⟨_, by rw [h]; rfl⟩
    · exact .inr (.inl ⟨t, h1, by rw [h2]; rfl⟩)
    · exact .inr (.inr ⟨t, h1, by rw [h2]; rfl⟩)
  · unfold benchC
    rcases pass_total e func N .zero s (by decide) with ⟨r, h⟩ | ⟨t, h1, h2⟩ | ⟨t, h1, h2⟩
    · exact .inl ⟨_, by rw [h]; rfl⟩
    · exact .inr (.inl ⟨t, h1, by rw [h2]; rfl⟩)
    · exact .inr (.inr ⟨t, h1, by rw [h2]; rfl⟩)

/-- `begin` and `end` by hand: whatever happens between, `getClock()` grows by the time between them, whatever the value of a 64-bit
register, and `getCount()` by one; the 2^31-th `end` overflows. -/
theorem C107_begin_end {σ : Type} (e : Env σ) (c : Clk) (s t : σ) :
    (c.count < 2 ^ 31 - 1 → ∃ c' u, stop e (start e c s).1 t = .ok (c', u) ∧ c'.count = c.count + 1 ∧
      (Sane e.w [((e.tick s).1, (e.tick t).1)] →
        c.clock.toNat + ((e.tick t).1 - (e.tick s).1) < 2 ^ 64 →
        c'.clock.toNat = c.clock.toNat + ((e.tick t).1 - (e.tick s).1))) ∧
    (c.count = 2 ^ 31 - 1 → stop e (start e c s).1 t = .ub) := by
  constructor
  · intro h
    have h' : (start e c s).1.count + 1 < 2 ^ 31 := by
      have : (start e c s).1.count = c.count := rfl
      omega
    refine ⟨_, _, by unfold stop; simp only; rw [if_pos h'], rfl, ?_⟩
    intro hs hl
    have hp := hs _ (by simp : ((e.tick s).1, (e.tick t).1) ∈ _)
    have := addPair_sane e.w c.clock _ hp.1 hp.2
    have e2 : (start e c s).1.clock + (getCpuClk e t).1 = addPair e.w c.clock ((e.tick s).1, (e.tick t).1) := rfl
    simp only [e2, this, BitVec.toNat_add, BitVec.toNat_ofNat]
    omega
  · intro h
    have : (start e c s).1.count = c.count := rfl
    unfold stop
    simp only
    rw [if_neg (by omega)]

/-- The number printed times its unit is the average; it is at most 1000 unless the unit is the largest, and more than 1 unless it is
the smallest. -/
theorem C107_unit (t : Rat) :
    ∃ f : Rat, f = (match (shown t).2 with | .one => 1 | .kilo => 1000 | .mega => 1000000) ∧ (shown t).1 * f = t ∧
      ((shown t).2 ≠ .mega → (shown t).1 ≤ 1000) ∧ ((shown t).2 ≠ .one → 1 < (shown t).1) := by
  unfold shown
  by_cases h1 : t > 1000000
  · simp only [h1, if_true]
    exact ⟨1000000, rfl, by ring, by simp, by intro _; linarith⟩
  · by_cases h2 : t > 1000
    · simp only [h1, h2, if_true, if_false]
      exact ⟨1000, rfl, by ring, by intro _; linarith, by intro _; linarith⟩
    · simp only [h1, h2, if_false]
      exact ⟨1, rfl, by ring, by intro _; linarith, by simp⟩

/-- With a message that is not empty `put` prints the message, the average and a newline; the empty message prints the number only; with
a call back there is no number and no newline. -/
theorem C107_put (c : Clk) (N : Nat) (t : Rat) (h : average c N = some t) (m : List UInt8) (hm : m ≠ []) :
    put false (some m) N c = [.msg m, .num (shown t).1 (shown t).2, .newline] ∧
    put false none N c = [.num (shown t).1 (shown t).2] ∧ put false (some []) N c = put false none N c ∧
    put true (some m) N c = [.msg m, .call (some t)] ∧ put true none N c = [.call (some t)] := by
  simp [put, h, hm, numOut]

/-- `put` before any `end`, and `CYBOZU_BENCH_C` with the counter 0, divide by zero and print no number. -/
theorem C107_finding_zero {σ : Type} (e : Env σ) (func : σ → Res σ) (s : σ) (m : List UInt8) (hm : m ≠ []) :
    put false (some m) 1 .zero = [.msg m, .nonNum, .newline] ∧
    ∃ d, benchC e false m 0 func s = .ok d ∧ d.out = [.msg m, .nonNum, .newline] := by
  refine ⟨by simp [put, average, hm, numOut, Clk.zero], ?_⟩
  refine ⟨_, rfl, ?_⟩
  simp [putIf, put, average, hm, numOut]

/-- A register of 32 bits that wraps in a stretch (and a clock that is set back) is not noticed: the time of that stretch is almost 2^64,
and `CYBOZU_BENCH` stops after it and gives that as the time. -/
theorem C107_finding_wrap {σ : Type} (e : Env σ) (func : σ → Res σ) (n : Nat) (s t : σ) (h : runs func n (e.tick s).2 = .ok t)
    (hw : e.w ≤ 32) (hb : (e.tick t).1 % 2 ^ e.w < (e.tick s).1 % 2 ^ e.w) :
    ∃ r, loop e func n loopN2 .zero s = .ok r ∧ r.1.count = 1 ∧ 2 ^ 64 - 2 ^ 32 < r.1.clock.toNat := by
  have hp : pass e func n .zero s =
      .ok (⟨addPair e.w 0 ((e.tick s).1, (e.tick t).1), 1⟩, (e.tick t).2) := by
    unfold pass
    simp only
    have : (start e Clk.zero s).2 = (e.tick s).2 := rfl
    rw [this, h]
    rfl
  have hlt : (e.tick s).1 % 2 ^ e.w < 2 ^ 32 :=
    Nat.lt_of_lt_of_le (Nat.mod_lt _ (Nat.two_pow_pos _)) (Nat.pow_le_pow_right (by decide) hw)
  have hbig : 2 ^ 64 - 2 ^ 32 < (addPair e.w 0 ((e.tick s).1, (e.tick t).1)).toNat := by
    unfold addPair rd
    generalize (e.tick s).1 % 2 ^ e.w = a at *
    generalize (e.tick t).1 % 2 ^ e.w = b at *
    have h0 : (0 : BitVec 64).toNat = 0 := rfl
    simp only [BitVec.toNat_add, BitVec.toNat_sub, BitVec.toNat_ofNat, h0]
    norm_num at *
    omega
  refine ⟨(⟨addPair e.w 0 ((e.tick s).1, (e.tick t).1), 1⟩, (e.tick t).2), ?_, rfl, hbig⟩
  show loop e func n (99 + 1) Clk.zero s = _
  unfold loop
  rw [hp, Res.ok_bind, if_pos]
  exact Nat.lt_trans (by decide) hbig

/-- A clock that advances by one at each look and by 3 at each call. -/
def exEnv (w : Nat) : Env Nat := ⟨fun s => (s, s + 1), w⟩
def exFunc (s : Nat) : Res Nat := .ok (s + 3)

example : benchC (exEnv 64) false [65] 4 exFunc (2 ^ 64 - 3) =
    .ok ⟨⟨13, 1⟩, 4, [.msg [65], .num (13 / 4) .one, .newline], 2 ^ 64 + 11⟩ := by decide +kernel
example : Measured (exEnv 64).tick exFunc 1 [(5, 9), (10, 14)] 5 15 ∧ Sane 64 [(5, 9), (10, 14)] := by
  refine ⟨.cons (t := 9) (.cons rfl (.nil _)) (.cons (t := 14) (.cons rfl (.nil _)) (.nil _)), ?_⟩
  intro p hp
  simp at hp
  rcases hp with rfl | rfl <;> simp
example : StopsWhen 100 100 [(0, 60), (70, 120)] := by
  refine ⟨by decide, by decide, ?_, .inr (by decide)⟩
  intro k h1 h2
  have : k = 1 := by simp at h2; omega
  subst this; decide
example : runs exFunc 2 ((exEnv 4).tick 14).2 = .ok 21 ∧ 21 % 2 ^ 4 < 14 % 2 ^ 4 := by decide
example : shown 1500 = (3 / 2, .kilo) := by decide +kernel
example : average ⟨300, 2⟩ 10 = some 15 := by decide +kernel

#print axioms C107_bench
#print axioms C107_average
#print axioms C107_bench_c
#print axioms C107_only_func_fails
#print axioms C107_begin_end
#print axioms C107_unit
#print axioms C107_put
#print axioms C107_finding_zero
#print axioms C107_finding_wrap

end Verif.Props.Bench
