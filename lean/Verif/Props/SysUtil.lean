import Verif.Model.SysUtil
import Verif.Spec.SysUtil

set_option linter.unusedSimpArgs false

/-!
# C83-C86: clocks, sleeping, thread local variables, environment, formatting, signals
-/
namespace Verif.Props.SysUtil
open Verif Verif.SysUtil

/-! ## C83: the clock -/

/-- Uses of the clock for the given intervals, on a counter that shows `o` at time 0 and wraps around at 2^64. -/
def measure (o : Nat) (iv : List (Nat × Nat)) : List ClkOp :=
  iv.flatMap (fun p => [.start (BitVec.ofNat 64 (o + p.1)), .stop (BitVec.ofNat 64 (o + p.2))])

theorem run_measure (o : Nat) (iv : List (Nat × Nat)) (c : Clk) (h : ∀ p ∈ iv, p.1 ≤ p.2) (hc : c.count + iv.length < 2 ^ 31) :
    c.run (measure o iv) = .ok ⟨c.clock + BitVec.ofNat 64 (Spec.SysUtil.total iv), c.count + iv.length⟩ := by
  induction iv generalizing c with
  | nil => simp [measure, Clk.run, Spec.SysUtil.total]
  | cons p iv ih =>
    have hp := h p (by simp)
    rw [List.length_cons] at hc
    rw [measure, List.flatMap_cons]
    simp only [List.cons_append, List.nil_append, Clk.run, Clk.step]
    rw [if_pos (by omega)]
    change Clk.run _ (measure o iv) = _
    rw [ih _ (fun q hq => h q (by simp [hq])) (by simp only; omega), Spec.SysUtil.total, List.length_cons]
    have hk : c.clock - BitVec.ofNat 64 (o + p.1) + BitVec.ofNat 64 (o + p.2) = c.clock + BitVec.ofNat 64 (p.2 - p.1) := by
      have e : BitVec.ofNat 64 (o + p.2) = BitVec.ofNat 64 (o + p.1) + BitVec.ofNat 64 (p.2 - p.1) := by
        rw [← BitVec.ofNat_add]; congr 1; omega
      rw [e]
      generalize BitVec.ofNat 64 (o + p.1) = x
      generalize BitVec.ofNat 64 (p.2 - p.1) = y
      rw [← BitVec.add_assoc, BitVec.sub_add_cancel]
    simp only [hk, Res.ok.injEq, Clk.mk.injEq]
    exact ⟨by rw [BitVec.ofNat_add, BitVec.add_assoc], by omega⟩

/-- The clock shows the total length of the measured intervals and their number, from the construction or the last `clear` on,
although the counter of the processor starts anywhere and wraps around. -/
theorem C83_clock (o : Nat) (iv : List (Nat × Nat)) (c : Clk) (h : ∀ p ∈ iv, p.1 ≤ p.2) (hc : iv.length < 2 ^ 31)
    (ht : Spec.SysUtil.total iv < 2 ^ 64) :
    ∃ r, c.run (.clear :: measure o iv) = .ok r ∧ r.clock.toNat = Spec.SysUtil.total iv ∧ r.count = iv.length := by
  refine ⟨_, by rw [Clk.run, Clk.step]; exact run_measure o iv ⟨0, 0⟩ h (by simpa using hc), ?_, by simp⟩
  simp only [BitVec.ofNat_eq_ofNat, BitVec.zero_add, BitVec.toNat_ofNat]
  exact Nat.mod_eq_of_lt ht

/-- Finding: read between `begin` and `end` the clock shows a value that has nothing to do with the time measured. -/
theorem C83_finding_running (t : BitVec 64) (ht : t ≠ 0) :
    ∃ r, Clk.run ⟨0, 0⟩ [.start t] = .ok r ∧ r.clock.toNat = 2 ^ 64 - t.toNat := by
  refine ⟨_, rfl, ?_⟩
  have h : 0 < t.toNat := Nat.pos_of_ne_zero (fun e => ht (BitVec.eq_of_toNat_eq (by simpa using e)))
  have := t.isLt
  simp only [BitVec.toNat_sub, BitVec.ofNat_eq_ofNat, BitVec.toNat_ofNat, Nat.zero_mod]
  omega

/-- Sum of the first `n` intervals between readings. -/
def spent (tick : Nat → BitVec 64) : Nat → BitVec 64
  | 0 => 0
  | n + 1 => spent tick n + (tick (2 * n + 1) - tick (2 * n))

theorem benchLoop_spec (tick : Nat → BitVec 64) (n1 : Nat) (mx : BitVec 64) (fuel i : Nat) (c : Clk) (calls : Nat)
    (hc : c = ⟨spent tick i, i⟩) (hcalls : calls = n1 * i) :
    ∃ k, i ≤ k ∧ k ≤ i + fuel ∧ benchLoop tick n1 mx fuel i c calls = (⟨spent tick k, k⟩, n1 * k) ∧
      (k = i + fuel ∨ (i < k ∧ mx < spent tick k)) ∧ (∀ j, i < j → j < k → ¬ mx < spent tick j) ∧ (0 < fuel → i < k) := by
  induction fuel generalizing i c calls with
  | zero => exact ⟨i, Nat.le_refl _, by omega, by rw [benchLoop, hc, hcalls], .inl (by omega), by omega, by omega⟩
  | succ fuel ih =>
    subst hc hcalls
    have hs : spent tick i - tick (2 * i) + tick (2 * i + 1) = spent tick (i + 1) := by
      rw [spent]
      generalize spent tick i = x
      generalize tick (2 * i) = y
      generalize tick (2 * i + 1) = z
      rw [BitVec.sub_eq_add_neg, BitVec.sub_eq_add_neg, BitVec.add_assoc, BitVec.add_comm (-y) z]
    rw [benchLoop]
    simp only [hs]
    by_cases hm : mx < spent tick (i + 1)
    · rw [if_pos hm]
      exact ⟨i + 1, by omega, by omega, by rw [Nat.mul_succ], .inr ⟨by omega, hm⟩, by omega, by omega⟩
    · rw [if_neg hm]
      obtain ⟨k, h1, h2, h3, h4, h5, h6⟩ := ih (i + 1) ⟨spent tick (i + 1), i + 1⟩ (n1 * i + n1) rfl (by rw [Nat.mul_succ])
      refine ⟨k, by omega, by omega, h3, ?_, ?_, by omega⟩
      · rcases h4 with h | ⟨h, h'⟩
        · exact .inl (by omega)
        · exact .inr ⟨by omega, h'⟩
      · intro j hj hk
        by_cases e : j = i + 1
        · subst e; exact hm
        · exact h5 j (by omega) hk

/-- `CYBOZU_BENCH` calls the function 1000 times per round, for at least one and at most 100 rounds, stops after the first round with
which the total exceeds 10^8 clocks, and reports the clocks of exactly the rounds it made. -/
theorem C83_bench (tick : Nat → BitVec 64) :
    ∃ k, 1 ≤ k ∧ k ≤ 100 ∧ (bench tick).2 = 1000 * k ∧ (bench tick).1.count = k ∧ (bench tick).1.clock = spent tick k ∧
      (k = 100 ∨ 100000000#64 < spent tick k) ∧ ∀ j, 1 ≤ j → j < k → ¬ 100000000#64 < spent tick j := by
  obtain ⟨k, h1, h2, h3, h4, h5, h6⟩ := benchLoop_spec tick 1000 100000000#64 100 0 ⟨0, 0⟩ 0 rfl rfl
  refine ⟨k, h6 (by omega), by omega, by rw [bench, h3], by rw [bench, h3], by rw [bench, h3], ?_, fun j hj hk => h5 j (by omega) hk⟩
  rcases h4 with h | h
  · exact .inl (by omega)
  · exact .inr h.2

/-! ## C84: sleeping and starting threads -/

/-- The naps of a run of `Sleep`: each answer of the system comes with the time it took. -/
inductive Runs : Span → List SysUtil.Nap → List Spec.SysUtil.Nap → Prop
  | done (req : Span) (l : List SysUtil.Nap) (n : Spec.SysUtil.Nap) (h : n.asked = Spec.SysUtil.nanos req.sec req.nsec)
      (hl : n.left = 0) : Runs req (.done :: l) [n]
  | again (req rem : Span) (l : List SysUtil.Nap) (n : Spec.SysUtil.Nap) (ns : List Spec.SysUtil.Nap)
      (h : n.asked = Spec.SysUtil.nanos req.sec req.nsec) (hl : n.left = Spec.SysUtil.nanos rem.sec rem.nsec)
      (hr : Runs rem l ns) : Runs req (.interrupted rem :: l) (n :: ns)

/-- `Sleep(msec)` that returns sleeps at least `msec` milliseconds altogether, however often signals interrupt it. -/
theorem C84_sleep (msec : Int) (h : 0 ≤ msec) (l : List SysUtil.Nap) (ns : List Spec.SysUtil.Nap) (hr : Runs (sleepReq msec) l ns) :
    (sleepLoop (sleepReq msec) l).2 = true ∧ msec * 1000000 ≤ Spec.SysUtil.slept ns := by
  have key : ∀ req l ns, Runs req l ns → (sleepLoop req l).2 = true ∧
      Spec.SysUtil.nanos req.sec req.nsec ≤ Spec.SysUtil.slept ns := by
    intro req l ns hr
    induction hr with
    | done req l n h hl =>
      refine ⟨rfl, ?_⟩
      have := n.fair
      simp only [Spec.SysUtil.slept]
      omega
    | again req rem l n ns h hl hr ih =>
      refine ⟨ih.1, ?_⟩
      have := n.fair
      simp only [Spec.SysUtil.slept]
      have := ih.2
      omega
  obtain ⟨h1, h2⟩ := key _ _ _ hr
  refine ⟨h1, Int.le_trans ?_ h2⟩
  simp only [sleepReq, Spec.SysUtil.nanos]
  rw [Int.tdiv_eq_ediv_of_nonneg h, Int.tmod_eq_emod_of_nonneg h]
  omega

/-- The time asked of the system first is the time given, to the nanosecond: without interruption no longer sleep is asked for. -/
theorem C84_request (msec : Int) : Spec.SysUtil.nanos (sleepReq msec).sec (sleepReq msec).nsec = msec * 1000000 := by
  simp only [sleepReq, Spec.SysUtil.nanos]
  have := Int.mul_tdiv_add_tmod msec 1000
  omega

/-- Every request of `Sleep` with a time that is not negative is one that `nanosleep` accepts, if the remaining times it reports
are. -/
theorem C84_valid (msec : Int) (h : 0 ≤ msec) (l : List SysUtil.Nap)
    (hl : ∀ r, SysUtil.Nap.interrupted r ∈ l → 0 ≤ r.sec ∧ 0 ≤ r.nsec ∧ r.nsec < 1000000000) :
    ∀ r ∈ (sleepLoop (sleepReq msec) l).1, 0 ≤ r.sec ∧ 0 ≤ r.nsec ∧ r.nsec < 1000000000 := by
  have key : ∀ (l : List SysUtil.Nap) (req : Span), (0 ≤ req.sec ∧ 0 ≤ req.nsec ∧ req.nsec < 1000000000) →
      (∀ r, SysUtil.Nap.interrupted r ∈ l → 0 ≤ r.sec ∧ 0 ≤ r.nsec ∧ r.nsec < 1000000000) →
      ∀ r ∈ (sleepLoop req l).1, 0 ≤ r.sec ∧ 0 ≤ r.nsec ∧ r.nsec < 1000000000 := by
    intro l
    induction l with
    | nil => intro req hq _ r hr; simp only [sleepLoop, List.mem_singleton] at hr; rw [hr]; exact hq
    | cons a l ih =>
      intro req hq hl r hr
      cases a with
      | done => simp only [sleepLoop, List.mem_singleton] at hr; rw [hr]; exact hq
      | failed => simp only [sleepLoop, List.mem_singleton] at hr; rw [hr]; exact hq
      | interrupted rem =>
        simp only [sleepLoop, List.mem_cons] at hr
        rcases hr with hr | hr
        · rw [hr]; exact hq
        · exact ih rem (hl rem (by simp)) (fun x hx => hl x (by simp [hx])) r hr
  refine key l _ ?_ hl
  simp only [sleepReq]
  rw [Int.tdiv_eq_ediv_of_nonneg h, Int.tmod_eq_emod_of_nonneg h]
  omega

/-- A negative time is refused by the system and `Sleep` returns at once. -/
theorem C84_negative (msec : Int) (h : msec < 0) : (sleepReq msec).sec < 0 ∨ (sleepReq msec).nsec < 0 := by
  simp only [sleepReq]
  have e : msec = -(-msec) := by omega
  have h1 : msec.tdiv 1000 = -((-msec) / 1000) := by
    rw [e, Int.neg_tdiv, Int.neg_neg, Int.tdiv_eq_ediv_of_nonneg (by omega)]
  have h2 : msec.tmod 1000 = -((-msec) % 1000) := by
    rw [e, Int.neg_tmod, Int.neg_neg, Int.tmod_eq_emod_of_nonneg (by omega)]
  rw [h1, h2]
  omega

/-- `Begin` that returns true has started the thread, once; the attribute object is destroyed exactly once after it was made; the
stack size is set before if one is given; without a thread it returns false. -/
theorem C84_begin (n : Int) (a : ThAns) :
    ((threadBegin n a).2 = true → ThEv.create ∈ (threadBegin n a).1 ∧ a.create = true) ∧
    (ThEv.create ∈ (threadBegin n a).1 → (threadBegin n a).1.count .create = 1 ∧
      (n ≠ 0 → (threadBegin n a).1 = [.init, .stack n, .create, .destroy] ∧ a.stack = true) ∧
      (n = 0 → (threadBegin n a).1 = [.init, .create, .destroy])) ∧
    (a.init = true → (threadBegin n a).1.count .destroy = 1) ∧ (a.init = false → (threadBegin n a).1 = [.init]) ∧
    (a.destroy = true → ((threadBegin n a).2 = true ↔ ThEv.create ∈ (threadBegin n a).1 ∧ a.create = true)) := by
  obtain ⟨i, s, c, d⟩ := a
  by_cases hn : n = 0 <;> cases i <;> cases s <;> cases c <;> cases d <;> simp [threadBegin, hn]

/-- Finding: when the attribute object cannot be destroyed, `Begin` says that there is no thread although it runs. -/
theorem C84_finding_destroy : (threadBegin 0 ⟨true, true, true, false⟩).2 = false ∧
    ThEv.create ∈ (threadBegin 0 ⟨true, true, true, false⟩).1 := by decide

/-! ## C85: thread local variables -/

/-- What an operation means without keys. -/
def meaning : TlsOp → Option Spec.SysUtil.Ev
  | .new o k => some (.new o k.isSome)
  | .put o t v => some (.put o t v)
  | .del o _ => some (.del o)
  | .copy _ _ => none

/-- The system gives only keys that are not in use. -/
def Legal1 (s : TlsState) : TlsOp → Prop
  | .new _ (some k) => s.keys.used k = false
  | _ => True

/-- The same for a sequence of operations. -/
def Legal : TlsState → List TlsOp → Prop
  | _, [] => True
  | s, o :: l => Legal1 s o ∧ Legal (s.step o) l

/-- A program without any `Tls` object; keys may be in use by others. -/
def TlsState.fresh (k : Keys) : TlsState := ⟨k, fun _ => none⟩

/-- The keys of the objects are in use and different, and hold the values of the variables. -/
structure Inv (s : TlsState) (v : Nat → Option Spec.SysUtil.Var) : Prop where
  live : ∀ o, s.objs o = none ↔ v o = none
  used : ∀ o k, s.objs o = some (some k) → s.keys.used k = true
  distinct : ∀ o o' k, s.objs o = some (some k) → s.objs o' = some (some k) → o = o'
  val : ∀ o k x, s.objs o = some (some k) → v o = some x → x.usable = true ∧ ∀ t, x.val t = s.keys.val k t
  bad : ∀ o x, s.objs o = some none → v o = some x → x.usable = false ∧ ∀ t, x.val t = 0

theorem inv_step {s : TlsState} {v : Nat → Option Spec.SysUtil.Var} (h : Inv s v) (o : TlsOp) (e : Spec.SysUtil.Ev)
    (he : meaning o = some e) (hl : Legal1 s o) :
    Inv (s.step o) (Spec.SysUtil.step v e) := by
  cases o with
  | copy a b => cases he
  | new o key =>
    simp only [meaning, Option.some.injEq] at he
    subst he
    cases ho : s.objs o with
    | some x =>
      have hv : v o ≠ none := fun e => by rw [(h.live o).2 e] at ho; cases ho
      have e1 : s.step (.new o key) = s := by cases key <;> simp [TlsState.step, ho]
      have e2 : Spec.SysUtil.step v (.new o key.isSome) = v := by funext i; simp [Spec.SysUtil.step, hv]
      rw [e1, e2]; exact h
    | none =>
      have hv := (h.live o).1 ho
      cases key with
      | none =>
        have e1 : s.step (.new o none) = { s with objs := fun i => if i = o then some none else s.objs i } := by
          simp [TlsState.step, ho]
        rw [e1]
        refine ⟨?_, ?_, ?_, ?_, ?_⟩
        · intro i; by_cases hi : i = o <;> simp [Spec.SysUtil.step, hi, hv, h.live i]
        · intro i k hk
          by_cases hi : i = o
          · simp [hi] at hk
          · simp only [hi, if_false] at hk; exact h.used i k hk
        · intro i j k hi hj
          by_cases e : i = o <;> by_cases f : j = o <;> simp only [e, f, if_true, if_false] at hi hj
          · rw [e, f]
          · cases hi
          · cases hj
          · exact h.distinct i j k hi hj
        · intro i k x hi hx
          by_cases e : i = o
          · simp [e] at hi
          · simp only [e, if_false] at hi
            simp only [Spec.SysUtil.step, e, false_and, if_false] at hx
            exact h.val i k x hi hx
        · intro i x hi hx
          by_cases e : i = o
          · simp [Spec.SysUtil.step, e, hv] at hx
            subst hx
            exact ⟨rfl, fun _ => rfl⟩
          · simp only [e, if_false] at hi
            simp only [Spec.SysUtil.step, e, false_and, if_false] at hx
            exact h.bad i x hi hx
      | some k0 =>
        simp only [Legal1] at hl
        have e1 : s.step (.new o (some k0)) = ⟨s.keys.create k0, fun i => if i = o then some (some k0) else s.objs i⟩ := by
          simp [TlsState.step, ho, hl]
        have hne : ∀ i k, s.objs i = some (some k) → k ≠ k0 := by
          intro i k hk e
          have := h.used i k hk
          rw [e, hl] at this
          cases this
        rw [e1]
        refine ⟨?_, ?_, ?_, ?_, ?_⟩
        · intro i; by_cases hi : i = o <;> simp [Spec.SysUtil.step, hi, hv, h.live i]
        · intro i k hk
          by_cases hi : i = o
          · simp only [hi, if_true, Option.some.injEq] at hk; simp [Keys.create, hk]
          · simp only [hi, if_false] at hk
            simp only [Keys.create, if_neg (hne i k hk)]
            exact h.used i k hk
        · intro i j k hi hj
          by_cases e : i = o <;> by_cases f : j = o <;> simp only [e, f, if_true, if_false, Option.some.injEq] at hi hj
          · rw [e, f]
          · exact absurd hi.symm (hne j k hj)
          · exact absurd hj.symm (hne i k hi)
          · exact h.distinct i j k hi hj
        · intro i k x hi hx
          by_cases e : i = o
          · simp only [e, if_true, Option.some.injEq] at hi
            simp [Spec.SysUtil.step, e, hv] at hx
            subst hx hi
            exact ⟨rfl, fun t => by simp [Keys.create]⟩
          · simp only [e, if_false] at hi
            simp only [Spec.SysUtil.step, e, false_and, if_false] at hx
            obtain ⟨a, b⟩ := h.val i k x hi hx
            exact ⟨a, fun t => by rw [b t]; simp only [Keys.create, if_neg (hne i k hi)]⟩
        · intro i x hi hx
          by_cases e : i = o
          · simp [e] at hi
          · simp only [e, if_false] at hi
            simp only [Spec.SysUtil.step, e, false_and, if_false] at hx
            exact h.bad i x hi hx
  | put o t w =>
    simp only [meaning, Option.some.injEq] at he
    subst he
    cases ho : s.objs o with
    | none =>
      have hv := (h.live o).1 ho
      have e1 : s.step (.put o t w) = s := by simp [TlsState.step, ho]
      have e2 : Spec.SysUtil.step v (.put o t w) = v := by
        funext i; by_cases hi : i = o <;> simp [Spec.SysUtil.step, hi, hv]
      rw [e1, e2]; exact h
    | some a =>
      cases hvo : v o with
      | none => rw [(h.live o).2 hvo] at ho; cases ho
      | some x =>
        cases a with
        | none =>
          obtain ⟨hu, _⟩ := h.bad o x ho hvo
          have e1 : s.step (.put o t w) = s := by simp [TlsState.step, ho]
          have e2 : Spec.SysUtil.step v (.put o t w) = v := by
            funext i; by_cases hi : i = o <;> simp [Spec.SysUtil.step, hi, hvo, hu]
          rw [e1, e2]; exact h
        | some k0 =>
          obtain ⟨hu, hval⟩ := h.val o k0 x ho hvo
          have e1 : s.step (.put o t w) = { s with keys := s.keys.put k0 t w } := by simp [TlsState.step, ho]
          rw [e1]
          refine ⟨?_, ?_, ?_, ?_, ?_⟩
          · intro i; by_cases hi : i = o <;> simp [Spec.SysUtil.step, hi, hvo, ho, h.live i]
          · exact fun i k hk => h.used i k hk
          · exact fun i j k hi hj => h.distinct i j k hi hj
          · intro i k y hi hy
            by_cases e : i = o
            · simp only [Spec.SysUtil.step, e, if_true, hvo, Option.map_some, Option.some.injEq, hu] at hy
              rw [e, ho, Option.some.injEq, Option.some.injEq] at hi
              subst hy hi
              refine ⟨rfl, fun u => ?_⟩
              simp only [Keys.put]
              by_cases hut : u = t <;> simp [hut, hval]
            · simp only [Spec.SysUtil.step, e, if_false] at hy
              obtain ⟨a, b⟩ := h.val i k y hi hy
              refine ⟨a, fun u => ?_⟩
              have hk : k ≠ k0 := fun ek => e (h.distinct i o k hi (by rw [ek]; exact ho))
              simp [Keys.put, hk, b]
          · intro i y hi hy
            by_cases e : i = o
            · rw [e, ho] at hi; cases hi
            · simp only [Spec.SysUtil.step, e, if_false] at hy
              exact h.bad i y hi hy
  | del o t =>
    simp only [meaning, Option.some.injEq] at he
    subst he
    cases ho : s.objs o with
    | none =>
      have hv := (h.live o).1 ho
      have e1 : s.step (.del o t) = s := by simp [TlsState.step, ho]
      have e2 : Spec.SysUtil.step v (.del o) = v := by
        funext i; by_cases hi : i = o <;> simp [Spec.SysUtil.step, hi, hv]
      rw [e1, e2]; exact h
    | some a =>
      cases a with
      | none =>
        have e1 : s.step (.del o t) = { s with objs := fun i => if i = o then none else s.objs i } := by simp [TlsState.step, ho]
        rw [e1]
        refine ⟨?_, ?_, ?_, ?_, ?_⟩
        · intro i; by_cases hi : i = o <;> simp [Spec.SysUtil.step, hi, h.live i]
        · intro i k hk
          by_cases hi : i = o
          · simp [hi] at hk
          · simp only [hi, if_false] at hk; exact h.used i k hk
        · intro i j k hi hj
          by_cases e : i = o <;> by_cases f : j = o <;> simp only [e, f, if_true, if_false] at hi hj
          · rw [e, f]
          · cases hi
          · cases hj
          · exact h.distinct i j k hi hj
        · intro i k x hi hx
          by_cases e : i = o
          · simp [e] at hi
          · simp only [e, if_false] at hi
            simp only [Spec.SysUtil.step, e, if_false] at hx
            exact h.val i k x hi hx
        · intro i x hi hx
          by_cases e : i = o
          · simp [e] at hi
          · simp only [e, if_false] at hi
            simp only [Spec.SysUtil.step, e, if_false] at hx
            exact h.bad i x hi hx
      | some k0 =>
        have e1 : s.step (.del o t) = ⟨(s.keys.put k0 t 0).delete k0, fun i => if i = o then none else s.objs i⟩ := by
          simp [TlsState.step, ho]
        have hne : ∀ i k, i ≠ o → s.objs i = some (some k) → k ≠ k0 :=
          fun i k hi hk e => hi (h.distinct i o k hk (by rw [e]; exact ho))
        rw [e1]
        refine ⟨?_, ?_, ?_, ?_, ?_⟩
        · intro i; by_cases hi : i = o <;> simp [Spec.SysUtil.step, hi, h.live i]
        · intro i k hk
          by_cases hi : i = o
          · simp [hi] at hk
          · simp only [hi, if_false] at hk
            simp only [Keys.delete, Keys.put, if_neg (hne i k hi hk)]
            exact h.used i k hk
        · intro i j k hi hj
          by_cases e : i = o <;> by_cases f : j = o <;> simp only [e, f, if_true, if_false] at hi hj
          · rw [e, f]
          · cases hi
          · cases hj
          · exact h.distinct i j k hi hj
        · intro i k x hi hx
          by_cases e : i = o
          · simp [e] at hi
          · simp only [e, if_false] at hi
            simp only [Spec.SysUtil.step, e, if_false] at hx
            obtain ⟨a, b⟩ := h.val i k x hi hx
            refine ⟨a, fun u => ?_⟩
            rw [b u]
            simp [Keys.delete, Keys.put, hne i k e hi]
        · intro i x hi hx
          by_cases e : i = o
          · simp [e] at hi
          · simp only [e, if_false] at hi
            simp only [Spec.SysUtil.step, e, if_false] at hx
            exact h.bad i x hi hx

/-- Over every history of `Tls` objects that are not copied, used by any number of threads, with keys the system gives again after
an object is gone: `get` is what the same thread last gave to `set` of this object, and null before; an object without a key says
so in `set` and is null. -/
theorem C85_tls (k : Keys) (l : List TlsOp) (es : List Spec.SysUtil.Ev) (he : l.map meaning = es.map some)
    (hl : Legal (TlsState.fresh k) l) (o t : Nat) :
    ((TlsState.fresh k).run l).read o t = ((Spec.SysUtil.run es o).map (·.val t)).getD 0 ∧
    ((TlsState.fresh k).run l).canSet o = ((Spec.SysUtil.run es o).map (·.usable)).getD false := by
  have key : ∀ (l : List TlsOp) (es : List Spec.SysUtil.Ev) (s : TlsState) (v : Nat → Option Spec.SysUtil.Var), Inv s v →
      l.map meaning = es.map some → Legal s l → Inv (s.run l) (es.foldl Spec.SysUtil.step v) := by
    intro l
    induction l with
    | nil => intro es s v hi he _; cases es with | nil => exact hi | cons _ _ => cases he
    | cons a l ih =>
      intro es s v hi he hl
      cases es with
      | nil => cases he
      | cons e es =>
        simp only [List.map_cons, List.cons.injEq] at he
        exact ih es _ _ (inv_step hi a e he.1 hl.1) he.2 hl.2
  have hi := key l es (TlsState.fresh k) (fun _ => none)
    ⟨fun o => by simp [TlsState.fresh], fun o _ h => by simp [TlsState.fresh] at h, fun _ _ _ h => by simp [TlsState.fresh] at h,
      fun _ _ _ h => by simp [TlsState.fresh] at h, fun _ _ h => by simp [TlsState.fresh] at h⟩ he hl
  change Inv _ (Spec.SysUtil.run es) at hi
  generalize (TlsState.fresh k).run l = s at *
  generalize Spec.SysUtil.run es = v at *
  cases ho : s.objs o with
  | none => rw [(hi.live o).1 ho]; simp [TlsState.read, TlsState.canSet, ho]
  | some a =>
    cases hv : v o with
    | none => rw [(hi.live o).2 hv] at ho; cases ho
    | some x =>
      cases a with
      | none =>
        obtain ⟨h1, h2⟩ := hi.bad o x ho hv
        simp [TlsState.read, TlsState.canSet, ho, h1, h2]
      | some k =>
        obtain ⟨h1, h2⟩ := hi.val o k x ho hv
        simp [TlsState.read, TlsState.canSet, ho, h1, h2]

/-- Finding: `Tls` can be copied; when the copy is gone and another object gets the key, the first object reads what was set in
that one. -/
theorem C85_finding_copy (v w : Nat) :
    ((TlsState.fresh ⟨fun _ => false, fun _ _ => 0⟩).run
      [.new 0 (some 5), .put 0 0 v, .copy 1 0, .del 1 0, .new 2 (some 5), .put 2 0 w]).read 0 0 = w := by
  simp [TlsState.run, TlsState.step, TlsState.read, TlsState.fresh, Keys.create, Keys.put, Keys.delete]

/-! ## C86: environment, formatting, signals -/

/-- On Linux `GetEnv` is the value of the variable, also an empty one, and throws or gives the default exactly if there is none. -/
theorem C86_env (env : Bytes → Option Bytes) (key dflt : Bytes) (h0 : (0 : UInt8) ∉ key) :
    (∀ v, env key = some v → getEnv false env key = .ok v ∧ getEnvOr false env key dflt = v) ∧
    (env key = none → getEnv false env key = .throw ∧ getEnvOr false env key dflt = dflt) := by
  have hk : key.takeWhile (· ≠ 0) = key := by
    have := List.takeWhile_append_of_pos (p := fun x : UInt8 => decide (x ≠ 0)) (l₁ := key) (l₂ := []) (by
      intro x hx
      have : x ≠ 0 := fun e => h0 (e ▸ hx)
      simpa using this)
    simpa using this
  refine ⟨fun v hv => ?_, fun hv => ?_⟩ <;> simp only [getEnv, getEnvOr, queryEnv, hk, hv, Bool.false_and, Bool.false_eq_true,
    if_false, Option.getD_some, Option.getD_none, and_self]

/-- The same on Windows for values of at most 4095 bytes. -/
theorem C86_env_windows_partial (env : Bytes → Option Bytes) (key : Bytes) (v : Bytes)
    (hv : env (key.takeWhile (· ≠ 0)) = some v) (hl : v.length ≤ 4095) :
    queryEnv true env key = some v := by
  simp only [queryEnv, hv, Bool.true_and]
  rw [if_neg (by simp; omega)]

/-- Finding: on Windows a variable whose value has 4096 bytes or more counts as not set. -/
theorem C86_finding_long (env : Bytes → Option Bytes) (key dflt v : Bytes) (hv : env (key.takeWhile (· ≠ 0)) = some v)
    (hl : 4096 ≤ v.length) : getEnv true env key = .throw ∧ getEnvOr true env key dflt = dflt := by
  have : queryEnv true env key = none := by
    simp only [queryEnv, hv, Bool.true_and]
    rw [if_pos (by simp; omega)]
  rw [getEnv, getEnvOr, this]
  exact ⟨rfl, rfl⟩

/-- `format` gives the whole text of `printf`, bytes behind a NUL included; the buffer is freed exactly once if it was allocated,
on every path; when it throws the string is unchanged. -/
theorem C86_format (text : Option Bytes) (assign : Bool) (str : Bytes) :
    ((format text assign str).2.1 = true ↔ assign = true ∧ text.isSome) ∧
    (∀ t, text = some t → assign = true → (format text assign str).2.2 = t) ∧
    ((format text assign str).2.1 = false → (format text assign str).2.2 = str) ∧
    (format text assign str).1.count .free = (format text assign str).1.count .alloc ∧
    (format text assign str).1.count .free ≤ 1 ∧
    ((format text assign str).2.1 = true → (format text assign str).1 = [.vaStart, .alloc, .free, .vaEnd]) := by
  cases text <;> cases assign <;> simp [format, vformat]

/-- Finding: when formatting fails, `va_end` is not called. -/
theorem C86_finding_va_end (text : Option Bytes) (str : Bytes) : FmtEv.vaEnd ∉ (format text false str).1 ∧
    FmtEv.vaStart ∈ (format text false str).1 := by
  cases text <;> simp [format, vformat]

/-- A step that is not a signal. -/
def isCode : QStep → Bool
  | .signal _ => false
  | _ => true

/-- The state after some steps. -/
def runQ (l : List QStep) : Quit := l.foldl Quit.step ⟨none, fun _ => false, [], false⟩

/-- Objects made one after the other, signals at any moment: every signal that reaches the handler calls `quit` of an application
that was given, never through a null pointer. -/
theorem C86_signal (as : List (Nat × (Fin 4 → Bool))) (l : List QStep)
    (h : (l.filter isCode) <+: as.flatMap (fun p => construct p.1 p.2)) :
    ∀ q ∈ (runQ l).quits, ∃ p ∈ as, q = some p.1 := by
  have happ : ∀ (as : List (Nat × (Fin 4 → Bool))) a, QStep.setApp a ∈ as.flatMap (fun p => construct p.1 p.2) → ∃ p ∈ as, p.1 = a := by
    intro as a ha
    obtain ⟨p, hp, hm⟩ := List.mem_flatMap.1 ha
    refine ⟨p, hp, ?_⟩
    simp only [construct, List.mem_cons, QStep.setApp.injEq] at hm
    rcases hm with hm | hm
    · exact hm.symm
    · exfalso; revert hm; cases p.2 0 <;> cases p.2 1 <;> cases p.2 2 <;> simp
  have hhead : ∀ i ok (t : List QStep), ¬ (QStep.install i ok :: t) <+: as.flatMap (fun p => construct p.1 p.2) := by
    intro i ok t hpre
    obtain ⟨r, hr⟩ := hpre
    cases as with
    | nil => cases hr
    | cons p as => simp only [List.cons_append, List.flatMap_cons, construct, List.cons.injEq] at hr; cases hr.1
  have key : ∀ (n : Nat) (l : List QStep), l.length = n → (l.filter isCode) <+: as.flatMap (fun p => construct p.1 p.2) →
      ((∃ p ∈ as, (runQ l).app = some p.1) ∨ ((runQ l).app = none ∧ (∀ i, (runQ l).handler i = false) ∧ l.filter isCode = [])) ∧
      ∀ q ∈ (runQ l).quits, ∃ p ∈ as, q = some p.1 := by
    intro n
    induction n with
    | zero => intro l hl _; cases l with
      | nil => exact ⟨.inr ⟨rfl, fun _ => rfl, rfl⟩, by simp [runQ]⟩
      | cons _ _ => cases hl
    | succ n ih =>
      intro l hl hpre
      obtain ⟨l', x, rfl⟩ : ∃ l' x, l = l' ++ [x] := by
        have hne : l ≠ [] := by intro e; rw [e] at hl; cases hl
        exact ⟨l.dropLast, l.getLast hne, (List.dropLast_concat_getLast hne).symm⟩
      rw [List.filter_append] at hpre
      have hl' : l'.length = n := by simpa using hl
      obtain ⟨h1, h2⟩ := ih l' hl' ((List.prefix_append _ _).trans hpre)
      have hrun : runQ (l' ++ [x]) = (runQ l').step x := by simp [runQ]
      rw [hrun]
      cases x with
      | setApp a =>
        have : ∃ p ∈ as, p.1 = a := happ as a (hpre.subset (by simp [isCode]))
        obtain ⟨p, hp, e⟩ := this
        exact ⟨.inl ⟨p, hp, by simp [Quit.step, e]⟩, h2⟩
      | install i ok =>
        rcases h1 with h1 | ⟨_, _, h1⟩
        · cases ok <;> exact ⟨.inl h1, h2⟩
        · exfalso
          rw [h1] at hpre
          simp only [List.nil_append, List.filter_cons, isCode, if_true, List.filter_nil] at hpre
          exact hhead i ok [] hpre
      | signal i =>
        simp only [Quit.step]
        by_cases hh : (runQ l').handler i = true
        · rw [if_pos hh]
          rcases h1 with ⟨p, hp, e⟩ | ⟨_, h1, _⟩
          · refine ⟨.inl ⟨p, hp, e⟩, ?_⟩
            intro q hq
            simp only [List.mem_append, List.mem_singleton] at hq
            rcases hq with hq | hq
            · exact h2 q hq
            · exact ⟨p, hp, by rw [hq, e]⟩
          · rw [h1 i] at hh; cases hh
        · rw [if_neg hh]
          refine ⟨?_, h2⟩
          rcases h1 with h1 | ⟨a, b, c⟩
          · exact .inl h1
          · exact .inr ⟨a, b, by simp [List.filter_append, c, isCode]⟩
  exact (key l.length l rfl h).2

/-- When the constructor returns without ending the program, each of the four signals calls `quit` of that application; if a
handler cannot be installed the program ends. -/
theorem C86_installed (before : List QStep) (a : Nat) (ok : Fin 4 → Bool) :
    ((∀ i, ok i = true) → ∀ i : Fin 4, (runQ (before ++ construct a ok ++ [.signal i])).quits =
      (runQ before).quits ++ [some a]) ∧
    ((∃ i, ok i = false) → (runQ (before ++ construct a ok)).exited = true) := by
  constructor
  · intro h i
    have : construct a ok = [.setApp a, .install 0 true, .install 1 true, .install 2 true, .install 3 true] := by
      simp [construct, h]
    rw [this]
    simp only [runQ, List.foldl_append, List.foldl_cons, List.foldl_nil, Quit.step]
    generalize (List.foldl Quit.step _ before) = s
    have hi : i = 0 ∨ i = 1 ∨ i = 2 ∨ i = 3 := by omega
    rcases hi with rfl | rfl | rfl | rfl <;> simp
  · rintro ⟨i, hi⟩
    simp only [runQ, List.foldl_append]
    generalize (List.foldl Quit.step _ before) = s
    have hi' : ok 0 = false ∨ ok 1 = false ∨ ok 2 = false ∨ ok 3 = false := by
      have : i = 0 ∨ i = 1 ∨ i = 2 ∨ i = 3 := by omega
      rcases this with rfl | rfl | rfl | rfl <;> simp [hi]
    simp only [construct]
    cases h0 : ok 0 <;> cases h1 : ok 1 <;> cases h2 : ok 2 <;> cases h3 : ok 3 <;>
      simp_all [Quit.step]

/-! ## Cases -/

/-- The counter wraps between the readings. -/
example : ∃ r, Clk.run ⟨7, 1⟩ (.clear :: measure (2 ^ 64 - 5) [(0, 10), (20, 50)]) = .ok r ∧ r.clock.toNat = 40 ∧ r.count = 2 :=
  C83_clock (2 ^ 64 - 5) [(0, 10), (20, 50)] ⟨7, 1⟩ (by decide) (by decide) (by decide)

/-- 1.5 seconds, interrupted after 1 second. -/
example : Runs (sleepReq 1500) [.interrupted ⟨0, 500000000⟩, .done] [⟨1500000000, 1000000000, 500000000, by decide⟩,
    ⟨500000000, 500000001, 0, by decide⟩] := by
  refine .again _ _ _ _ _ (by decide) (by decide) (.done _ _ _ (by decide) rfl)

example : (threadBegin 65536 ⟨true, true, true, true⟩).2 = true := by decide

example : ((TlsState.fresh ⟨fun _ => false, fun _ _ => 9⟩).run
    [.new 0 (some 5), .put 0 1 7, .del 0 1, .new 1 (some 5), .put 1 2 8]).read 1 1 = 0 := by
  simp [TlsState.run, TlsState.step, TlsState.read, TlsState.fresh, Keys.create, Keys.put, Keys.delete]

example : Legal (TlsState.fresh ⟨fun _ => false, fun _ _ => 9⟩) [.new 0 (some 5), .put 0 1 7, .del 0 1, .new 1 (some 5)] := by
  simp [Legal, Legal1, TlsState.step, TlsState.fresh, Keys.create, Keys.put, Keys.delete]

example : (runQ (construct 3 (fun _ => true) ++ [.signal 2])).quits = [some 3] := by decide

#print axioms C83_clock
#print axioms C83_finding_running
#print axioms C83_bench
#print axioms C84_sleep
#print axioms C84_valid
#print axioms C84_negative
#print axioms C84_begin
#print axioms C84_finding_destroy
#print axioms C85_tls
#print axioms C85_finding_copy
#print axioms C86_env
#print axioms C86_env_windows_partial
#print axioms C86_finding_long
#print axioms C86_format
#print axioms C86_finding_va_end
#print axioms C86_signal
#print axioms C86_installed

end Verif.Props.SysUtil
