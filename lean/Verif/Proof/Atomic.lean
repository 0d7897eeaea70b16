import Verif.Model.Atomic
import Verif.Spec.Atomic
import Mathlib.Algebra.BigOperators.Group.Finset.Basic
import Mathlib.Tactic.Ring

/-!
# Lemmas for C95
-/
set_option linter.unusedSimpArgs false
namespace Verif.Atomic
open Verif.Spec.Atomic

variable {w : Nat}

@[simp] theorem exec_add (win : Bool) (y c : BitVec w) : exec win (.add y) c = (c, c + y) := rfl
@[simp] theorem exec_xchg (win : Bool) (n c : BitVec w) : exec win (.exchange n) c = (c, n) := rfl
@[simp] theorem exec_cas (win : Bool) (n o c : BitVec w) :
    exec win (.compareExchange n o) c = (c, if c = o then n else c) := by
  cases win <;> rfl

/-- What an operation adds. -/
def amount : Op w → Nat
  | .add y => y.toNat
  | _ => 0

/-- What the rest of a program adds. -/
def sumOps (l : List (Op w)) : Nat := (l.map amount).sum

theorem counter_inv {win : Bool} {n : Nat} {s s' : St w} (h : Steps win s s')
    (hadd : ∀ t, ∀ op ∈ s.prog t, ∃ y, op = .add y) (hn : ∀ t, n ≤ t → s.prog t = []) :
    (∀ t, ∀ op ∈ s'.prog t, ∃ y, op = .add y) ∧ (∀ t, n ≤ t → s'.prog t = []) ∧
      (s'.cell.toNat + ∑ t ∈ Finset.range n, sumOps (s'.prog t)) % 2 ^ w =
        (s.cell.toNat + ∑ t ∈ Finset.range n, sumOps (s.prog t)) % 2 ^ w := by
  induction h with
  | refl => exact ⟨hadd, hn, rfl⟩
  | @step s1 _ h1 h2 ih =>
    obtain ⟨i1, i2, i3⟩ := ih
    cases h2 with
    | @call t op rest hp =>
    obtain ⟨y, rfl⟩ := i1 t op (by rw [hp]; simp)
    have ht : t < n := by
      by_contra hh
      rw [i2 t (by omega)] at hp
      exact absurd hp (by simp)
    refine ⟨?_, ?_, ?_⟩
    · intro u op hop
      dsimp only at hop
      by_cases hu : u = t
      · rw [if_pos hu] at hop
        exact i1 t op (by rw [hp]; simp [hop])
      · rw [if_neg hu] at hop; exact i1 u op hop
    · intro u hu
      dsimp only
      rw [if_neg (by omega)]; exact i2 u hu
    · rw [← i3]
      dsimp only [exec_add]
      have hmem : t ∈ Finset.range n := Finset.mem_range.2 ht
      rw [← Finset.add_sum_erase _ _ hmem, ← Finset.add_sum_erase _ (fun t => sumOps (s1.prog t)) hmem]
      have e : ∑ u ∈ (Finset.range n).erase t, sumOps (if u = t then rest else s1.prog u) =
          ∑ u ∈ (Finset.range n).erase t, sumOps (s1.prog u) := by
        apply Finset.sum_congr rfl
        intro u hu
        rw [if_neg (Finset.ne_of_mem_erase hu)]
      rw [e, if_pos rfl]
      have e2 : sumOps (s1.prog t) = y.toNat + sumOps rest := by rw [hp]; simp [sumOps, amount]
      rw [e2, BitVec.toNat_add, Nat.mod_add_mod]
      congr 1
      ring

theorem ticket_inv {win : Bool} {c : BitVec w} {prog : Nat → List (Op w)} {s' : St w} {s : St w} (hs : s = start c prog)
    (h : Steps win s s') (hadd : ∀ t, ∀ op ∈ prog t, op = .add 1) :
    (∀ t, ∀ op ∈ s'.prog t, op = .add 1) ∧ s'.cell = c + BitVec.ofNat w s'.log.length ∧
      ∀ k e, s'.log[k]? = some e → e.2.2 = c + BitVec.ofNat w k := by
  induction h with
  | refl => subst hs; exact ⟨hadd, by simp [start], by simp [start]⟩
  | @step s1 _ h1 h2 ih =>
    obtain ⟨i1, i2, i3⟩ := ih
    cases h2 with
    | @call t op rest hp =>
    obtain rfl := i1 t op (by rw [hp]; simp)
    refine ⟨?_, ?_, ?_⟩
    · intro u op hop
      dsimp only at hop
      by_cases hu : u = t
      · rw [if_pos hu] at hop
        exact i1 t op (by rw [hp]; simp [hop])
      · rw [if_neg hu] at hop; exact i1 u op hop
    · dsimp only [exec_add]
      rw [i2, List.length_append, List.length_singleton, BitVec.add_assoc, BitVec.ofNat_add]
      rfl
    · intro k e he
      dsimp only [exec_add] at he
      by_cases hk : k < s1.log.length
      · rw [List.getElem?_append_left hk] at he; exact i3 k e he
      · rw [List.getElem?_append_right (by omega)] at he
        have : k - s1.log.length = 0 := by
          by_contra hne
          rw [List.getElem?_eq_none (by simp; omega)] at he
          exact absurd he (by simp)
        rw [this] at he
        simp only [List.getElem?_cons_zero, Option.some.injEq] at he
        subst he
        rw [show k = s1.log.length by omega]
        exact i2

/-- The value an exchange writes. -/
def written : Op w → List (BitVec w)
  | .exchange n => [n]
  | _ => []

theorem exchange_inv {win : Bool} {c : BitVec w} {prog : Nat → List (Op w)} {s' : St w} {s : St w} (hs : s = start c prog)
    (h : Steps win s s') (hx : ∀ t, ∀ op ∈ prog t, ∃ n, op = .exchange n) :
    (∀ t, ∀ op ∈ s'.prog t, ∃ n, op = .exchange n) ∧
      (s'.log.map (fun e => e.2.2) ++ [s'.cell]) = c :: s'.log.flatMap fun e => written e.2.1 := by
  induction h with
  | refl => subst hs; exact ⟨hx, rfl⟩
  | @step s1 _ h1 h2 ih =>
    obtain ⟨i1, i2⟩ := ih
    cases h2 with
    | @call t op rest hp =>
    obtain ⟨n, rfl⟩ := i1 t op (by rw [hp]; simp)
    refine ⟨?_, ?_⟩
    · intro u op hop
      dsimp only at hop
      by_cases hu : u = t
      · rw [if_pos hu] at hop
        exact i1 t op (by rw [hp]; simp [hop])
      · rw [if_neg hu] at hop; exact i1 u op hop
    · dsimp only [exec_xchg]
      rw [List.map_append, List.flatMap_append, ← List.cons_append, ← i2]
      simp [written]

theorem once_inv {win : Bool} {prog : Nat → List (Op w)} {s' : St w} {s : St w} (hs : s = start 0 prog)
    (h : Steps win s s') (hx : ∀ t, ∀ op ∈ prog t, ∃ n, n ≠ 0 ∧ op = .compareExchange n 0) :
    (∀ t, ∀ op ∈ s'.prog t, ∃ n, n ≠ 0 ∧ op = .compareExchange n 0) ∧
      ((s'.log = [] ∧ s'.cell = 0) ∨ ∃ t n rest, n ≠ 0 ∧ s'.cell = n ∧ s'.log = (t, .compareExchange n 0, 0) :: rest ∧
        ∀ e ∈ rest, e.2.2 = n) := by
  induction h with
  | refl => subst hs; exact ⟨hx, Or.inl ⟨rfl, rfl⟩⟩
  | @step s1 _ h1 h2 ih =>
    obtain ⟨i1, i2⟩ := ih
    cases h2 with
    | @call t op rest hp =>
    obtain ⟨n, hn, rfl⟩ := i1 t op (by rw [hp]; simp)
    refine ⟨?_, Or.inr ?_⟩
    · intro u op hop
      dsimp only at hop
      by_cases hu : u = t
      · rw [if_pos hu] at hop
        exact i1 t op (by rw [hp]; simp [hop])
      · rw [if_neg hu] at hop; exact i1 u op hop
    · simp only [exec_cas]
      rcases i2 with ⟨hl, hc⟩ | ⟨u, m, r, hm, hc, hl, hr⟩
      · rw [hl, hc]
        exact ⟨t, n, [], hn, by simp, rfl, by simp⟩
      · rw [hl, hc]
        refine ⟨u, m, r ++ [(t, .compareExchange n 0, m)], hm, by rw [if_neg hm], rfl, ?_⟩
        intro e he
        rcases List.mem_append.1 he with h | h
        · exact hr e h
        · simp only [List.mem_singleton] at h; subst h; rfl

theorem loop_inv {win : Bool} {f : BitVec w → BitVec w} {s s' : LoopSt w} (h : LoopSteps win f s s') :
    s'.cell = f^[s'.done - s.done] s.cell ∧ s.done ≤ s'.done := by
  induction h with
  | refl => exact ⟨by simp, Nat.le_refl _⟩
  | @step s1 _ h1 h2 ih =>
    obtain ⟨i1, i2⟩ := ih
    cases h2 with
    | load => exact ⟨i1, i2⟩
    | @success t x hp h' =>
      simp only [exec_cas] at h' ⊢
      refine ⟨?_, by omega⟩
      rw [if_pos h', ← h', i1, show s1.done + 1 - s.done = (s1.done - s.done) + 1 by omega, Function.iterate_succ_apply']
    | @retry t x hp h' =>
      simp only [exec_cas] at h' ⊢
      exact ⟨by rw [if_neg h', i1], i2⟩

theorem loop_total {win : Bool} {f : BitVec w → BitVec w} {n : Nat} {s s' : LoopSt w} (h : LoopSteps win f s s')
    (hn : ∀ t, n ≤ t → s.todo t = 0) (hp0 : ∀ t, s.pc t = .load) :
    (∀ t, n ≤ t → s'.todo t = 0) ∧ (∀ t x, s'.pc t = .swap x → 0 < s'.todo t) ∧
      s'.done + ∑ t ∈ Finset.range n, s'.todo t = s.done + ∑ t ∈ Finset.range n, s.todo t := by
  induction h with
  | refl => exact ⟨hn, fun t x hx => (by rw [hp0 t] at hx; cases hx), rfl⟩
  | @step s1 _ h1 h2 ih =>
    obtain ⟨i1, i2, i3⟩ := ih
    cases h2 with
    | @load t hp h' =>
      refine ⟨i1, fun u x hx => ?_, i3⟩
      dsimp only at hx ⊢
      by_cases hu : u = t
      · subst hu; exact h'
      · rw [if_neg hu] at hx; exact i2 u x hx
    | @success t x hp h' =>
      have hpos := i2 t x hp
      have ht : t < n := by
        by_contra hh
        have := i1 t (by omega)
        omega
      refine ⟨?_, ?_, ?_⟩
      · intro u hu
        dsimp only
        rw [if_neg (by omega)]; exact i1 u hu
      · intro u x hx
        dsimp only at hx ⊢
        by_cases hu : u = t
        · rw [if_pos hu] at hx; cases hx
        · rw [if_neg hu] at hx ⊢; exact i2 u x hx
      · rw [← i3]
        dsimp only
        have hmem : t ∈ Finset.range n := Finset.mem_range.2 ht
        rw [← Finset.add_sum_erase _ _ hmem, ← Finset.add_sum_erase _ (fun t => s1.todo t) hmem]
        have e : ∑ u ∈ (Finset.range n).erase t, (if u = t then s1.todo t - 1 else s1.todo u) =
            ∑ u ∈ (Finset.range n).erase t, s1.todo u := by
          apply Finset.sum_congr rfl
          intro u hu
          rw [if_neg (Finset.ne_of_mem_erase hu)]
        rw [e, if_pos rfl]
        omega
    | @retry t x hp h' =>
      refine ⟨i1, fun u x hx => ?_, i3⟩
      dsimp only at hx ⊢
      by_cases hu : u = t
      · rw [if_pos hu] at hx; cases hx
      · rw [if_neg hu] at hx; exact i2 u x hx

theorem spin_inv {win : Bool} (hw : 0 < w) {s s' : SpinSt w} (h : SpinSteps win s s')
    (h0 : s.cell = 0 ∧ ∀ t, s.inside t = false) :
    (s'.cell = 0 ∧ ∀ t, s'.inside t = false) ∨ (s'.cell = 1 ∧ ∃ t, ∀ u, s'.inside u = true ↔ u = t) := by
  have h10 : (1 : BitVec w) ≠ 0 := by
    intro h
    have := congrArg BitVec.toNat h
    have h2 : 1 < 2 ^ w := Nat.one_lt_two_pow (by omega)
    simp [Nat.mod_eq_of_lt h2] at this
  induction h with
  | refl => exact Or.inl h0
  | @step s1 _ h1 h2 ih =>
    cases h2 with
    | @enter t hp h' =>
      dsimp only [exec_xchg] at h' ⊢
      rcases ih with ⟨_, i2⟩ | ⟨i1, _⟩
      · refine Or.inr ⟨rfl, t, fun u => ?_⟩
        by_cases hu : u = t <;> simp [hu, i2]
      · rw [i1] at h'; exact absurd h' h10
    | @spin t hp h' =>
      dsimp only [exec_xchg] at h' ⊢
      rcases ih with ⟨i1, _⟩ | ⟨i1, i2⟩
      · exact absurd i1 h'
      · exact Or.inr ⟨rfl, i2⟩
    | @leave t hp =>
      dsimp only [exec_xchg]
      rcases ih with ⟨_, i2⟩ | ⟨i1, v, hv⟩
      · rw [i2 t] at hp; cases hp
      · have htv := (hv t).1 hp
        refine Or.inl ⟨rfl, fun u => ?_⟩
        by_cases hu : u = t
        · simp [hu]
        · rw [if_neg hu]
          cases hi : s1.inside u
          · rfl
          · exact absurd ((hv u).1 hi) (by rw [← htv]; exact hu)

end Verif.Atomic
