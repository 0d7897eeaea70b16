import Verif.Proof.Parallel
import Verif.Model.ParallelSigned

/-!
# C162: `parallel_for` with a signed index type
-/
set_option linter.unusedSimpArgs false

namespace Verif.Props.ParallelSigned
open Verif.ParallelSigned
open Verif.Parallel (bnd bnd_succ bnd_le bnd_mono bnd_total flatMap_bnd)

theorem add_ok {w : Nat} {a b : Int} (h0 : 0 ≤ a + b) (h1 : a + b < (2 ^ (w - 1) : Int)) : add w a b = .ok (a + b) := by
  have : (0 : Int) ≤ 2 ^ (w - 1) := Int.pow_nonneg (by decide)
  rw [add, if_pos ⟨by omega, h1⟩]

/-- The loop of a thread calls the numbers of its range. -/
theorem threadLoop_eq (w : Nat) (e : Nat) (he : (e : Int) < 2 ^ (w - 1)) (fuel : Nat) : ∀ i : Nat, i + fuel = e →
    threadLoop w e fuel i = .ok ((List.range' i fuel).map Int.ofNat) := by
  induction fuel with
  | zero => intro i hi; rw [threadLoop, if_neg (by omega)]; rfl
  | succ fuel ih =>
    intro i hi
    rw [threadLoop, if_pos (by omega)]
    rw [add_ok (by omega) (by omega)]
    have := ih (i + 1) (by omega)
    rw [show ((i + 1 : Nat) : Int) = (i : Int) + 1 by omega] at this
    simp [this, List.range'_succ]

theorem rangeLoop_eq (w n t : Nat) (ht : 0 < t) (htn : t ≤ n) (hn : (n : Int) < 2 ^ (w - 1)) (fuel : Nat) : ∀ i : Nat, i + fuel = t →
    rangeLoop w (n / t : Nat) (n % t : Nat) t fuel i (bnd (n / t) (n % t) i : Nat) =
      .ok ((List.range' i fuel).map (fun j => (((bnd (n / t) (n % t) j : Nat) : Int), ((bnd (n / t) (n % t) (j + 1) : Nat) : Int)))) := by
  induction fuel with
  | zero => intro i hi; rw [rangeLoop, if_neg (by omega)]; rfl
  | succ fuel ih =>
    intro i hi
    have hle : bnd (n / t) (n % t) (i + 1) ≤ n := by
      have := bnd_mono (n / t) (n % t) (show i + 1 ≤ t by omega)
      rwa [bnd_total n t ht] at this
    have hs := bnd_succ (n / t) (n % t) i
    have hih := ih (i + 1) (by omega)
    rw [rangeLoop, if_pos (by omega)]
    simp only [List.range'_succ, List.map_cons]
    generalize n / t = q at *
    generalize n % t = r at *
    rw [add_ok (by omega) (by split at hs <;> omega)]
    have ho : oneMore w i r ((bnd q r i : Nat) + (q : Int)) = .ok ((bnd q r (i + 1) : Nat) : Int) := by
      simp only [oneMore]
      split at hs
      · rw [if_pos (by omega), add_ok (by omega) (by omega)]; congr 1; omega
      · rw [if_neg (by omega)]; congr 1; omega
    simp only [Res.ok_bind, ho]
    rw [add_ok (by omega) (by omega)]
    rw [show ((i + 1 : Nat) : Int) = (i : Int) + 1 by omega] at hih
    simp [hih]

theorem threads_eq (w : Nat) (l : List (Nat × Nat)) (h : ∀ r ∈ l, r.1 ≤ r.2 ∧ (r.2 : Int) < 2 ^ (w - 1)) :
    threads w (l.map fun r => ((r.1 : Int), (r.2 : Int))) = .ok ((l.flatMap fun r => List.range' r.1 (r.2 - r.1)).map Int.ofNat) := by
  induction l with
  | nil => rfl
  | cons r l ih =>
    have h1 := h r (by simp)
    have h2 := ih fun x hx => h x (by simp [hx])
    have h3 := threadLoop_eq w r.2 h1.2 (r.2 - r.1) r.1 (by omega)
    have h4 : ((r.2 : Int) - (r.1 : Int)).toNat = r.2 - r.1 := by omega
    simp only [List.map_cons, threads, h4, h3, h2, Res.ok_bind, Res.pure_eq, List.flatMap_cons, List.map_append]

/-- C162: with a signed index type, for every number that is not negative and every positive number of threads, no arithmetic overflows, no
element behind the array of threads is used and the calls are for 0, 1, ..., n - 1, each once. -/
theorem C162_signed (w : Nat) (n t : Int) (hn : 0 ≤ n) (hn' : n < 2 ^ (w - 1)) (ht : 0 < t) :
    calls w n t = .ok ((List.range n.toNat).map Int.ofNat) := by
  by_cases h0 : n = 0
  · subst h0; rfl
  · obtain ⟨n, rfl⟩ := Int.eq_ofNat_of_zero_le hn
    obtain ⟨t, rfl⟩ := Int.eq_ofNat_of_zero_le (Int.le_of_lt ht)
    have key : ∀ u : Nat, 0 < u → u ≤ n → (rangeLoop w (Int.tdiv n u) (Int.tmod n u) u (u : Int).toNat 0 0 >>= threads w) =
        .ok ((List.range n).map Int.ofNat) := by
      intro u hu hun
      have h1 := rangeLoop_eq w n u hu hun hn' u 0 (by omega)
      rw [show bnd (n / u) (n % u) 0 = 0 by simp [bnd]] at h1
      rw [← Int.ofNat_tdiv, ← Int.ofNat_tmod]
      simp only [Int.toNat_natCast]
      rw [show ((0 : Nat) : Int) = 0 from rfl] at h1
      rw [h1, Res.ok_bind]
      have h2 := threads_eq w ((List.range' 0 u).map fun j => (bnd (n / u) (n % u) j, bnd (n / u) (n % u) (j + 1))) (by
        intro r hr
        simp only [List.mem_map, List.mem_range'_1] at hr
        obtain ⟨j, hj, rfl⟩ := hr
        have h3 := bnd_mono (n / u) (n % u) (show j + 1 ≤ u by omega)
        rw [bnd_total n u hu] at h3
        exact ⟨bnd_le _ _ _, by simp only; omega⟩)
      rw [List.map_map] at h2
      rw [show ((fun r : Nat × Nat => ((r.1 : Int), (r.2 : Int))) ∘ fun j => (bnd (n / u) (n % u) j, bnd (n / u) (n % u) (j + 1))) =
        fun j => (((bnd (n / u) (n % u) j : Nat) : Int), ((bnd (n / u) (n % u) (j + 1) : Nat) : Int)) from rfl] at h2
      rw [h2, List.flatMap_map, ← List.range_eq_range']
      have h4 := flatMap_bnd (n / u) (n % u) u
      rw [bnd_total n u hu] at h4
      simp only [h4]
    rw [calls, ranges, if_neg h0, if_neg (by omega)]
    simp only []
    by_cases hc : (t : Int) > n
    · rw [if_pos hc, if_neg (by omega)]
      exact key n (by omega) (Nat.le_refl _)
    · rw [if_neg hc, if_neg (by omega)]
      exact key t (by omega) (by omega)

/-- C162: if one of the two is negative (and the first is not 0), or there are no threads, an exception is thrown before any call. -/
theorem C162_negative (w : Nat) (n t : Int) (h0 : n ≠ 0) (h : n < 0 ∨ t ≤ 0) : calls w n t = .throw := by
  rw [calls, ranges, if_neg h0]
  by_cases ht : t = 0
  · rw [if_pos ht]; rfl
  · rw [if_neg ht]
    simp only []
    rw [if_pos (by split <;> omega)]
    rfl

/-- C162: whatever the arguments are, nothing is undefined. -/
theorem C162_defined (w : Nat) (n t : Int) (hn : n < 2 ^ (w - 1)) : calls w n t ≠ .ub := by
  by_cases h0 : n = 0
  · subst h0; exact fun h => by cases h
  · by_cases h : n < 0 ∨ t ≤ 0
    · rw [C162_negative w n t h0 h]; exact fun h => by cases h
    · rw [C162_signed w n t (by omega) hn (by omega)]; exact fun h => by cases h

/-- The hypotheses of the theorems are met by the largest `int` for seven threads and by negative numbers; a type too short would overflow. -/
example : (2147483647 : Int) < 2 ^ (32 - 1) ∧ calls 8 10 3 = .ok [0, 1, 2, 3, 4, 5, 6, 7, 8, 9] ∧ calls 32 (-5) 3 = .throw ∧ calls 32 5 (-3) = .throw ∧
    ranges 32 10 3 = .ok [(0, 4), (4, 7), (7, 10)] ∧ calls 4 10 3 = .ub := by decide +kernel

#print axioms C162_signed
#print axioms C162_negative
#print axioms C162_defined

end Verif.Props.ParallelSigned
