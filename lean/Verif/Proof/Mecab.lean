import Verif.Model.Mecab
import Verif.Spec.Mecab

/-!
# Lemmas for C93
-/
set_option linter.unusedSimpArgs false
namespace Verif.Mecab
open Verif.Spec.Mecab

theorem isSkip_iff (b : UInt8) : isSkip b = decide (White b) := by
  rw [Bool.eq_iff_iff, decide_eq_true_eq]
  simp [isSkip, White, or_assoc]

theorem span_no : ∀ {w : List UInt8}, 32 ∉ w → w.dropWhile (· != 32) = []
  | [], _ => rfl
  | b :: w, h => by
    simp only [List.mem_cons, not_or] at h
    rw [List.dropWhile_cons_of_pos (by simpa using fun e => h.1 e.symm), span_no h.2]

theorem span_at {w q : List UInt8} (h : 32 ∉ w) :
    (w ++ 32 :: q).takeWhile (· != 32) = w ∧ (w ++ 32 :: q).dropWhile (· != 32) = 32 :: q := by
  have h' : ∀ x ∈ w, (x != 32) = true := fun x hx => by
    simp only [bne_iff_ne, ne_eq]; rintro rfl; exact h hx
  rw [List.takeWhile_append_of_pos h', List.dropWhile_append_of_pos h']
  simp

/-- The words of a list of pieces. -/
theorem loop_last : ∀ (w : List UInt8) (fuel : Nat), 32 ∉ w → w.length ≤ fuel →
    parseLoop fuel w = .ok (if trimmed w = [] then [] else [trimmed w])
  | [], fuel, _, _ => by cases fuel <;> rfl
  | b :: w, fuel + 1, h, hf => by
    rw [parseLoop, isSkip_iff]
    by_cases hb : White b
    · have ih := loop_last w fuel (fun hh => h (by simp [hh])) (by simpa using hf)
      have e : trimmed (b :: w) = trimmed w := by simp [trimmed, hb]
      rw [decide_eq_true hb, if_pos rfl, ih, e]
    · have e : trimmed (b :: w) = b :: w := by simp [trimmed, hb]
      rw [decide_eq_false hb, if_neg (by simp), span_no h, e, if_neg (by simp)]

theorem loop_step : ∀ (w q : List UInt8) (fuel : Nat) (ws : List (List UInt8)), 32 ∉ w → w.length + 1 + q.length ≤ fuel →
    (∀ f, q.length ≤ f → parseLoop f q = .ok ws) →
    parseLoop fuel (w ++ 32 :: q) = .ok (if trimmed w = [] then ws else trimmed w :: ws)
  | [], q, 0, ws, _, hf, _ => by simp at hf
  | _ :: _, q, 0, ws, _, hf, _ => by simp at hf
  | [], q, fuel + 1, ws, _, hf, hq => by
    rw [List.nil_append, parseLoop, if_pos (by decide), hq fuel (by simp at hf; omega)]
    rfl
  | b :: w, q, fuel + 1, ws, h, hf, hq => by
    rw [List.cons_append, parseLoop, isSkip_iff]
    by_cases hb : White b
    · have ih := loop_step w q fuel ws (fun hh => h (by simp [hh])) (by simp at hf; omega) hq
      have e : trimmed (b :: w) = trimmed w := by simp [trimmed, hb]
      rw [decide_eq_true hb, if_pos rfl, ih, e]
    · have e : trimmed (b :: w) = b :: w := by simp [trimmed, hb]
      rw [decide_eq_false hb, if_neg (by simp), ← List.cons_append, (span_at h).2, (span_at h).1, e, if_neg (by simp)]
      dsimp only
      rw [hq fuel (by simp at hf; omega)]
      rfl

theorem loop_joined : ∀ (ps : List (List UInt8)) (fuel : Nat), (∀ p ∈ ps, 32 ∉ p) → (joined ps).length ≤ fuel →
    parseLoop fuel (joined ps) = .ok ((ps.map trimmed).filter (· ≠ []))
  | [], fuel, _, _ => by cases fuel <;> rfl
  | [w], fuel, h, hf => by
    rw [joined, loop_last w fuel (h w (by simp)) hf]
    by_cases e : trimmed w = [] <;> simp [e]
  | w :: v :: ps, fuel, h, hf => by
    have ih := fun f => loop_joined (v :: ps) f (fun p hp => h p (by simp only [List.mem_cons] at hp ⊢; exact Or.inr hp))
    have ej : joined (w :: v :: ps) = w ++ 32 :: joined (v :: ps) := by rw [joined]; simp
    rw [ej] at hf ⊢
    rw [loop_step w (joined (v :: ps)) fuel _ (h w (by simp)) _ ih]
    · by_cases e : trimmed w = [] <;> simp [e]
    · simp only [List.length_append, List.length_cons] at hf; omega

theorem joined_blanks (ws : List (List UInt8)) (w : List UInt8) :
    (ws.flatMap fun x => x ++ [32]) ++ w = joined (ws ++ [w]) := by
  induction ws with
  | nil => rfl
  | cons x xs ih =>
    cases xs with
    | nil => simp [joined]
    | cons y ys => rw [List.flatMap_cons, List.append_assoc, ih]; simp [joined]

end Verif.Mecab
