import Verif.Model.UString
import Verif.Spec.UString
import Verif.Proof.Utf
set_option linter.unusedSimpArgs false

/-! Lemmas for C61 and C62. -/
namespace Verif.UString
open Verif.Utf Verif.Spec.Utf Verif.Spec.UString

theorem seek8_spec (s : List Nat) (hs : s ≠ []) :
    (∃ c r, getCharFromUtf8 s = .ok (some (c, r)) ∧ seek8 s = .ok (some c, r)) ∨
    (getCharFromUtf8 s = .ok none ∧ ∃ p r, seek8 s = .ok (none, r) ∧ s = p ++ r ∧ 1 ≤ p.length ∧ p.length ≤ 4) := by
  rcases s with _ | ⟨c0, s⟩
  · exact absurd rfl hs
  rw [getCharFromUtf8, seek8.eq_def]
  dsimp only
  split
  · exact .inl ⟨_, _, rfl, rfl⟩
  split
  · rcases s with _ | ⟨c1, s⟩
    · exact .inr ⟨rfl, [c0], [], rfl, rfl, by simp, by simp⟩
    · simp only [decode2]
      split
      · exact .inl ⟨_, _, rfl, rfl⟩
      · exact .inr ⟨rfl, [c0, c1], s, rfl, rfl, by simp, by simp⟩
  split
  · rcases s with _ | ⟨c1, _ | ⟨c2, s⟩⟩
    · exact .inr ⟨rfl, [c0], [], rfl, rfl, by simp, by simp⟩
    · exact .inr ⟨rfl, [c0, c1], [], rfl, rfl, by simp, by simp⟩
    · simp only [decode3]
      split
      · split
        · exact .inl ⟨_, _, rfl, rfl⟩
        · exact .inr ⟨rfl, [c0, c1, c2], s, rfl, rfl, by simp, by simp⟩
      · exact .inr ⟨rfl, [c0, c1, c2], s, rfl, rfl, by simp, by simp⟩
  split
  · rcases s with _ | ⟨c1, _ | ⟨c2, _ | ⟨c3, s⟩⟩⟩
    · exact .inr ⟨rfl, [c0], [], rfl, rfl, by simp, by simp⟩
    · exact .inr ⟨rfl, [c0, c1], [], rfl, rfl, by simp, by simp⟩
    · exact .inr ⟨rfl, [c0, c1, c2], [], rfl, rfl, by simp, by simp⟩
    · simp only [decode4]
      split
      · split
        · exact .inl ⟨_, _, rfl, rfl⟩
        · exact .inr ⟨rfl, [c0, c1, c2, c3], s, rfl, rfl, by simp, by simp⟩
      · exact .inr ⟨rfl, [c0, c1, c2, c3], s, rfl, rfl, by simp, by simp⟩
  · exact .inr ⟨rfl, [c0], s, rfl, rfl, by simp, by simp⟩

/-- One step: a character or a piece to skip. -/
theorem seek8_bytes (s : List Nat) (hs : s ≠ []) (hb : ∀ b ∈ s, b < 256) :
    (∃ n r, Scalar n ∧ s = utf8 n ++ r ∧ seek8 s = .ok (some (n : Int), r)) ∨
    (¬ StartsWell s ∧ ∃ p r, seek8 s = .ok (none, r) ∧ s = p ++ r ∧ 1 ≤ p.length ∧ p.length ≤ 4) := by
  rcases seek8_spec s hs with ⟨c, r, h1, h2⟩ | ⟨h1, h2⟩
  · obtain ⟨n, e1, e2, e3, _⟩ := decode_accepts s r c hb h1
    exact .inl ⟨n, r, e2, e3, by rw [h2, e1]⟩
  · refine .inr ⟨?_, h2⟩
    rintro ⟨n, r, hn, rfl⟩
    rw [decode_utf8 n hn] at h1
    simp at h1

theorem next_ignore : ∀ (fuel : Nat) (s : List Nat), s.length < fuel → (∀ b ∈ s, b < 256) →
    (next true fuel s = .ok (.stop, []) ∧ Pieces s []) ∨
    (∃ (n : Nat) (r : List Nat), next true fuel s = .ok (.char (n : Int), r) ∧ r.length < s.length ∧ (∀ b ∈ r, b < 256) ∧
      ∀ cs, Pieces r cs → Pieces s (n :: cs)) := by
  intro fuel
  induction fuel with
  | zero => intro s h; omega
  | succ fuel ih =>
    intro s h hb
    rw [next]
    rcases s with _ | ⟨c0, s⟩
    · exact .inl ⟨rfl, .nil⟩
    rw [if_neg (by simp)]
    rcases seek8_bytes (c0 :: s) (by simp) hb with ⟨n, r, hn, e1, e2⟩ | ⟨hw, p, r, e1, e2, h1, h2⟩
    · refine .inr ⟨n, r, by rw [e2]; rfl, ?_, fun b hbr => hb b (by rw [e1]; simp [hbr]), fun cs hcs => ?_⟩
      · have hp : 0 < (utf8 n).length := List.length_pos_iff.mpr (utf8_ne_nil n)
        rw [e1, List.length_append]; omega
      · rw [e1]; exact .good n r cs hn hcs
    · have hl : (c0 :: s).length = p.length + r.length := by rw [e2, List.length_append]
      have hbr : ∀ b ∈ r, b < 256 := fun b hbr => hb b (by rw [e2]; simp [hbr])
      rw [e1]
      simp only [Res.ok_bind, if_true]
      rcases ih r (by omega) hbr with ⟨k1, k2⟩ | ⟨n, q, k1, k2, k3, k4⟩
      · refine .inl ⟨k1, ?_⟩
        rw [e2]; exact .skip p r [] h1 h2 (by rw [← e2]; exact hw) k2
      · refine .inr ⟨n, q, k1, by omega, k3, fun cs hcs => ?_⟩
        rw [e2]; exact .skip p r _ h1 h2 (by rw [← e2]; exact hw) (k4 cs hcs)

theorem all_ignore : ∀ (fuel : Nat) (s : List Nat), s.length < fuel → (∀ b ∈ s, b < 256) →
    ∃ cs : List Nat, all true fuel s = .ok (cs.map fun n : Nat => (n : Int), .stop, []) ∧ Pieces s cs := by
  intro fuel
  induction fuel with
  | zero => intro s h; omega
  | succ fuel ih =>
    intro s h hb
    rw [all]
    rcases next_ignore (s.length + 1) s (by omega) hb with ⟨k1, k2⟩ | ⟨n, r, k1, k2, k3, k4⟩
    · exact ⟨[], by rw [k1]; rfl, k2⟩
    · obtain ⟨cs, c1, c2⟩ := ih r (by omega) k3
      exact ⟨n :: cs, by rw [k1]; simp only [Res.ok_bind]; rw [c1]; rfl, k4 cs c2⟩

theorem all_strict : ∀ (fuel : Nat) (s : List Nat), s.length < fuel → (∀ b ∈ s, b < 256) →
    ∃ (cs : List Nat) (t : List Nat), (∀ c ∈ cs, Scalar c) ∧ s = utf8s cs ++ t ∧
      ((t = [] ∧ all false fuel s = .ok (cs.map fun n : Nat => (n : Int), .stop, [])) ∨
       (t ≠ [] ∧ ¬ StartsWell t ∧ ∃ p r, t = p ++ r ∧ 1 ≤ p.length ∧ p.length ≤ 4 ∧
         all false fuel s = .ok (cs.map fun n : Nat => (n : Int), .bad, r))) := by
  intro fuel
  induction fuel with
  | zero => intro s h; omega
  | succ fuel ih =>
    intro s h hb
    rw [all, next]
    rcases s with _ | ⟨c0, s⟩
    · exact ⟨[], [], by simp, rfl, .inl ⟨rfl, rfl⟩⟩
    rw [if_neg (by simp)]
    rcases seek8_bytes (c0 :: s) (by simp) hb with ⟨n, r, hn, e1, e2⟩ | ⟨hw, p, r, e1, e2, h1, h2⟩
    · have hp : 0 < (utf8 n).length := List.length_pos_iff.mpr (utf8_ne_nil n)
      have hl : (c0 :: s).length = (utf8 n).length + r.length := by rw [e1, List.length_append]
      obtain ⟨cs, t, k1, k2, k3⟩ := ih r (by omega) (fun b hbr => hb b (by rw [e1]; simp [hbr]))
      refine ⟨n :: cs, t, by simpa using ⟨hn, k1⟩, by rw [e1, k2, utf8s_cons, List.append_assoc], ?_⟩
      rw [e2]
      rcases k3 with ⟨k3, k4⟩ | ⟨k3, k4, q, r', k5, k6, k7, k8⟩
      · refine .inl ⟨k3, ?_⟩
        simp only [Res.ok_bind, Res.pure_eq]
        rw [k4]; rfl
      · refine .inr ⟨k3, k4, q, r', k5, k6, k7, ?_⟩
        simp only [Res.ok_bind, Res.pure_eq]
        rw [k8]; rfl
    · refine ⟨[], c0 :: s, by simp, rfl, .inr ⟨by simp, hw, p, r, e2, h1, h2, ?_⟩⟩
      rw [e1]; rfl

theorem append8_spec : ∀ (fuel : Nat) (str : List Int) (s : List Nat), s.length < fuel → (∀ b ∈ s, b < 256) →
    ∃ (cs : List Nat) (t : List Nat), (∀ c ∈ cs, Scalar c) ∧ s = utf8s cs ++ t ∧ (t ≠ [] → ¬ StartsWell t) ∧
      append8 fuel str s = .ok (decide (t ≠ []), str ++ cs.map fun n : Nat => (n : Int)) := by
  intro fuel
  induction fuel with
  | zero => intro str s h; omega
  | succ fuel ih =>
    intro str s h hb
    rw [append8]
    rcases s with _ | ⟨c0, s⟩
    · exact ⟨[], [], by simp, rfl, by simp, by simp⟩
    rw [if_neg (by simp)]
    rcases seek8_spec (c0 :: s) (by simp) with ⟨c, r, h1, _⟩ | ⟨h1, _⟩
    · obtain ⟨n, e1, e2, e3, _⟩ := decode_accepts _ r c hb h1
      have hp : 0 < (utf8 n).length := List.length_pos_iff.mpr (utf8_ne_nil n)
      have hl : (c0 :: s).length = (utf8 n).length + r.length := by rw [e3, List.length_append]
      obtain ⟨cs, t, k1, k2, k3, k4⟩ := ih (str ++ [c]) r (by omega) (fun b hbr => hb b (by rw [e3]; simp [hbr]))
      refine ⟨n :: cs, t, by simpa using ⟨e2, k1⟩, by rw [e3, k2, utf8s_cons, List.append_assoc], k3, ?_⟩
      rw [h1]
      simp only [Res.ok_bind]
      rw [k4, e1]; simp
    · refine ⟨[], c0 :: s, by simp, rfl, fun _ => ?_, by rw [h1]; simp⟩
      rintro ⟨n, r, hn, e⟩
      rw [e, decode_utf8 n hn] at h1
      simp at h1

/-! ## Order -/

theorem compare_sign : ∀ a b : List Int, compare a b = -1 ∨ compare a b = 0 ∨ compare a b = 1
  | [], [] => by simp [compare]
  | [], _ :: _ => by simp [compare]
  | _ :: _, [] => by simp [compare]
  | a :: as, b :: bs => by
    rw [compare]
    split
    · simp
    · split
      · simp
      · exact compare_sign as bs

theorem compare_zero : ∀ a b : List Int, compare a b = 0 ↔ a = b
  | [], [] => by simp [compare]
  | [], _ :: _ => by simp [compare]
  | _ :: _, [] => by simp [compare]
  | a :: as, b :: bs => by
    rw [compare]
    split
    · simp; omega
    · split
      · simp; omega
      · rw [compare_zero as bs]
        simp; omega

theorem compare_neg : ∀ a b : List Int, compare a b < 0 ↔ Before (· < ·) a b
  | [], [] => by
    simp only [compare]
    exact ⟨fun h => by omega, fun h => by cases h⟩
  | [], b :: bs => by
    simp only [compare]
    exact ⟨fun _ => .nil b bs, fun _ => by omega⟩
  | a :: as, [] => by
    simp only [compare]
    exact ⟨fun h => by omega, fun h => by cases h⟩
  | a :: as, b :: bs => by
    rw [compare]
    split
    · rename_i h
      exact ⟨fun _ => .head a b as bs h, fun _ => by omega⟩
    · split
      · rename_i h1 h2
        refine ⟨fun h => by omega, fun h => ?_⟩
        cases h with
        | head _ _ _ _ h => omega
        | tail _ _ _ h => omega
      · rename_i h1 h2
        have : a = b := by omega
        subst this
        rw [compare_neg as bs]
        refine ⟨fun h => .tail a as bs h, fun h => ?_⟩
        cases h with
        | head _ _ _ _ h => omega
        | tail _ _ _ h => exact h

theorem compare_swap : ∀ a b : List Int, compare b a = - compare a b
  | [], [] => by simp [compare]
  | [], _ :: _ => by simp [compare]
  | _ :: _, [] => by simp [compare]
  | a :: as, b :: bs => by
    rw [compare, compare]
    by_cases h1 : a < b
    · rw [if_neg (show ¬ b < a by omega), if_pos h1, if_pos h1]; rfl
    · by_cases h2 : b < a
      · rw [if_pos h2, if_neg h1, if_pos h2]
      · rw [if_neg h2, if_neg h1, if_neg h1, if_neg h2]
        exact compare_swap as bs

theorem before_append {p x y : List Nat} (h : Before (· < ·) x y) : Before (· < ·) (p ++ x) (p ++ y) := by
  induction p with
  | nil => exact h
  | cons a p ih => exact .tail a _ _ ih

theorem before_irrefl : ∀ x : List Nat, ¬ Before (· < ·) x x
  | [] => fun h => by cases h
  | a :: x => fun h => by
    cases h with
    | head _ _ _ _ h => omega
    | tail _ _ _ h => exact before_irrefl x h

theorem before_asymm : ∀ x y : List Nat, Before (· < ·) x y → ¬ Before (· < ·) y x
  | [], [] => fun h => by cases h
  | [], _ :: _ => fun _ h => by cases h
  | _ :: _, [] => fun h => by cases h
  | a :: x, b :: y => fun h1 h2 => by
    cases h1 with
    | head _ _ _ _ h =>
      cases h2 with
      | head _ _ _ _ h' => omega
      | tail _ _ _ h' => omega
    | tail _ _ _ h =>
      cases h2 with
      | head _ _ _ _ h' => omega
      | tail _ _ _ h' => exact before_asymm x y h h'

/-- The forms of two characters differ at some place, and there as the characters do. -/
theorem utf8_before {m n : Nat} (hn : n ≤ 0x10ffff) (h : m < n) (x y : List Nat) :
    Before (· < ·) (utf8 m ++ x) (utf8 n ++ y) := by
  rw [utf8, utf8]
  by_cases m1 : m ≤ 0x7f
  · rw [if_pos m1]
    by_cases n1 : n ≤ 0x7f
    · rw [if_pos n1]; exact .head _ _ _ _ h
    · rw [if_neg n1]
      split
      · exact .head _ _ _ _ (by omega)
      · split <;> exact .head _ _ _ _ (by omega)
  · rw [if_neg m1, if_neg (show ¬ n ≤ 0x7f by omega)]
    by_cases m2 : m ≤ 0x7ff
    · rw [if_pos m2]
      by_cases n2 : n ≤ 0x7ff
      · rw [if_pos n2]
        by_cases e : m / 64 = n / 64
        · rw [e]; exact .tail _ _ _ (.head _ _ _ _ (by omega))
        · exact .head _ _ _ _ (by omega)
      · rw [if_neg n2]
        split <;> exact .head _ _ _ _ (by omega)
    · rw [if_neg m2, if_neg (show ¬ n ≤ 0x7ff by omega)]
      by_cases m3 : m ≤ 0xffff
      · rw [if_pos m3]
        by_cases n3 : n ≤ 0xffff
        · rw [if_pos n3]
          by_cases e : m / 4096 = n / 4096
          · rw [e]
            refine .tail _ _ _ ?_
            by_cases e2 : m / 64 % 64 = n / 64 % 64
            · rw [e2]; exact .tail _ _ _ (.head _ _ _ _ (by omega))
            · exact .head _ _ _ _ (by omega)
          · exact .head _ _ _ _ (by omega)
        · rw [if_neg n3]; exact .head _ _ _ _ (by omega)
      · rw [if_neg m3, if_neg (show ¬ n ≤ 0xffff by omega)]
        by_cases e : m / 262144 = n / 262144
        · rw [e]
          refine .tail _ _ _ ?_
          by_cases e2 : m / 4096 % 64 = n / 4096 % 64
          · rw [e2]
            refine .tail _ _ _ ?_
            by_cases e3 : m / 64 % 64 = n / 64 % 64
            · rw [e3]; exact .tail _ _ _ (.head _ _ _ _ (by omega))
            · exact .head _ _ _ _ (by omega)
          · exact .head _ _ _ _ (by omega)
        · exact .head _ _ _ _ (by omega)

theorem utf8s_before {cs ds : List Nat} (hd : ∀ c ∈ ds, c ≤ 0x10ffff) (h : Before (· < ·) cs ds) :
    Before (· < ·) (utf8s cs) (utf8s ds) := by
  induction h with
  | nil b bs =>
    rw [utf8s_cons]
    obtain ⟨x, xs, e⟩ := List.exists_cons_of_ne_nil (utf8_ne_nil b)
    rw [e]
    exact .nil _ _
  | head a b as bs h => exact utf8_before (hd b (by simp)) h _ _
  | tail a as bs _ ih => exact before_append (ih fun c hc => hd c (by simp [hc]))

theorem before_cast (a b : List Nat) :
    Before (· < ·) (a.map fun n : Nat => (n : Int)) (b.map fun n : Nat => (n : Int)) ↔ Before (· < ·) a b := by
  induction a generalizing b with
  | nil =>
    cases b with
    | nil => exact ⟨fun h => (by cases h), fun h => (by cases h)⟩
    | cons b bs => exact ⟨fun _ => .nil _ _, fun _ => .nil _ _⟩
  | cons x a ih =>
    cases b with
    | nil => exact ⟨fun h => (by cases h), fun h => (by cases h)⟩
    | cons y b =>
      simp only [List.map_cons]
      by_cases e : x = y
      · subst e
        constructor
        · intro h
          cases h with
          | head _ _ _ _ h => omega
          | tail _ _ _ h => exact .tail _ _ _ ((ih b).mp h)
        · intro h
          cases h with
          | head _ _ _ _ h => omega
          | tail _ _ _ h => exact .tail _ _ _ ((ih b).mpr h)
      · constructor
        · intro h
          generalize hx : (x : Int) = x', hy : (y : Int) = y' at h
          cases h with
          | head _ _ _ _ h => exact .head _ _ _ _ (by omega)
          | tail _ _ _ h => omega
        · intro h
          cases h with
          | head _ _ _ _ h => exact .head _ _ _ _ (by omega)
          | tail _ _ _ h => omega

theorem before_total (a b : List Nat) : Before (· < ·) a b ∨ a = b ∨ Before (· < ·) b a := by
  induction a generalizing b with
  | nil =>
    cases b with
    | nil => simp
    | cons b bs => exact .inl (.nil _ _)
  | cons x a ih =>
    cases b with
    | nil => exact .inr (.inr (.nil _ _))
    | cons y b =>
      rcases Nat.lt_trichotomy x y with h | h | h
      · exact .inl (.head _ _ _ _ h)
      · subst h
        rcases ih b with h | h | h
        · exact .inl (.tail _ _ _ h)
        · exact .inr (.inl (by rw [h]))
        · exact .inr (.inr (.tail _ _ _ h))
      · exact .inr (.inr (.head _ _ _ _ h))

theorem utf8s_before_iff {cs ds : List Nat} (hc : ∀ c ∈ cs, c ≤ 0x10ffff) (hd : ∀ c ∈ ds, c ≤ 0x10ffff) :
    Before (· < ·) cs ds ↔ Before (· < ·) (utf8s cs) (utf8s ds) := by
  refine ⟨utf8s_before hd, fun h => ?_⟩
  rcases before_total cs ds with h1 | h1 | h1
  · exact h1
  · rw [h1] at h; exact absurd h (before_irrefl _)
  · exact absurd (utf8s_before hc h1) (before_asymm _ _ h)

end Verif.UString
