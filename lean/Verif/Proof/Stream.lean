import Verif.Model.Stream
import Verif.Spec.Stream
import Verif.Proof.Endian
set_option linter.unusedSimpArgs false

/-! Lemmas for C22. -/
namespace Verif.Stream
open Verif.Endian (store)
open Verif.Spec.Stream

theorem amount_le (s : Src) (n : Nat) : s.amount n ≤ n ∧ s.amount n ≤ s.rest.length := by
  rw [Src.amount]; omega

theorem amount_zero (s : Src) (n : Nat) : s.amount n = 0 ↔ n = 0 ∨ s.rest = [] := by
  rw [Src.amount, ← List.length_eq_zero_iff]; omega

theorem store_ok (dst : List UInt8) (off : Nat) (bs : List UInt8) (h : off + bs.length ≤ dst.length) :
    store dst off bs = .ok (splice dst off bs) := by rw [store, if_pos h]; rfl

theorem splice_length (buf a : List UInt8) (p : Nat) (h : p + a.length ≤ buf.length) : (splice buf p a).length = buf.length := by
  simp [splice]; omega

/-- Writing `b` behind `a`. -/
theorem splice_splice (buf a b : List UInt8) (p : Nat) (h : p + a.length + b.length ≤ buf.length) :
    splice (splice buf p a) (p + a.length) b = splice buf p (a ++ b) := by
  have hl : (buf.take p ++ a).length = p + a.length := by simp; omega
  have e1 : (splice buf p a).take (p + a.length) = buf.take p ++ a := by
    rw [splice, List.take_left' hl]
  have e2 : (splice buf p a).drop (p + a.length + b.length) = buf.drop (p + a.length + b.length) := by
    rw [splice, ← hl, List.drop_length_add_append, List.drop_drop]
  rw [splice, e1, e2, splice, List.length_append, List.append_assoc, List.append_assoc, List.append_assoc, List.append_assoc,
    Nat.add_assoc]

theorem splice_nil (buf : List UInt8) (p : Nat) : splice buf p [] = buf := by simp [splice]

theorem readLoop_spec (fuel : Nat) : ∀ (buf : List UInt8) (p size : Nat) (s : Src), size < fuel → p + size ≤ buf.length →
    ∃ s', readLoop fuel buf p size s = .ok (decide (size ≤ s.rest.length), splice buf p (s.rest.take size), s') ∧
      s'.rest = s.rest.drop size ∧ s'.frag = s.frag := by
  induction fuel with
  | zero => intro buf p size s h; omega
  | succ fuel ih =>
    intro buf p size s hf hp
    rw [readLoop]
    by_cases h0 : size > 0
    · rw [if_pos h0]
      obtain ⟨a1, a2⟩ := amount_le s size
      have ht : (s.rest.take (s.amount size)).length = s.amount size := by rw [List.length_take]; omega
      rw [readSome, store_ok _ _ _ (by omega)]
      simp only [Res.ok_bind, Res.pure_eq]
      by_cases hz : s.amount size = 0
      · rw [if_pos hz]
        rcases (amount_zero s size).mp hz with h | h
        · omega
        · refine ⟨s.next size, ?_, by simp [Src.next, h], rfl⟩
          rw [h]
          simp [splice_nil, show size ≠ 0 by omega]
      · rw [if_neg hz]
        obtain ⟨s', e1, e2, e3⟩ := ih (splice buf p (s.rest.take (s.amount size))) (p + s.amount size) (size - s.amount size)
          (s.next size) (by omega) (by rw [splice_length _ _ _ (by omega)]; omega)
        refine ⟨s', ?_, ?_, by rw [e3]; rfl⟩
        · rw [e1]
          have hd : (size - s.amount size ≤ (s.next size).rest.length) ↔ size ≤ s.rest.length := by
            simp only [Src.next, List.length_drop]; omega
          have hs : splice (splice buf p (s.rest.take (s.amount size))) (p + s.amount size)
              ((s.next size).rest.take (size - s.amount size)) = splice buf p (s.rest.take size) := by
            have := splice_splice buf (s.rest.take (s.amount size)) ((s.next size).rest.take (size - s.amount size)) p
              (by rw [List.length_take, List.length_take]; omega)
            rw [ht] at this
            rw [this, Src.next, ← List.take_add, show s.amount size + (size - s.amount size) = size by omega]
          rw [hs]
          simp only [hd]
        · rw [e2, Src.next, List.drop_drop, show s.amount size + (size - s.amount size) = size by omega]
    · rw [if_neg h0]
      have : size = 0 := by omega
      subst this
      exact ⟨s, by simp [splice], by simp, rfl⟩

theorem read_ok (buf : List UInt8) (size : Nat) (s : Src) (hb : size ≤ buf.length) (h : size ≤ s.rest.length) :
    ∃ s', read buf size s = .ok (s.rest.take size ++ buf.drop size, s') ∧ s'.rest = s.rest.drop size ∧ s'.frag = s.frag := by
  obtain ⟨s', e1, e2, e3⟩ := readLoop_spec (size + 1) buf 0 size s (by omega) (by omega)
  refine ⟨s', ?_, e2, e3⟩
  rw [read, readFlag, e1]
  simp only [Res.ok_bind, h, decide_true, Bool.not_true, Bool.false_eq_true, if_false, Res.pure_eq, splice, List.take_zero,
    List.nil_append, List.length_take, Nat.zero_add, Nat.min_eq_left h]

theorem read_throw (buf : List UInt8) (size : Nat) (s : Src) (hb : size ≤ buf.length) (h : s.rest.length < size) :
    read buf size s = .throw := by
  obtain ⟨s', e1, e2, e3⟩ := readLoop_spec (size + 1) buf 0 size s (by omega) (by omega)
  rw [read, readFlag, e1]
  simp [show ¬ size ≤ s.rest.length by omega]

end Verif.Stream
