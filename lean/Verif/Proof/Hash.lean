import Verif.Model.Hash
import Verif.Spec.Hash
import Verif.Proof.Endian

set_option linter.unusedSimpArgs false

namespace Verif.Hash
open Verif.Endian Verif.Spec.Endian Verif.Spec.Hash

theorem rotate_eq (x : BitVec 64) (s : Nat) (h : s < 64) : rotate x s = x.rotateLeft s := by
  rw [rotate, BitVec.rotateLeft_eq_rotateLeftAux_of_lt h, BitVec.rotateLeftAux]

/-- The model's record as the specification's. -/
def toSip (v : V) : Sip := { v0 := v.v0, v1 := v.v1, v2 := v.v2, v3 := v.v3 }

theorem half_eq (v : V) : toSip (half2 (half1 v)) = sipRound (toSip v) := by
  simp only [half1, half2, halfRound, toSip, sipRound]
  rw [rotate_eq _ _ (by decide), rotate_eq _ _ (by decide), rotate_eq _ _ (by decide),
    rotate_eq _ _ (by decide), rotate_eq _ _ (by decide), rotate_eq _ _ (by decide)]

theorem doubleRound_eq (v : V) : toSip (doubleRound v) = sipRound (sipRound (toSip v)) := by
  rw [doubleRound, half_eq, half_eq]

/-- The words of a byte string, without its rest. -/
def wordsOf (m : List UInt8) : List (BitVec 64) :=
  (List.range (m.length / 8)).map fun i => BitVec.ofNat 64 (valueLE ((m.drop (8 * i)).take 8))

theorem wordsOf_cons {m : List UInt8} (h : 8 ≤ m.length) :
    wordsOf m = BitVec.ofNat 64 (valueLE (m.take 8)) :: wordsOf (m.drop 8) := by
  have h1 : m.length / 8 = (m.drop 8).length / 8 + 1 := by simp; omega
  rw [wordsOf, wordsOf, h1, List.range_succ_eq_map, List.map_cons, List.map_map]
  congr 1
  apply List.map_congr_left
  intro i _
  simp only [Function.comp, List.drop_drop]
  congr 5
  omega

theorem sipLoop_eq : ∀ (fuel : Nat) (v : V) (m : List UInt8), m.length < fuel →
    ∃ v', sipLoop fuel v m = .ok (v', m.drop (8 * (m.length / 8))) ∧
      toSip v' = (wordsOf m).foldl sipCompress (toSip v) := by
  intro fuel
  induction fuel with
  | zero => intro _ _ h; omega
  | succ fuel ih =>
    intro v m hf
    rw [sipLoop]
    by_cases h : 8 ≤ m.length
    · rw [if_pos h, get64LEMem, load_eq (by omega), List.drop_zero]
      simp only [Res.ok_bind]
      obtain ⟨v', e, hv⟩ := ih _ (m.drop 8) (by simp; omega)
      rw [e]
      refine ⟨v', ?_, ?_⟩
      · rw [List.drop_drop]
        congr 3
        simp; omega
      · rw [hv, wordsOf_cons h, List.foldl_cons]
        congr 1
    · rw [if_neg h]
      have h0 : m.length / 8 = 0 := by omega
      refine ⟨v, ?_, ?_⟩
      · rw [h0]; rfl
      · rw [wordsOf, h0]; rfl

theorem sipTail_eq (m : List UInt8) : ∀ (n : Nat) (b : BitVec 64), n ≤ m.length → n ≤ 7 →
    b.toNat % 2 ^ (8 * n) = 0 →
    ∃ b', sipTail m n b = .ok b' ∧ b'.toNat = b.toNat + valueLE (m.take n) := by
  intro n
  induction n with
  | zero => intro b _ _ _; exact ⟨b, rfl, by simp [valueLE, valueBE]⟩
  | succ n ih =>
    intro b hn h7 hb
    rw [sipTail, at?_eq_ok (by omega)]
    simp only [Res.ok_bind]
    have hx : (m[n]'(by omega)).toNat < 256 := (m[n]'(by omega)).toNat_lt
    generalize hxx : (m[n]'(by omega)).toNat = x at *
    have hp : 2 ^ (8 * n) ≤ 2 ^ 48 := Nat.pow_le_pow_right (by decide) (by omega)
    have hp8 : 2 ^ (8 * (n + 1)) = 256 * 2 ^ (8 * n) := by
      rw [Nat.mul_succ, Nat.pow_add, Nat.mul_comm]
    have hp1 : 1 ≤ 2 ^ (8 * n) := Nat.one_le_two_pow
    have hxs : (BitVec.ofNat 64 x <<< (8 * n)).toNat = x * 2 ^ (8 * n) := by
      rw [BitVec.toNat_shiftLeft, BitVec.toNat_ofNat, Nat.mod_eq_of_lt (a := x) (by omega), Nat.shiftLeft_eq]
      apply Nat.mod_eq_of_lt
      calc x * 2 ^ (8 * n) ≤ 256 * 2 ^ 48 := Nat.mul_le_mul (by omega) hp
        _ < 2 ^ 64 := by decide
    have hlt : x * 2 ^ (8 * n) < 2 ^ (8 * (n + 1)) := by
      rw [hp8]; exact Nat.mul_lt_mul_of_pos_right hx (by omega)
    have hor : (b ||| BitVec.ofNat 64 x <<< (8 * n)).toNat = b.toNat + x * 2 ^ (8 * n) := by
      rw [BitVec.toNat_or, hxs, Nat.or_comm]
      have hdiv := Nat.div_add_mod b.toNat (2 ^ (8 * (n + 1)))
      rw [hb, Nat.add_zero] at hdiv
      generalize b.toNat / 2 ^ (8 * (n + 1)) = q at hdiv
      rw [← hdiv, Nat.mul_comm _ q, ← Nat.shiftLeft_eq q, or_shift _ _ _ hlt, Nat.shiftLeft_eq, Nat.add_comm]
    obtain ⟨b', e, hb'⟩ := ih (b ||| BitVec.ofNat 64 x <<< (8 * n)) (by omega) (by omega) (by
      rw [hor]
      have : b.toNat % 2 ^ (8 * n) = 0 := by
        have h1 : 2 ^ (8 * n) ∣ 2 ^ (8 * (n + 1)) := by rw [hp8]; exact Nat.dvd_mul_left _ _
        exact Nat.mod_eq_zero_of_dvd (Nat.dvd_trans h1 (Nat.dvd_of_mod_eq_zero hb))
      rw [Nat.add_mod, this, Nat.mul_mod_left]; rfl)
    refine ⟨b', e, ?_⟩
    rw [hb', hor, List.take_succ_eq_append_getElem (by omega), valueLE_append]
    have h1 : valueLE [m[n]'(by omega)] = x := by rw [valueLE_cons, hxx]; simp [valueLE, valueBE]
    have h2 : (m.take n).length = n := by simp; omega
    rw [h1, h2]
    have h3 : (256 : Nat) ^ n = 2 ^ (8 * n) := by rw [Nat.pow_mul]
    rw [h3, Nat.mul_comm x]; omega

theorem valueLE_zeros (k : Nat) : valueLE (List.replicate k 0) = 0 := by
  induction k with
  | zero => rfl
  | succ k ih => rw [List.replicate_succ, valueLE_cons, ih]; rfl

/-- The last word. -/
theorem last_word (m : List UInt8) :
    sipSwitch (m.drop (8 * (m.length / 8))) (BitVec.ofNat 64 m.length <<< 56) =
      .ok (sipWord m (m.length / 8)) := by
  have hr : (m.drop (8 * (m.length / 8))).length = m.length % 8 := by simp; omega
  generalize hm : m.drop (8 * (m.length / 8)) = r at hr
  rw [sipSwitch, if_pos (by omega)]
  have hb : (BitVec.ofNat 64 m.length <<< 56).toNat = m.length % 256 * 2 ^ 56 := by
    rw [BitVec.toNat_shiftLeft, BitVec.toNat_ofNat, Nat.shiftLeft_eq]; omega
  obtain ⟨b', e, hb'⟩ := sipTail_eq r r.length (BitVec.ofNat 64 m.length <<< 56) (Nat.le_refl _) (by omega) (by
    rw [hb]
    obtain ⟨k, hk⟩ : ∃ k, 56 = 8 * r.length + k := ⟨56 - 8 * r.length, by omega⟩
    rw [hk, Nat.pow_add, Nat.mul_left_comm, Nat.mul_mod_right])
  rw [e]
  refine congrArg Res.ok ?_
  apply BitVec.eq_of_toNat_eq
  rw [hb', hb, List.take_length, sipWord, BitVec.toNat_ofNat]
  have hpad : ((sipPad m).drop (8 * (m.length / 8))).take 8 =
      r ++ List.replicate (7 - m.length % 8) 0 ++ [UInt8.ofNat (m.length % 256)] := by
    rw [sipPad, List.append_assoc, List.drop_append_of_le_length (by omega), hm, List.take_of_length_le (by simp; omega)]
    simp
  rw [hpad, valueLE_append, valueLE_append, valueLE_zeros]
  have h1 : valueLE [UInt8.ofNat (m.length % 256)] = m.length % 256 := by
    rw [valueLE_cons]; simp [valueLE, valueBE]
  rw [h1]
  have h2 : (r ++ List.replicate (7 - m.length % 8) (0 : UInt8)).length = 7 := by simp; omega
  rw [h2]
  have h3 := valueLE_lt r
  have h4 : 256 ^ r.length ≤ 256 ^ 7 := Nat.pow_le_pow_right (by decide) (by omega)
  have h5 : m.length % 256 < 256 := Nat.mod_lt _ (by decide)
  generalize m.length % 256 = d at h5
  have h6 : valueLE r < 72057594037927936 := Nat.lt_of_lt_of_le h3 (Nat.le_trans h4 (by decide))
  generalize valueLE r = w at h6
  rw [show (256 : Nat) ^ 7 = 72057594037927936 by decide, Nat.mul_zero,
    show (2 : Nat) ^ 64 = 18446744073709551616 by decide]
  omega

theorem words_spec (m : List UInt8) :
    (List.range (m.length / 8 + 1)).map (sipWord m) = wordsOf m ++ [sipWord m (m.length / 8)] := by
  rw [List.range_succ, List.map_append]
  congr 1
  rw [wordsOf]
  apply List.map_congr_left
  intro i hi
  have hi : i < m.length / 8 := by simpa using hi
  rw [sipWord, sipPad, List.append_assoc, List.drop_append_of_le_length (by omega),
    List.take_append_of_le_length (by simp; omega)]

theorem iter_eq {α β : Type} (f : β → α → β) (a : List α) (v : β) : iter f a v = a.foldl f v := by
  induction a generalizing v with
  | nil => rfl
  | cons x xs ih => rw [iter, ih, List.foldl_cons]

theorem foldl_congr {α β : Type} {f g : β → α → β} (m : List α) (h : ∀ x ∈ m, ∀ v, f v x = g v x) (v : β) :
    m.foldl f v = m.foldl g v := by
  induction m generalizing v with
  | nil => rfl
  | cons x xs ih =>
    rw [List.foldl_cons, List.foldl_cons, h x (by simp), ih (fun y hy => h y (by simp [hy]))]

theorem loop32_append {α : Type} (conv : α → BitVec 32) (a b : List α) (v : BitVec 32) :
    loop32 conv (a ++ b) v = loop32 conv b (loop32 conv a v) := by
  rw [loop32, loop32, loop32, iter_eq, iter_eq, iter_eq, List.foldl_append]

theorem loop32_fnv (m : List UInt8) (v : BitVec 32) : loop32 (ofU8 32) m v = fnv1a32 v m := by
  rw [loop32, iter_eq, fnv1a32]
  exact foldl_congr m (fun x _ v => by rw [step32, ofU8]; rfl) v

theorem loop64_fnv (m : List UInt8) (v : BitVec 64) : loop64 (ofU8 64) m v = fnv1a64 v m := by
  rw [loop64, iter_eq, fnv1a64]
  exact foldl_congr m (fun x _ v => by rw [step64, ofU8]; rfl) v

theorem loop32_congr {α : Type} {f g : α → BitVec 32} (m : List α) (h : ∀ x ∈ m, f x = g x) (v : BitVec 32) :
    loop32 f m v = loop32 g m v := by
  rw [loop32, loop32, iter_eq, iter_eq]
  exact foldl_congr m (fun x hx v => by rw [h x hx]) v

theorem loop64_congr {α : Type} {f g : α → BitVec 64} (m : List α) (h : ∀ x ∈ m, f x = g x) (v : BitVec 64) :
    loop64 f m v = loop64 g m v := by
  rw [loop64, loop64, iter_eq, iter_eq]
  exact foldl_congr m (fun x hx v => by rw [h x hx]) v

theorem ofChar_ascii {n : Nat} (hn : 8 ≤ n) {x : UInt8} (h : x < 128) : ofChar n x = ofU8 n x := by
  rw [ofChar, ofU8]
  have hx : x.toBitVec.toNat = x.toNat := rfl
  have hlt : x.toNat < 128 := h
  apply BitVec.eq_of_toNat_eq
  have hp : 2 ^ 8 ≤ 2 ^ n := Nat.pow_le_pow_right (by decide) hn
  rw [BitVec.signExtend_eq_setWidth_of_msb_false (by rw [BitVec.msb_eq_decide]; simp; omega),
    BitVec.toNat_setWidth, BitVec.toNat_ofNat, hx]

end Verif.Hash
