import Verif.Model.RegexChar
import Verif.Spec.RegexChar

/-!
# Lemmas for C94
-/
set_option linter.unusedSimpArgs false
namespace Verif.RegexChar
open Verif.Spec.RegexChar

theorem maskTbl_length : maskTbl.length = 256 := by decide +kernel

theorem high_iff (c : BitVec 32) : c &&& ~~~0xFF#32 ≠ 0 ↔ 256 ≤ c.toNat := by
  have h : c &&& ~~~0xFF#32 = (c >>> 8) <<< 8 := by
    apply BitVec.eq_of_getLsbD_eq
    intro i hi
    have : ∀ i < 32, (0xFF#32).getLsbD i = decide (i < 8) := by decide
    rw [BitVec.getLsbD_and, BitVec.getLsbD_not, this i hi, BitVec.getLsbD_shiftLeft, BitVec.getLsbD_ushiftRight]
    by_cases h8 : i < 8
    · simp [h8]
    · rw [show 8 + (i - 8) = i by omega]; simp [h8, hi]
  rw [h, ne_eq, ← BitVec.toNat_inj, BitVec.toNat_shiftLeft, BitVec.toNat_ushiftRight, Nat.shiftLeft_eq,
    Nat.shiftRight_eq_div_pow]
  have := c.isLt
  simp only [BitVec.ofNat_eq_ofNat, BitVec.toNat_ofNat, Nat.zero_mod]
  omega

theorem is_high {m : BitVec 16} {c : BitVec 32} (h : 256 ≤ c.toNat) : is m c = .ok false := by
  rw [is, if_pos ((high_iff c).2 h)]

/-- A statement about the table, for every place. -/
theorem is_class (m : BitVec 16) (P : Nat → Prop) [DecidablePred P] (hP : ∀ n, 256 ≤ n → ¬P n)
    (h : ∀ n : Fin 256, maskTbl.getD n.val 0 &&& m ≠ 0 ↔ P n.val) (c : BitVec 32) :
    is m c = .ok (decide (P c.toNat)) := by
  by_cases hc : 256 ≤ c.toNat
  · rw [is_high hc, decide_eq_false (hP _ hc)]
  · rw [is, if_neg (fun hh => hc ((high_iff c).1 hh)), mask]
    have e : (c.setWidth 8).toNat = c.toNat := by rw [BitVec.toNat_setWidth]; omega
    have h2 := h ⟨c.toNat, by omega⟩
    have hl : c.toNat < maskTbl.length := by rw [maskTbl_length]; omega
    dsimp only at h2
    rw [List.getD_eq_getElem?_getD, List.getElem?_eq_getElem hl, Option.getD_some] at h2
    rw [e, at?_eq_ok hl]
    show Res.ok (decide _) = _
    exact congrArg Res.ok (decide_eq_decide.2 h2)

theorem is_total (m : BitVec 16) (c : BitVec 32) : ∃ b, is m c = .ok b := by
  by_cases hc : 256 ≤ c.toNat
  · exact ⟨_, is_high hc⟩
  · rw [is, if_neg (fun hh => hc ((high_iff c).1 hh)), mask]
    have : (c.setWidth 8).toNat < maskTbl.length := by
      have := (c.setWidth 8).isLt
      have hl := maskTbl_length
      omega
    rw [at?_eq_ok this]
    exact ⟨_, rfl⟩

theorem mask_total (i : BitVec 8) : ∃ t, mask i = .ok t := by
  have : i.toNat < maskTbl.length := by
    have := i.isLt
    have hl := maskTbl_length
    omega
  exact ⟨_, at?_eq_ok this⟩

theorem scanIs_spec (m : BitVec 16) : ∀ cs : List (BitVec 32), ∃ n, scanIs m cs = .ok n ∧ n ≤ cs.length ∧
    (∀ i c, i < n → cs[i]? = some c → is m c = .ok false) ∧ ∀ c, cs[n]? = some c → is m c = .ok true
  | [] => ⟨0, rfl, by simp, by simp, by simp⟩
  | c :: cs => by
    obtain ⟨b, hb⟩ := is_total m c
    obtain ⟨n, hn, hl, h1, h2⟩ := scanIs_spec m cs
    cases b with
    | true => exact ⟨0, by simp [scanIs, hb], by simp, by simp, by simp [hb]⟩
    | false =>
      refine ⟨n + 1, by simp [scanIs, hb, hn], by simp [hl], ?_, by simpa using h2⟩
      intro i d hi hd
      cases i with
      | zero => simp at hd; subst hd; exact hb
      | succ i => exact h1 i d (by omega) (by simpa using hd)

theorem scanNot_spec (m : BitVec 16) : ∀ cs : List (BitVec 32), ∃ n, scanNot m cs = .ok n ∧ n ≤ cs.length ∧
    (∀ i c, i < n → cs[i]? = some c → is m c = .ok true) ∧ ∀ c, cs[n]? = some c → is m c = .ok false
  | [] => ⟨0, rfl, by simp, by simp, by simp⟩
  | c :: cs => by
    obtain ⟨b, hb⟩ := is_total m c
    obtain ⟨n, hn, hl, h1, h2⟩ := scanNot_spec m cs
    cases b with
    | false => exact ⟨0, by simp [scanNot, hb], by simp, by simp, by simp [hb]⟩
    | true =>
      refine ⟨n + 1, by simp [scanNot, hb, hn], by simp [hl], ?_, by simpa using h2⟩
      intro i d hi hd
      cases i with
      | zero => simp at hd; subst hd; exact hb
      | succ i => exact h1 i d (by omega) (by simpa using hd)

theorem toInt_cases (c : BitVec 32) : (c.toNat < 2 ^ 31 ∧ c.toInt = c.toNat) ∨ (2 ^ 31 ≤ c.toNat ∧ c.toInt < 0) := by
  have := c.isLt
  rw [BitVec.toInt_eq_toNat_cond]
  split <;> omega

end Verif.RegexChar
