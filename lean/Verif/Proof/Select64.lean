import Verif.Model.SucVector
import Verif.Proof.BitOp
set_option linter.unusedSimpArgs false

/-! `select64`. -/
namespace Verif.SucVector
open Verif.BitOp

/-- Ones among the lowest `k` bits. -/
def cnt {w : Nat} (v : BitVec w) (k : Nat) : Nat := (List.range k).countP fun i => v.getLsbD i

/-- `q` is the position of the `r`-th one (1-based). -/
def IsSel {w : Nat} (v : BitVec w) (r q : Nat) : Prop := v.getLsbD q = true ∧ cnt v q + 1 = r

theorem cnt_add {w : Nat} (v : BitVec w) (n k : Nat) : cnt v (n + k) = cnt v n + cnt (v >>> n) k := by
  simp only [cnt, List.range_add, List.countP_append, List.countP_map]
  congr 1
  apply List.countP_congr
  intro i _
  simp [BitVec.getLsbD_ushiftRight]

theorem cnt_mono {w : Nat} (v : BitVec w) {a b : Nat} (h : a ≤ b) : cnt v a ≤ cnt v b := by
  obtain ⟨k, rfl⟩ := Nat.exists_eq_add_of_le h
  rw [cnt_add]; omega

theorem cnt_ge_width {w : Nat} (v : BitVec w) (k : Nat) : cnt v (w + k) = cnt v w := by
  rw [cnt_add]
  have : cnt (v >>> w) k = 0 := by
    rw [cnt, List.countP_eq_zero]
    intro i _
    simp [BitVec.getLsbD_ushiftRight]
  omega

theorem cnt_truncate {w : Nat} (v : BitVec w) (n k : Nat) (h : k ≤ n) : cnt (v.truncate n) k = cnt v k := by
  apply List.countP_congr
  intro i hi
  simp only [List.mem_range] at hi
  simp [BitVec.getLsbD_setWidth, show i < n by omega]

theorem popcnt_low (v : BitVec 64) (n : Nat) (hn : n ≤ 32) :
    popcnt32 ((v.truncate n).zeroExtend 32) = cnt v n := by
  have h1 : popcnt32 ((v.truncate n).zeroExtend 32) = cnt ((v.truncate n).zeroExtend 32) 32 := rfl
  rw [h1]
  obtain ⟨k, hk⟩ := Nat.exists_eq_add_of_le hn
  have h2 : cnt ((v.truncate n).zeroExtend 32) (n + k) = cnt (v.truncate n) (n + k) := by
    apply List.countP_congr
    intro i hi
    simp only [List.mem_range] at hi
    simp only [BitVec.truncate_eq_setWidth, BitVec.getLsbD_setWidth]
    simp; intro _ _; omega
  have h3 : cnt ((v.truncate n).zeroExtend 32) (n + k) = cnt v n := by
    rw [h2, cnt_ge_width, cnt_truncate _ _ _ (Nat.le_refl n)]
  rw [← hk] at h3
  exact h3

theorem halve_spec (n : Nat) (hn : n ≤ 32) (s : Half) (h1 : 1 ≤ s.r) (h2 : s.r ≤ cnt s.v (n + n)) :
    1 ≤ (halve n s).r ∧ (halve n s).r ≤ cnt (halve n s).v n ∧
      ∃ d, (halve n s).pos = s.pos + d ∧ ∀ q, IsSel (halve n s).v (halve n s).r q → IsSel s.v s.r (d + q) := by
  rw [halve]
  simp only [popcnt_low s.v n hn]
  by_cases h : s.r > cnt s.v n
  · simp only [if_pos h]
    have := cnt_add s.v n n
    refine ⟨by omega, by omega, n, rfl, fun q hq => ⟨?_, ?_⟩⟩
    · have := hq.1
      rwa [BitVec.getLsbD_ushiftRight] at this
    · have := hq.2
      have := cnt_add s.v n q
      omega
  · simp only [if_neg h]
    exact ⟨h1, by omega, 0, by simp, fun q hq => by rwa [Nat.zero_add]⟩

theorem select8_table : ∀ t : Fin 256, ∀ r : Fin 9, 1 ≤ r.val → r.val ≤ cnt (BitVec.ofFin t : BitVec 8) 8 →
    (r.val = 8 → t.val = 255) ∧
    (t.val = 255 → IsSel (BitVec.ofFin t : BitVec 8) 8 7) ∧
    (r.val < 8 → ∃ p : Fin 8, select8 t.val r.val = .ok p.val ∧ IsSel (BitVec.ofFin t : BitVec 8) r.val p.val) := by
  unfold IsSel
  decide +kernel

theorem select64_spec (v : BitVec 64) (r : Nat) (h1 : 1 ≤ r) (h2 : r ≤ cnt v 64) :
    ∃ p, select64 v r = .ok p ∧ p < 64 ∧ IsSel v r p := by
  have hp : popcnt64 v = cnt v 64 := rfl
  rw [select64, if_neg (by omega)]
  obtain ⟨a1, a2, da, a3, a4⟩ := halve_spec 32 (by omega) ⟨r, 0, v⟩ h1 h2
  generalize halve 32 ⟨r, 0, v⟩ = sa at *
  obtain ⟨b1, b2, db, b3, b4⟩ := halve_spec 16 (by omega) sa a1 a2
  generalize halve 16 sa = sb at *
  obtain ⟨c1, c2, dc, c3, c4⟩ := halve_spec 8 (by omega) sb b1 b2
  generalize halve 8 sb = s at *
  have hall : ∀ q, IsSel s.v s.r q → IsSel v r (s.pos + q) := by
    intro q hq
    have := a4 _ (b4 _ (c4 _ hq))
    rw [c3, b3, a3]
    rwa [Nat.zero_add, Nat.add_assoc, Nat.add_assoc]
  have hlt : ∀ q, IsSel v r q → q < 64 := by
    intro q hq
    apply Nat.lt_of_not_le
    intro h
    have := BitVec.getLsbD_of_ge v q h
    rw [hq.1] at this
    cases this
  rw [← cnt_truncate s.v 8 8 (Nat.le_refl _)] at c2
  have hr : s.r < 9 := by
    have : cnt (s.v.truncate 8) 8 ≤ 8 := by
      have := List.countP_le_length (p := fun i => (s.v.truncate 8).getLsbD i) (l := List.range 8)
      simpa [cnt] using this
    omega
  have hup : ∀ q, q < 8 → IsSel (s.v.truncate 8) s.r q → IsSel s.v s.r q := by
    intro q hq h
    refine ⟨?_, ?_⟩
    · have := h.1
      simp only [BitVec.truncate_eq_setWidth, BitVec.getLsbD_setWidth, hq, decide_true, Bool.true_and] at this
      exact this
    · rw [← cnt_truncate s.v 8 q (by omega)]; exact h.2
  obtain ⟨t1, t2, t3⟩ := select8_table (s.v.truncate 8).toFin ⟨s.r, hr⟩ c1 c2
  simp only at t1 t2 t3
  have hff : (s.v.truncate 8 = 0xff#8) ↔ ((s.v.truncate 8).toFin.val = 255) := by
    constructor
    · intro h; rw [h]; rfl
    · intro h; exact BitVec.eq_of_toNat_eq h
  by_cases h8 : s.r = 8
  · have h255 := t1 h8
    simp only [h8, hff.mpr h255, and_self, if_true]
    have hs := hall 7 (hup 7 (by omega) (by rw [h8]; exact t2 h255))
    exact ⟨_, rfl, hlt _ hs, hs⟩
  · simp only [h8, false_and, if_false]
    obtain ⟨p, e1, e2⟩ := t3 (by omega)
    have e1' : select8 (s.v.truncate 8).toNat s.r = .ok p.val := e1
    rw [e1', Res.ok_bind]
    have hs := hall p.val (hup p.val p.isLt e2)
    exact ⟨_, rfl, hlt _ hs, hs⟩

end Verif.SucVector
