import Verif.Model.WaveletDirect
import Verif.Proof.WaveletSelect
set_option linter.unusedSimpArgs false

/-! Lemmas for C127: the levels built in place. -/
namespace Verif.Wavelet
open Verif.BitVector (BV setAt? setAt?_ok)
open Verif.SucVector (SV Building flat)
open Verif.Spec.SucVector (rankOf)
open Verif.Spec.BitVector (bitsOf)

/-- The two inner loops run in step. -/
theorem levelLoopD_sim {last : Bool} {k : Nat} (xs : List Nat) :
    ∀ (j : Nat) (s s' : LoopSt) (sv : SV) (l : List Bool), BitVector.Rep s.bv l → Building false sv l →
    j + xs.length ≤ l.length → levelLoop last k xs j s = .ok s' →
    ∃ sv' l', levelLoopD last k xs j ⟨sv, s.next, s.zeroPos, s.onePos⟩ =
        .ok ⟨sv', s'.next, s'.zeroPos, s'.onePos⟩ ∧
      BitVector.Rep s'.bv l' ∧ Building false sv' l' := by
  induction xs with
  | nil =>
    intro j s s' sv l h1 h2 _ h
    rw [levelLoop] at h
    cases h
    exact ⟨sv, l, rfl, h1, h2⟩
  | cons x xs ih =>
    intro j s s' sv l h1 h2 hj h
    simp only [List.length_cons] at hj
    rw [levelLoop] at h
    obtain ⟨bv, e1, h⟩ := Res.bind_eq_ok.1 h
    obtain ⟨t, e2, h⟩ := Res.bind_eq_ok.1 h
    have hstep : ∃ sv1 l1, setIfD sv j (getPos x k) = .ok sv1 ∧ BitVector.Rep bv l1 ∧ Building false sv1 l1 ∧
        l1.length = l.length := by
      by_cases hb : getPos x k = true
      · obtain ⟨sv1, f1, f2⟩ := SucVector.set_building h2 (i := j) (by omega)
        obtain ⟨bv1, g1, g2⟩ := (BitVector.set_rep (by omega) h1 j true).2 (by omega)
        rw [setIf, if_pos hb] at e1
        rw [BitVector.set, if_pos rfl, e1] at g1
        cases g1
        exact ⟨sv1, _, by rw [setIfD, if_pos hb, f1], g2, f2, by simp⟩
      · rw [setIf, if_neg hb] at e1
        cases e1
        exact ⟨sv, l, by rw [setIfD, if_neg hb], h1, h2, rfl⟩
    obtain ⟨sv1, l1, f1, f2, f3, f4⟩ := hstep
    have hpl : placeD last x (getPos x k) ⟨sv1, s.next, s.zeroPos, s.onePos⟩ =
        .ok ⟨sv1, t.next, t.zeroPos, t.onePos⟩ ∧ t.bv = bv := by
      rw [place] at e2
      rw [placeD]
      by_cases hl : last = true
      · rw [if_pos hl] at e2 ⊢
        cases e2; exact ⟨rfl, rfl⟩
      · rw [if_neg hl] at e2 ⊢
        by_cases hb : getPos x k = true
        · rw [if_pos hb] at e2 ⊢
          obtain ⟨n, q1, q2⟩ := Res.bind_eq_ok.1 e2
          cases q2
          exact ⟨by simp only [q1, Res.ok_bind, Res.pure_eq], rfl⟩
        · rw [if_neg hb] at e2 ⊢
          obtain ⟨n, q1, q2⟩ := Res.bind_eq_ok.1 e2
          cases q2
          exact ⟨by simp only [q1, Res.ok_bind, Res.pure_eq], rfl⟩
    obtain ⟨sv2, l2, r1, r2, r3⟩ := ih (j + 1) t s' sv1 l1 (by rw [hpl.2]; exact f2) f3 (by omega) h
    refine ⟨sv2, l2, ?_, r2, r3⟩
    rw [levelLoopD]
    simp only [f1, Res.ok_bind, hpl.1]
    exact r1

theorem rep_inj {bv : BV 64} {l l' : List Bool} (h : BitVector.Rep bv l) (h' : BitVector.Rep bv l') : l = l' := by
  obtain ⟨a1, a2, a3⟩ := h
  obtain ⟨b1, b2, b3⟩ := h'
  apply BitVector.list_ext
  · omega
  · intro i; rw [← a3, ← b3]

theorem full_of_ready {sv : SV} {l : List Bool} (h : Building false sv l) (hl : l.length ≤ 2 ^ 32) :
    ∃ sv', SucVector.ready false false sv = .ok sv' ∧ Full sv' l := by
  obtain ⟨s3, e3, r3, z3⟩ := SucVector.ready_rep (sel := false) h (by simp)
  have hbits := SucVector.flat_bits h
  have hst := r3.stores (l := l) (by omega) (by rw [hbits]; simp)
  have hcount : (bitsOf (flat sv.blk)).count true = l.count true := by
    rw [hbits, List.count_append]; simp [List.count_replicate]
  refine ⟨s3, e3, fun p hp => ?_, hst.get, fun p hp => ?_⟩
  · by_cases hlt : p < l.length
    · exact hst.rank1 p hlt
    · rw [r3.rank1_ge (by omega), hcount, SucVector.rank_ge _ _ (by omega)]
  · rw [SucVector.get, if_pos (by omega)]

theorem levelsD_spec {n : Nat} (hn : n ≤ 2 ^ 32) {offTbl : List Nat} {old : List SV} (k : Nat) :
    ∀ (i : Nat) (cur next : List Nat), cur.length = n → next.length = n → i + k ≤ old.length →
    (∀ j, j < k → offTbl[i + (k - 1 - j)]? = some (zeros j cur)) →
    ∃ svs, levelsD n offTbl old k i cur next = .ok svs ∧ svs.length = k ∧
      ∀ pre, pre.length = i → Holds (pre ++ svs) offTbl k i cur := by
  induction k with
  | zero => intro i cur next _ _ _ _; exact ⟨[], rfl, rfl, fun _ _ => trivial⟩
  | succ k ih =>
    intro i cur next h1 h2 h3 h4
    obtain ⟨bv, b1, b2⟩ := BitVector.resize_rep (w := 64) (by omega) (st := BitVector.empty) (l := [])
      (by
        refine ⟨rfl, ?_, fun i => ?_⟩
        · simp [BitVector.empty]
        · simp [BitVector.empty, BitVector.bitAt, BitVector.wd]) (n := n) (by omega)
    have hb : Spec.BitVector.resize [] n = List.replicate n false := by simp [Spec.BitVector.resize]
    rw [hb] at b2
    have ho := h4 k (by omega)
    rw [show i + (k + 1 - 1 - k) = i by omega] at ho
    obtain ⟨s', e1, e2, e3⟩ := level_spec (k := k) cur next bv rfl h1 h2 b2
    obtain ⟨s1, kk, c1, c2⟩ := SucVector.resize_building (big := false) (old[i]'(by omega)) (n := n)
      (by simpa [SucVector.maxBitSize] using hn)
    obtain ⟨sv', l', d1, d2, d3⟩ := levelLoopD_sim cur 0 _ s' s1 _ b2 c2 (by simp; omega) e1
    have hl' := rep_inj d2 e2
    subst hl'
    obtain ⟨sv, f1, f2⟩ := full_of_ready d3 (by simp; omega)
    have hrest : ∃ svs, levelsD n offTbl old k (i + 1) s'.next cur = .ok svs ∧ svs.length = k ∧
        ∀ pre, pre.length = i + 1 → Holds (pre ++ svs) offTbl k (i + 1) (part k cur) := by
      by_cases hk : k = 0
      · subst hk; exact ⟨[], rfl, rfl, fun _ _ => trivial⟩
      · rw [e3 hk]
        apply ih
        · rw [part_length]; exact h1
        · exact h1
        · omega
        · intro j hj
          rw [zeros, countP_part]
          have := h4 j (by omega)
          rw [show i + 1 + (k - 1 - j) = i + (k + 1 - 1 - j) by omega]; exact this
    obtain ⟨svs, r1, r2, r3⟩ := hrest
    refine ⟨sv :: svs, ?_, by simp [r2], fun pre hpre => ?_⟩
    · rw [levelsD, at?_eq_ok (by omega), Res.ok_bind, c1, Res.ok_bind, at?_some ho, Res.ok_bind]
      dsimp only at d1 ⊢
      rw [d1, Res.ok_bind]
      dsimp only
      rw [f1, Res.ok_bind, r1, Res.ok_bind, Res.pure_eq]
    · refine ⟨⟨sv, by simp [← hpre], f2⟩, ho, ?_⟩
      have := r3 (pre ++ [sv]) (by simp [hpre])
      simpa using this

theorem built_of_initD {B : Nat} (hB : B ≤ 16) (l : List Nat) (hn : l.length ≤ 2 ^ 32)
    (hz : ∀ j, j < B → zeros j l < 2 ^ 32) (ws : Bool) (wm : WM) :
    ∃ wm1, Built B l wm1 ∧ wm1.selTbl = wm.selTbl ∧ initD ws wm l B = initSel ws wm1 l := by
  have hoff : ∀ j, j < B → ((List.range B).map fun i => toSize (countZero l (B - 1 - i)))[0 + (B - 1 - j)]? =
      some (zeros j l) := by
    intro j hj
    have := hz j hj
    rw [List.getElem?_map, List.getElem?_range (by omega)]
    simp only [Option.map_some, countZero_eq, show B - 1 - (0 + (B - 1 - j)) = j by omega, toSize]
    rw [Nat.mod_eq_of_lt (by omega)]
  obtain ⟨svs, e1, e2, e3⟩ := levelsD_spec (n := l.length) (by omega)
    (old := vresize SucVector.empty wm.svv B) B 0 l (List.replicate l.length 0) rfl (by simp)
    (by rw [vresize_length]; omega) hoff
  have hH := e3 [] rfl
  rw [List.nil_append] at hH
  obtain ⟨t1, f1, f2, f3⟩ := initFromTbl_spec B 0 l (vresize 0 wm.fromTbl (2 ^ B)) 0 0 (by omega) hH (by omega)
    (by simp) (by rw [vresize_length]; omega)
  have hb : (B + 1) * l.length ≤ 17 * l.length := Nat.mul_le_mul_right _ (by omega)
  obtain ⟨t2, g1, g2, g3⟩ := initFromLtTbl_spec B 0 l (vresize 0 wm.fromLtTbl (2 ^ B)) 0 0 0 (by omega) hH
    (by omega) (by omega) (by simp) (by rw [vresize_length]; omega)
  refine ⟨⟨2 ^ B, B, l.length, svs, _, t1, t2, wm.selTbl⟩, ⟨rfl, rfl, rfl, hH, ?_, ?_, ?_, ?_⟩, rfl, ?_⟩
  · intro v hv; simp [f3, hv]
  · intro v hv; simp [g3, hv]
  · simp [f2, vresize_length]
  · simp [g2, vresize_length]
  · rw [initD, if_neg (by omega), if_neg (by omega)]
    simp only [e1, f1, g1, Res.ok_bind]

end Verif.Wavelet
