import Verif.Model.CSucSmpl
import Verif.Spec.CSucSmpl
import Verif.Proof.BitVector
import Verif.Props.CSucVector
import Verif.Props.FMindexCIO
set_option linter.unusedSimpArgs false

/-! # C115: the program that checks the compressed vector on a file -/
namespace Verif.Props.CSucSmpl
open Verif Verif.CSucSmpl Verif.Spec.CSucVector Verif.Spec.CSucSmpl
open Verif.BitVector (BV Rep bitAt wd set_rep resize_rep eq_of_bits bitAt_mul_add)
open Verif.CSuc (CV)

theorem word_bits (f : List UInt8) (i p : Nat) (hp : p < 64) : (wordAt f i).getLsbD p = fileBit f (64 * i + p) := by
  have h1 : (64 * i + p) / 8 = 8 * i + p / 8 := by omega
  have h2 : (64 * i + p) % 8 = p % 8 := by omega
  rw [fileBit, h1, h2]
  obtain ⟨q, r, hq, hr, rfl⟩ : ∃ q r, q < 8 ∧ r < 8 ∧ p = 8 * q + r := ⟨p / 8, p % 8, by omega, by omega, by omega⟩
  have h3 : (8 * q + r) / 8 = q := by omega
  have h4 : (8 * q + r) % 8 = r := by omega
  rw [h3, h4]
  unfold wordAt byteAt
  simp only [BitVec.getLsbD_append]
  match q, hq with
  | 0, _ => simp [hr, show r < 8 from hr]
  | 1, _ => simp [hr, show ¬ (8 + r < 8) by omega]
  | 2, _ => simp [hr, show ¬ (16 + r < 8) by omega, show 16 + r - 8 = 8 + r by omega]
  | 3, _ => simp [hr, show ¬ (24 + r < 8) by omega, show 24 + r - 8 = 16 + r by omega, show ¬ (16 + r < 8) by omega, show 16 + r - 8 = 8 + r by omega]
  | 4, _ => simp [hr, show ¬ (32 + r < 8) by omega, show 32 + r - 8 = 24 + r by omega, show ¬ (24 + r < 8) by omega, show 24 + r - 8 = 16 + r by omega, show ¬ (16 + r < 8) by omega, show 16 + r - 8 = 8 + r by omega]
  | 5, _ => simp [hr, show ¬ (40 + r < 8) by omega, show 40 + r - 8 = 32 + r by omega, show ¬ (32 + r < 8) by omega, show 32 + r - 8 = 24 + r by omega, show ¬ (24 + r < 8) by omega, show 24 + r - 8 = 16 + r by omega, show ¬ (16 + r < 8) by omega, show 16 + r - 8 = 8 + r by omega]
  | 6, _ => simp [hr, show ¬ (48 + r < 8) by omega, show 48 + r - 8 = 40 + r by omega, show ¬ (40 + r < 8) by omega, show 40 + r - 8 = 32 + r by omega, show ¬ (32 + r < 8) by omega, show 32 + r - 8 = 24 + r by omega, show ¬ (24 + r < 8) by omega, show 24 + r - 8 = 16 + r by omega, show ¬ (16 + r < 8) by omega, show 16 + r - 8 = 8 + r by omega]
  | 7, _ => simp [hr, show ¬ (56 + r < 8) by omega, show 56 + r - 8 = 48 + r by omega, show ¬ (48 + r < 8) by omega, show 48 + r - 8 = 40 + r by omega, show ¬ (40 + r < 8) by omega, show 40 + r - 8 = 32 + r by omega, show ¬ (32 + r < 8) by omega, show 32 + r - 8 = 24 + r by omega, show ¬ (24 + r < 8) by omega, show 24 + r - 8 = 16 + r by omega, show ¬ (16 + r < 8) by omega, show 16 + r - 8 = 8 + r by omega]

theorem blk_get (f : List UInt8) {i : Nat} (hi : i < (f.length * 8 + 63) / 64) : (blk f)[i]? = some (wordAt f i) := by
  have : i < (f.length + 4095) / 4096 * 512 := by omega
  simp [blk, this]

theorem blk_len (f : List UInt8) : (f.length * 8 + 63) / 64 ≤ (blk f).length := by
  simp [blk]; omega

theorem blk_bit (f : List UInt8) {i : Nat} (hi : i < f.length * 8) : bufBit (blk f) i = fileBit f i := by
  have h : i / 64 < (f.length * 8 + 63) / 64 := by omega
  rw [bufBit, List.getD_eq_getElem?_getD, blk_get f h, Option.getD_some, word_bits _ _ _ (Nat.mod_lt _ (by omega))]
  congr 1
  omega

theorem fileBit_end (f : List UInt8) {i : Nat} (hi : f.length * 8 ≤ i) : fileBit f i = false := by
  have : f.length ≤ i / 8 := by omega
  simp [fileBit, List.getElem?_eq_none this]

theorem fill_spec (cv : CV) (g : Nat → Bool) (n : Nat) (hg : ∀ i, i < n → cv.get i = .ok (g i)) :
    ∀ (cnt i : Nat) (bv : BV 64) (l : List Bool), i + cnt = n → l.length = n → Rep bv l →
      (∀ j, l.getD j false = if j < i then g j else false) →
      ∃ bv' l', fill cv cnt i bv = .ok bv' ∧ Rep bv' l' ∧ l'.length = n ∧ ∀ j, l'.getD j false = if j < n then g j else false
  | 0, i, bv, l, hi, hl, hr, h => by
    obtain rfl : i = n := by omega
    exact ⟨bv, l, rfl, hr, hl, h⟩
  | cnt + 1, i, bv, l, hi, hl, hr, h => by
    rw [fill, hg i (by omega), Res.ok_bind]
    cases hb : g i with
    | false =>
      rw [copyBit, if_neg (by simp), Res.ok_bind]
      refine fill_spec cv g n hg cnt (i + 1) bv l (by omega) hl hr fun j => ?_
      rw [h j]
      by_cases e : j = i
      · subst e; simp [hb]
      · have : j < i + 1 ↔ j < i := by omega
        simp [this]
    | true =>
      obtain ⟨bv', e1, e2⟩ := (set_rep (by omega) hr i true).2 (by omega)
      rw [BitVector.set, if_pos rfl] at e1
      rw [copyBit, if_pos rfl, e1, Res.ok_bind]
      refine fill_spec cv g n hg cnt (i + 1) bv' (l.set i true) (by omega) (by simpa using hl) e2 fun j => ?_
      have hj := h j
      rw [List.getD_eq_getElem?_getD] at hj ⊢
      rw [List.getElem?_set]
      by_cases e : i = j
      · subst e; simp [hb, show i < l.length by omega]
      · have : j < i + 1 ↔ j < i := by omega
        simp only [e, if_false, this, hj]

theorem diff_spec (p q : List (BitVec 64)) : ∀ (cnt i : Nat), i + cnt ≤ p.length → i + cnt ≤ q.length →
    ∃ r, diff p q cnt i = .ok r ∧
      (r = none ↔ ∀ k, i ≤ k → k < i + cnt → p[k]? = q[k]?) ∧
      ∀ k, r = some k → i ≤ k ∧ k < i + cnt ∧ p[k]? ≠ q[k]? ∧ ∀ m, i ≤ m → m < k → p[m]? = q[m]?
  | 0, i, _, _ => ⟨none, rfl, by simp; omega, by simp⟩
  | cnt + 1, i, h1, h2 => by
    have e1 : at? p i = .ok p[i] := at?_eq_ok (by omega)
    have e2 : at? q i = .ok q[i] := at?_eq_ok (by omega)
    have f1 : p[i]? = some p[i] := List.getElem?_eq_getElem (by omega)
    have f2 : q[i]? = some q[i] := List.getElem?_eq_getElem (by omega)
    simp only [diff, e1, e2, Res.ok_bind]
    by_cases hx : p[i] = q[i]
    · obtain ⟨r, e, a, b⟩ := diff_spec p q cnt (i + 1) (by omega) (by omega)
      refine ⟨r, by simp [hx, e], ?_, ?_⟩
      · rw [a]
        constructor
        · intro h k k1 k2
          by_cases hk : k = i
          · subst hk; rw [f1, f2, hx]
          · exact h k (by omega) (by omega)
        · intro h k k1 k2
          exact h k (by omega) (by omega)
      · intro k hk
        obtain ⟨b1, b2, b3, b4⟩ := b k hk
        refine ⟨by omega, by omega, b3, fun m m1 m2 => ?_⟩
        by_cases hm : m = i
        · subst hm; rw [f1, f2, hx]
        · exact b4 m (by omega) m2
    · refine ⟨some i, by simp [hx], ?_, ?_⟩
      · simp only [reduceCtorEq, false_iff]
        intro h
        have := h i (by omega) (by omega)
        rw [f1, f2] at this
        exact hx (by simpa using this)
      · intro k hk
        cases hk
        exact ⟨by omega, by omega, by rw [f1, f2]; simpa using hx, by omega⟩

/-- The comparison is exact, whatever the vector: nothing is reported if and only if every bit is the bit of the file, and what is
reported is the first 64-bit word with a wrong bit. -/
theorem C115_check (cv : CV) (f : List UInt8) (g : Nat → Bool) (hf : f.length * 8 + 64 ≤ 2 ^ 64)
    (hg : ∀ i, i < f.length * 8 → cv.get i = .ok (g i)) :
    ∃ r, check cv f = .ok r ∧ (r = none ↔ ∀ i, i < f.length * 8 → g i = fileBit f i) ∧
      ∀ k, r = some k → (∃ i, i < f.length * 8 ∧ i / 64 = k ∧ g i ≠ fileBit f i) ∧
        ∀ i, i < f.length * 8 → i / 64 < k → g i = fileBit f i := by
  obtain ⟨bv, e1, r1⟩ := resize_rep (w := 64) (by omega) (st := BitVector.empty) (l := [])
    ⟨rfl, by simp [BitVector.empty], by simp [BitVector.empty, bitAt, wd]⟩ (n := f.length * 8) hf
  have hlen : (Spec.BitVector.resize [] (f.length * 8)).length = f.length * 8 := by simp [Spec.BitVector.resize]
  obtain ⟨bv', l', e2, r2, hl', hb'⟩ := fill_spec cv g (f.length * 8) hg (f.length * 8) 0 bv _ (by omega) hlen r1
    (by intro j; simp [Spec.BitVector.resize, List.getElem?_replicate]; split <;> simp)
  have hn : bv.bitLen = f.length * 8 := r1.1.trans hlen
  have hv : bv'.v.length = (f.length * 8 + 63) / 64 := by rw [r2.2.1, hl']; rfl
  obtain ⟨r, e3, a, b⟩ := diff_spec bv'.v (blk f) bv'.v.length 0 (by omega) (by have := blk_len f; omega)
  have hw : ∀ k, k < bv'.v.length → (bv'.v[k]? = (blk f)[k]? ↔ ∀ i, i < f.length * 8 → i / 64 = k → g i = fileBit f i) := by
    intro k hk
    rw [blk_get f (by omega), List.getElem?_eq_getElem hk, Option.some_inj]
    have hwd : bv'.v[k] = wd bv'.v k := by simp [wd, List.getElem?_eq_getElem hk]
    have hbit : ∀ p, p < 64 → (bv'.v[k]).getLsbD p = if k * 64 + p < f.length * 8 then g (k * 64 + p) else false := by
      intro p hp
      rw [hwd, ← bitAt_mul_add (by omega) _ hp, r2.2.2, hb']
    constructor
    · intro h i hi hk'
      have := hbit (i % 64) (Nat.mod_lt _ (by omega))
      have ei : k * 64 + i % 64 = i := by omega
      rw [h, word_bits _ _ _ (Nat.mod_lt _ (by omega)), ei, if_pos hi] at this
      rw [← this]
      congr 1
      omega
    · intro h
      apply BitVec.eq_of_getLsbD_eq
      intro p hp
      rw [hbit p hp, word_bits _ _ _ hp, show 64 * k + p = k * 64 + p by omega]
      split
      · rename_i h'
        exact h _ h' (by omega)
      · rw [fileBit_end f (by omega)]
  refine ⟨r, by rw [check, e1, Res.ok_bind, hn, e2, Res.ok_bind, e3], ?_, ?_⟩
  · rw [a]
    constructor
    · intro h i hi
      exact (hw (i / 64) (by omega)).mp (h _ (by omega) (by omega)) i hi rfl
    · intro h k _ hk
      exact (hw k (by omega)).mpr fun i hi _ => h i hi
  · intro k hk
    obtain ⟨_, b2, b3, b4⟩ := b k hk
    rw [Ne, hw k (by omega)] at b3
    simp only [Classical.not_forall] at b3
    obtain ⟨i, hi, hk', hne⟩ := b3
    exact ⟨⟨i, hi, hk', hne⟩, fun m hm hmk => (hw (m / 64) (by omega)).mp (b4 _ (by omega) hmk) m hm rfl⟩

/-- For every file of less than half a GiB the program compresses, saves, loads and finds no difference. -/
theorem C115_no_difference (f : List UInt8) (frag : Nat → Nat) (hf : f.length * 8 + 16384 + 1024 ≤ 2 ^ 32) :
    test f frag = .ok none := by
  obtain ⟨c, e, hget, _, _⟩ := CSucVector.C18_get_rank1_partial (blk f) (f.length * 8) (blk_len f) hf
  obtain ⟨r, s', e2, rfl, _⟩ := (FMindexCIO.C113_vector c _ _ e).whole ⟨IndexIO.saveCV c, frag, 0⟩ [] (by simp)
  obtain ⟨o, e3, h, _⟩ := C115_check r f (bufBit (blk f)) (by omega) hget
  rw [test, e, Res.ok_bind, e2, Res.ok_bind]
  simp only [e3]
  rw [h.mpr fun i hi => blk_bit f hi]

/-- The program as a whole: status 0 for every such file that can be mapped, status 1 for a wrong number of arguments; a file that
cannot be mapped, or has 2^29 bytes or more, ends it by an exception nobody catches. -/
theorem C115_program (args : List (List UInt8)) (mapped : List UInt8 → Option (List UInt8)) (frag : Nat → Nat) :
    (args.length ≠ 2 → main args mapped frag = .ok 1) ∧
    (∀ prog name, args = [prog, name] →
      (mapped name = none → main args mapped frag = .throw) ∧
      (∀ f, mapped name = some f → f.length * 8 + 16384 + 1024 ≤ 2 ^ 32 → main args mapped frag = .ok 0) ∧
      (∀ f, mapped name = some f → 2 ^ 29 ≤ f.length → main args mapped frag = .throw)) := by
  constructor
  · intro h
    match args with
    | [] => rfl
    | [_] => rfl
    | [_, _] => simp at h
    | _ :: _ :: _ :: _ => rfl
  · rintro prog name rfl
    refine ⟨fun h => by simp [main, h], fun f h hf => ?_, fun f h hf => ?_⟩
    · simp [main, h, C115_no_difference f frag hf]
    · simp only [main, h, test, CSucVector.C18_too_long .empty (blk f) (f.length * 8) (by omega), Res.throw_bind]

example : [1, 2, 3].length * 8 + 16384 + 1024 ≤ 2 ^ 32 := by decide
example : fileBit [1, 2] 9 = true ∧ fileBit [1, 2] 8 = false := by decide
example : check ⟨[CSuc.Enc.make 5 7], 8, [0, 0], [⟨0, 0, 0⟩], 0⟩ [0x85] = .ok none ∧
    check ⟨[CSuc.Enc.make 5 7], 8, [0, 0], [⟨0, 0, 0⟩], 0⟩ [0x84] = .ok (some 0) := by decide +kernel

#print axioms C115_check
#print axioms C115_no_difference
#print axioms C115_program

end Verif.Props.CSucSmpl
