import Verif.Proof.SucVectorTop
set_option linter.unusedSimpArgs false
set_option maxRecDepth 8000

/-! The select table of a vector of 2^32 blocks. -/
namespace Verif.SucVector
open Verif.BitOp Verif.BitVector Verif.Spec.BitVector Verif.Spec.SucVector

variable {big : Bool} {blk : List Block} {W : List (BitVec 64)}

theorem selAdvance_hang (g : Good big blk W) (hl : blk.length = 2 ^ 32) (b : Bool) (r : Nat)
    (hall : ∀ i, i < blk.length → rankOf (bitsOf W) b (i * 256) < r) (k : Nat) :
    ∀ pos, k = blk.length - pos → pos < blk.length → selAdvance big b blk r pos = .ub := by
  induction k with
  | zero => intro pos h1 h2; omega
  | succ k ih =>
    intro pos h1 h2
    rw [selAdvance, if_pos h2, g.rankA (by omega) b h2]
    simp only
    rw [if_pos (hall pos h2)]
    by_cases h : pos + 1 = 2 ^ 32
    · rw [if_pos h]
    · rw [if_neg h, if_neg (by omega)]
      exact ih (pos + 1) (by omega) (by omega)

theorem selAdvance_nothrow (g : Good big blk W) (hl : blk.length ≤ 2 ^ 32) (b : Bool) (r : Nat) (k : Nat) :
    ∀ pos, k = blk.length - pos → selAdvance big b blk r pos ≠ .throw := by
  induction k with
  | zero =>
    intro pos h1
    rw [selAdvance, if_neg (by omega)]; simp
  | succ k ih =>
    intro pos h1
    have h2 : pos < blk.length := by omega
    rw [selAdvance, if_pos h2, g.rankA (by omega) b h2]
    simp only
    split
    · split
      · simp
      · split
        · simp
        · exact ih (pos + 1) (by omega)
    · simp

theorem selTblLoop_nothrow (g : Good big blk W) (hl : blk.length ≤ 2 ^ 32) (b : Bool) (n : Nat) :
    ∀ i pos, selTblLoop big b blk n i pos ≠ .throw := by
  induction n with
  | zero => intro i pos; simp [selTblLoop]
  | succ n ih =>
    intro i pos
    simp only [selTblLoop]
    have h1 := selAdvance_nothrow g hl b (i * 1024) _ pos rfl
    cases h : selAdvance big b blk (i * 1024) pos with
    | throw => exact absurd h h1
    | ub => simp
    | ok t =>
      rw [Res.ok_bind]
      have h2 := ih (i + 1) t
      cases h' : selTblLoop big b blk n (i + 1) t with
      | throw => exact absurd h' h2
      | ub => simp
      | ok t => simp

theorem initBlock_hang {s : SV} {buf : Option (List (BitVec 64))} {blkNum : Nat}
    (P : Nat → Nat) (hP : P 0 = 0) (hlen : W.length = 4 * s.blk.length) (hmax : W.length * 64 = 2 ^ 40)
    (hcnt : 1024 < (bitsOf W).count true ∧ (bitsOf W).count true ≤ 2048)
    (hlast : rankOf (bitsOf W) true ((2 ^ 32 - 1) * 256) < 1024)
    (hnw : ∀ j (h : j < s.blk.length), ∀ x', x'.org = s.blk[j].org → nextWords buf blkNum (P j) x' =
      .ok ((wd W (4 * j), wd W (4 * j + 1), wd W (4 * j + 2), wd W (4 * j + 3)), P (j + 1))) :
    initBlock true true s buf blkNum = .ub := by
  obtain ⟨ys, e1, e2, e3⟩ := initBlocks_spec true buf blkNum W P (by simp [maxBitSize]; omega) s.blk 0 (by omega)
    (fun j h x' hx => by have := hnw j h x' hx; rwa [Nat.zero_add])
  rw [hP, Nat.zero_mul, rank_zero] at e1
  have hg : Good true ys W := ⟨by omega, fun i h => by have := e3 i h; rwa [Nat.zero_add] at this⟩
  simp only [initBlock]
  rw [e1, Res.ok_bind]
  simp only [initSelTbl, if_true]
  have h0 := selTblLoop_nothrow hg (by omega) false
    (getBlockNum (sub64 (blkNum * 64) (List.count true (bitsOf W))) 1024) 0 0
  have h1 : initSelTblSub true true ys ((bitsOf W).count true) = .ub := by
    rw [initSelTblSub]
    have hbn : getBlockNum ((bitsOf W).count true) 1024 = 2 := by
      rw [getBlockNum, Nat.mod_eq_of_lt (by omega)]; omega
    rw [hbn]
    simp only [selTblLoop]
    have hr0 := hg.rankA (by omega) true (i := 0) (by omega)
    rw [show selAdvance true true ys (0 * 1024) 0 = .ok 0 by
      rw [selAdvance, if_pos (by omega), hr0]; simp]
    rw [Res.ok_bind, Nat.zero_add, selAdvance_hang hg (by omega) true (1 * 1024) ?_ _ 0 rfl (by omega)]
    · rfl
    · intro i hi
      have := rank_mono (bitsOf W) true (show i * 256 ≤ (2 ^ 32 - 1) * 256 by omega)
      omega
  rw [h1]
  cases h : initSelTblSub true false ys (sub64 (blkNum * 64) (List.count true (bitsOf W))) with
  | throw => exact absurd h h0
  | ub => rfl
  | ok t => rfl

/-- Words with 15 leading and 4 trailing words of ones. -/
def hangWords (m : Nat) : List (BitVec 64) :=
  List.replicate 15 (BitVec.allOnes 64) ++ (List.replicate m 0 ++ List.replicate 4 (BitVec.allOnes 64))

theorem bitsOf_ones (n : Nat) : bitsOf (List.replicate n (BitVec.allOnes 64)) = List.replicate (n * 64) true := by
  induction n with
  | zero => rfl
  | succ n ih =>
    rw [List.replicate_succ, show bitsOf (BitVec.allOnes 64 :: List.replicate n (BitVec.allOnes 64)) =
      bitsOfWord (BitVec.allOnes 64) ++ bitsOf (List.replicate n (BitVec.allOnes 64)) by simp [bitsOf], ih,
      show (n + 1) * 64 = 64 + n * 64 by omega, ← List.replicate_append_replicate]
    congr 1

theorem hang_bits (m : Nat) : bitsOf (hangWords m) =
    List.replicate 960 true ++ (List.replicate (m * 64) false ++ List.replicate 256 true) := by
  rw [hangWords, bitsOf_append, bitsOf_append, bitsOf_ones, bitsOf_ones, bitsOf_zeros]

theorem init_hang (s : SV) : init true true s (hangWords (2 ^ 34 - 19)) (2 ^ 40) = .ub := by
  have hm : ∃ m, m = 2 ^ 34 - 19 := ⟨_, rfl⟩
  obtain ⟨m, hm⟩ := hm
  rw [← hm]
  have hlen : (hangWords m).length = 2 ^ 34 := by
    simp only [hangWords, List.length_append, List.length_replicate]; omega
  have hbits := hang_bits m
  simp only [init, resize]
  rw [if_neg (by simp [maxBitSize])]
  simp only [Bool.false_eq_true, if_false, Res.ok_bind]
  have hk : (2 ^ 40 + 63) / 64 = 2 ^ 34 := by omega
  have hk2 : (2 ^ 34 + 3) / 4 = 2 ^ 32 := by omega
  simp only [hk, hk2]
  have hn : ∃ N, N = 2 ^ 34 := ⟨_, rfl⟩
  obtain ⟨N, hN⟩ := hn
  rw [← hN] at hlen ⊢
  apply initBlock_hang (W := hangWords m) (fun i => min (4 * i) N) (by simp)
  · simp only [vresize_len]; omega
  · omega
  · rw [hbits]; simp [List.count_append, List.count_replicate]
  · rw [hbits, rankOf, List.take_append, List.take_append, List.count_append, List.count_append]
    simp only [List.length_replicate, List.take_replicate, List.count_replicate]
    simp
    omega
  · intro j h x' hx
    have := nextWords_some (hangWords m) N 0 (by omega) x' (4 * j)
    rw [List.take_of_length_le (by omega), List.replicate_zero, List.append_nil] at this
    rw [this]; rfl

end Verif.SucVector
