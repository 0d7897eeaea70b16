import Verif.Proof.CSucVector

/-!
# C18 Compressed succinct vector
-/
namespace Verif.Props.CSucVector
open Verif.CSuc Verif.Spec.CSucVector Verif.Spec.SucVector

/-- C18: `init` on a new object succeeds for every bit string of at most 2^32 - 17408 bits, and then
`get` returns the stored bit and `rank1` the number of ones before every position of the string;
reading a position behind the end throws.
Missing from the full claim: bit strings within 17408 bits of 2^32 (`C18_finding_endless`), objects initialised before (`C18_finding_second_init`). -/
theorem C18_get_rank1_partial (buf : List (BitVec 64)) (n : Nat) (hb : (n + 63) / 64 ≤ buf.length)
    (hn : n + 16384 + 1024 ≤ 2 ^ 32) :
    ∃ c, init .empty buf n = .ok c ∧
      (∀ pos, pos < n → c.get pos = .ok (bufBit buf pos)) ∧ (∀ pos, n ≤ pos → c.get pos = .throw) ∧
      (∀ pos, pos < n → c.rank1 pos = .ok (rankOf (bufBits buf n) true pos)) := by
  obtain ⟨enc, e, hg, h256⟩ := initTable_ok
  obtain ⟨c, ec, hc, _⟩ := build_ok enc 16384 hg h256 buf n hb (by omega)
  refine ⟨c, ?_, fun pos hp => get_ok hc hp, ?_, fun pos hp => rank1_ok hc hp⟩
  · rw [init, if_neg (by omega)]
    simp only [e, Res.ok_bind, CV.empty, ec]
  · intro pos hp
    rw [CV.get, hc.size, if_pos hp]

/-- C18: `rank1` at and behind the end is the number of all ones, if the unused bits of the last word
are zero; `rank0` is the number of zeros before every position of the string.
Missing: as for `C18_get_rank1_partial`, and buffers with other bits behind the end (`C18_finding_dirty_tail`). -/
theorem C18_rank_end_partial (buf : List (BitVec 64)) (n : Nat) (hb : (n + 63) / 64 ≤ buf.length)
    (hn : n + 16384 + 1024 ≤ 2 ^ 32)
    (hclean : ∀ i, n ≤ i → i / 64 < (n + 63) / 64 → bufBit buf i = false) :
    ∃ c, init .empty buf n = .ok c ∧ (∀ pos, n ≤ pos → c.rank1 pos = .ok (rankOf (bufBits buf n) true n)) ∧
      (∀ pos, pos ≤ n → c.rank0 pos = .ok (rankOf (bufBits buf n) false pos)) := by
  obtain ⟨enc, e, hg, h256⟩ := initTable_ok
  obtain ⟨c, ec, hc, _⟩ := build_ok enc 16384 hg h256 buf n hb (by omega)
  have hend : ∀ pos, n ≤ pos → c.rank1 pos = .ok (rankOf (bufBits buf n) true n) := by
    intro pos hp
    rw [CV.rank1, hc.size, if_pos hp]
    refine congrArg Res.ok ?_
    obtain ⟨N, hN, _, _, hrk⟩ := hc.code
    have hl : (bufBits buf n).length = n := by simp [bufBits]
    rw [hrk, rankOf, ← strBits_take (Nat.le_refl n) hN]
    have hz : ((strBits buf n N).drop n).count true = 0 := by
      rw [List.count_eq_zero]
      intro hmem
      obtain ⟨i, hi, ei⟩ := List.mem_iff_getElem.1 hmem
      rw [List.getElem_drop] at ei
      simp only [strBits, List.getElem_map, List.getElem_range] at ei
      rw [sbit, Bool.and_eq_true] at ei
      rw [hclean (n + i) (by omega) (of_decide_eq_true ei.1)] at ei
      exact absurd ei.2 (by simp)
    have h := List.count_append (a := true) (l₁ := (strBits buf n N).take n) (l₂ := (strBits buf n N).drop n)
    rw [List.take_append_drop, hz] at h
    exact h
  refine ⟨c, ?_, hend, ?_⟩
  · rw [init, if_neg (by omega)]
    simp only [e, Res.ok_bind, CV.empty, ec]
  · intro pos hp
    have hr : c.rank1 pos = .ok (rankOf (bufBits buf n) true pos) := by
      by_cases h : pos < n
      · exact rank1_ok hc h
      · have : pos = n := by omega
        subst this; exact hend _ (Nat.le_refl _)
    rw [CV.rank0, hr]
    simp only [Res.ok_bind, Res.pure_eq]
    refine congrArg Res.ok ?_
    have hl : ((bufBits buf n).take pos).length = pos := by simp [bufBits]; omega
    have hsum : ∀ l : List Bool, l.count true + l.count false = l.length := by
      intro l
      induction l with
      | nil => rfl
      | cons b l ih => cases b <;> simp [List.count_cons] <;> omega
    have := hsum ((bufBits buf n).take pos)
    simp only [rankOf]
    omega

/-- C18, whatever dictionary: the same holds for every full table of codes that describe bit strings
and contain all 7-bit codes, in any order.  `M` is the length of the longest code. -/
theorem C18_any_dictionary (enc : List Enc) (M : Nat) (hg : GoodTbl enc M) (h256 : enc.length = 256)
    (buf : List (BitVec 64)) (n : Nat) (hb : (n + 63) / 64 ≤ buf.length) (hn : n + M + 1024 ≤ 2 ^ 32) :
    ∃ c, buildWith enc [] buf n = .ok c ∧
      ∀ pos, pos < n → c.get pos = .ok (bufBit buf pos) ∧ c.rank1 pos = .ok (rankOf (bufBits buf n) true pos) := by
  obtain ⟨c, ec, hc, _⟩ := build_ok enc M hg h256 buf n hb hn
  exact ⟨c, ec, fun pos hp => ⟨get_ok hc hp, rank1_ok hc hp⟩⟩

/-- C18: the code that `concatPair` makes from two codes describes the concatenation of their bits, so
a table grown by it stays a dictionary. -/
theorem C18_concatPair (a b : Enc) (ha : GoodEnc a) (hb : GoodEnc b) (hl : a.len + b.len < 2 ^ 32) (v : BitVec 64)
    (len : Nat) (h : concatPair a b = some (v, len)) :
    GoodEnc (Enc.make v len) ∧ bitsE (Enc.make v len) = bitsE a ++ bitsE b := concat_good ha hb hl h

/-- C18: a longer bit string is refused. -/
theorem C18_too_long (c : CV) (buf : List (BitVec 64)) (n : Nat) (h : 2 ^ 32 ≤ n) : init c buf n = .throw := by
  rw [init, if_pos h]

/-- C18, finding: if the codes cover more than 2^32 - 1024 bits (and less than 2^32), `initBlockVec`
never ends: its 32-bit sampling position wraps.  No number of rounds is enough. -/
theorem C18_finding_endless (b : Blk) (next : Nat) (h : 2 ^ 32 - 1024 < next) (rounds : Nat) (blk : List Blk) :
    sampleLoop b next rounds 0 blk = .ub := sampleLoop_hang b next h rounds 0 blk rfl (by decide)

/-- 1024 zeros, then 1024 ones. -/
def zerosOnes : List (BitVec 64) := List.replicate 16 0 ++ List.replicate 16 (BitVec.allOnes 64)
/-- 1024 ones, then 1024 zeros. -/
def onesZeros : List (BitVec 64) := List.replicate 16 (BitVec.allOnes 64) ++ List.replicate 16 0

/-- C18, finding: a second `init` on the same object keeps the old block table, and `rank1` is wrong: 0
instead of 1024. -/
theorem C18_finding_second_init :
    (do let c ← init .empty zerosOnes 2048
        let c ← init c onesZeros 2048
        c.rank1 1500) = .ok 0 ∧ rankOf (bufBits onesZeros 2048) true 1500 = 1024 := by
  decide +kernel

/-- C18, finding: a second `init` can also make `get` read behind the codes. -/
theorem C18_finding_second_init_ub :
    (do let c ← init .empty zerosOnes 2048
        let c ← init c (List.replicate 32 0) 2048
        c.get 1500) = .ub := by
  decide +kernel

/-- C18, finding: bits behind the end in the last word are counted by `rank1` at the end. -/
theorem C18_finding_dirty_tail :
    (do let c ← init .empty [0b1111#64] 2
        c.rank1 2) = .ok 4 := by
  decide +kernel

example : (do let c ← init .empty onesZeros 2048
              c.rank1 1500) = .ok 1024 := by decide +kernel
example : (2048 + 63) / 64 ≤ onesZeros.length ∧ 2048 + 16384 + 1024 ≤ 2 ^ 32 := by decide
/-- The table of the code is a dictionary in the sense of `C18_any_dictionary`. -/
example : ∃ enc, initTable = .ok enc ∧ GoodTbl enc 16384 ∧ enc.length = 256 := initTable_ok
example : concatPair (Enc.make 5 7) (Enc.make 1 7) = some (133, 14) := by decide

#print axioms C18_get_rank1_partial
#print axioms C18_rank_end_partial
#print axioms C18_any_dictionary
#print axioms C18_concatPair

end Verif.Props.CSucVector
