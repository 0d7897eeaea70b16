import Verif.Model.CSucVector
import Verif.Spec.CSucVector
import Verif.Proof.SucVector

set_option linter.unusedSimpArgs false

namespace Verif.CSuc
open Verif.BitOp Verif.SucVector Verif.Spec.CSucVector Verif.Spec.SucVector

/-- Bit `i` of the stream the encoder sees: zeros behind the last word. -/
def sbit (buf : List (BitVec 64)) (n i : Nat) : Bool := decide (i / 64 < (n + 63) / 64) && bufBit buf i

theorem sbit_low {buf : List (BitVec 64)} {n i : Nat} (h : i < n) : sbit buf n i = bufBit buf i := by
  rw [sbit, decide_eq_true (by omega : i / 64 < (n + 63) / 64), Bool.true_and]

/-- Bit `i` of a code. -/
def bitAt (e : Enc) (i : Nat) : Bool := if i < 64 then e.v.getLsbD i else decide (e.v ≠ 0)

/-- The bits of a code. -/
def bitsE (e : Enc) : List Bool := (List.range e.len).map (bitAt e)

/-- A table entry that describes a bit string. -/
structure GoodEnc (e : Enc) : Prop where
  made : e = Enc.make e.v e.len
  pos : 0 < e.len
  short : e.len < 64 → e.v.toNat < 2 ^ e.len
  long : 64 < e.len → e.v = 0 ∨ e.v = all1

/-- A dictionary: at most 256 good entries, all 7-bit codes among them. -/
structure GoodTbl (enc : List Enc) (M : Nat) : Prop where
  size : enc.length ≤ 256
  good : ∀ e ∈ enc, GoodEnc e ∧ e.len ≤ M
  seven : ∀ i : Nat, i < 128 → Enc.make (BitVec.ofNat 64 i) 7 ∈ enc

theorem getMask_bits {n : Nat} (h : n < 64) (i : Nat) : (getMask n).getLsbD i = decide (i < n) := by
  rw [getMask]; exact mask_bits n h i

theorem peek_ok (buf : List (BitVec 64)) (n cur off : Nat) (hb : (n + 63) / 64 ≤ buf.length) :
    ∃ x, peek buf n cur off = .ok x ∧ ∀ j, j < 64 → x.getLsbD j = sbit buf n (cur + off + j) := by
  rw [peek]
  generalize hp : cur + off = p
  have hget : ∀ q, q < (n + 63) / 64 → at? buf q = .ok (buf.getD q 0) := by
    intro q hq
    rw [at?_eq_ok (by omega), List.getD_eq_getElem _ _ (by omega)]
  by_cases h1 : p / 64 ≥ (n + 63) / 64
  · simp only [if_pos h1]
    refine ⟨0, rfl, ?_⟩
    intro j hj
    rw [sbit, decide_eq_false (by omega)]; simp
  · simp only [if_neg h1]
    by_cases h2 : p % 64 = 0
    · simp only [if_pos h2]
      refine ⟨_, hget _ (by omega), ?_⟩
      intro j hj
      have e1 : (p + j) / 64 = p / 64 := by omega
      have e2 : (p + j) % 64 = j := by omega
      rw [sbit, bufBit, e1, e2, decide_eq_true (by omega : p / 64 < (n + 63) / 64), Bool.true_and]
    · simp only [if_neg h2]
      rw [hget _ (by omega)]
      simp only [Res.ok_bind]
      have hh : nextWord buf ((n + 63) / 64) (p / 64) =
          .ok (if p / 64 < (n + 63) / 64 - 1 then buf.getD (p / 64 + 1) 0 else 0) := by
        rw [nextWord]
        by_cases h3 : p / 64 < (n + 63) / 64 - 1
        · rw [if_pos h3, if_pos h3, hget _ (by omega)]
        · rw [if_neg h3, if_neg h3]
      rw [hh]
      simp only [Res.ok_bind, Res.pure_eq]
      refine ⟨_, rfl, ?_⟩
      intro j hj
      rw [BitVec.getLsbD_or, BitVec.getLsbD_and, getMask_bits (by omega), BitVec.getLsbD_ushiftRight,
        BitVec.getLsbD_shiftLeft, sbit, bufBit]
      by_cases h4 : j < 64 - p % 64
      · have e1 : (p + j) / 64 = p / 64 := by omega
        have e2 : (p + j) % 64 = p % 64 + j := by omega
        rw [e1, e2]
        simp only [h4, decide_true, Bool.and_true, Bool.not_true, Bool.and_false, Bool.false_and, Bool.or_false]
        rw [decide_eq_true (by omega : p / 64 < (n + 63) / 64), Bool.true_and]
      · have e1 : (p + j) / 64 = p / 64 + 1 := by omega
        have e2 : (p + j) % 64 = j - (64 - p % 64) := by omega
        rw [e1, e2]
        simp only [h4, hj, decide_true, decide_false, Bool.and_false, Bool.false_or, Bool.not_false, Bool.true_and]
        by_cases h3 : p / 64 < (n + 63) / 64 - 1
        · rw [if_pos h3, decide_eq_true (by omega : p / 64 + 1 < (n + 63) / 64), Bool.true_and]
        · rw [if_neg h3, decide_eq_false (by omega : ¬ p / 64 + 1 < (n + 63) / 64)]; simp

theorem runLoop_ok (buf : List (BitVec 64)) (n cur : Nat) (hb : (n + 63) / 64 ≤ buf.length) (t : BitVec 64) :
    ∀ cnt j, ∃ b, runLoop buf n cur t cnt j = .ok b ∧
      (b = true → ∀ k, j * 64 ≤ k → k < (j + cnt) * 64 → sbit buf n (cur + k) = t.getLsbD (k % 64)) := by
  intro cnt
  induction cnt with
  | zero => intro j; exact ⟨true, rfl, fun _ k h1 h2 => absurd h2 (by omega)⟩
  | succ cnt ih =>
    intro j
    rw [runLoop]
    obtain ⟨x, ex, hx⟩ := peek_ok buf n cur (j * 64) hb
    simp only [ex, Res.ok_bind]
    by_cases ht : x ≠ t
    · rw [if_pos ht]
      exact ⟨false, rfl, by simp⟩
    · rw [if_neg ht]
      obtain ⟨b, eb, hbb⟩ := ih (j + 1)
      refine ⟨b, eb, ?_⟩
      intro hbt k h1 h2
      by_cases h3 : k < (j + 1) * 64
      · have := hx (k - j * 64) (by omega)
        rw [show cur + j * 64 + (k - j * 64) = cur + k by omega] at this
        rw [← this, show k - j * 64 = k % 64 by omega, Decidable.not_not.1 ht]
      · exact hbb hbt k (by omega) (by omega)

theorem runRest_ok (buf : List (BitVec 64)) (n cur : Nat) (hb : (n + 63) / 64 ≤ buf.length) (t : BitVec 64)
    (q r : Nat) (hr : r < 64) :
    ∃ b, runRest buf n cur t q r = .ok b ∧
      (b = true → ∀ k, q * 64 ≤ k → k < q * 64 + r → sbit buf n (cur + k) = t.getLsbD (k % 64)) := by
  rw [runRest]
  by_cases h0 : r > 0
  · rw [if_pos h0]
    obtain ⟨x, ex, hx⟩ := peek_ok buf n cur (q * 64) hb
    simp only [ex, Res.ok_bind, Res.pure_eq]
    refine ⟨_, rfl, ?_⟩
    intro hbt k h1 h2
    have e := of_decide_eq_true hbt
    have e2 := congrArg (fun y => y.getLsbD (k - q * 64)) e
    simp only [BitVec.getLsbD_and, getMask_bits hr, decide_eq_true (by omega : k - q * 64 < r), Bool.and_true] at e2
    rw [hx _ (by omega), show cur + q * 64 + (k - q * 64) = cur + k by omega] at e2
    rw [e2, show k - q * 64 = k % 64 by omega]
  · rw [if_neg h0]
    exact ⟨true, rfl, fun _ k h1 h2 => absurd h2 (by omega)⟩

theorem found_ok (buf : List (BitVec 64)) (n cur : Nat) (hb : (n + 63) / 64 ≤ buf.length) (v : BitVec 64)
    (hv : ∀ j, j < 64 → v.getLsbD j = sbit buf n (cur + j)) (e : Enc) (he : GoodEnc e) :
    ∃ b, found buf n cur v e = .ok b ∧ (b = true → ∀ k, k < e.len → sbit buf n (cur + k) = bitAt e k) ∧
      (e.len = 7 → v &&& getMask 7 = e.v → b = true) := by
  rw [found]
  by_cases h : e.len ≥ 64
  · simp only [if_pos h]
    by_cases hve : v = e.v
    · simp only [if_pos hve]
      obtain ⟨b, eb, hbb⟩ := runLoop_ok buf n cur hb e.v (e.len / 64 - 1) 1
      simp only [eb, Res.ok_bind]
      cases b with
      | false => exact ⟨false, rfl, by simp, by omega⟩
      | true =>
        simp only [if_true]
        obtain ⟨b', eb', hbb'⟩ := runRest_ok buf n cur hb e.v (e.len / 64) (e.len % 64) (Nat.mod_lt _ (by decide))
        refine ⟨b', eb', ?_, by omega⟩
        intro ht k hk
        rw [bitAt]
        by_cases h64 : k < 64
        · rw [if_pos h64, ← hve, hv k h64]
        · rw [if_neg h64]
          have h2 : sbit buf n (cur + k) = e.v.getLsbD (k % 64) := by
            by_cases h3 : k < e.len / 64 * 64
            · exact hbb rfl k (by omega) (by omega)
            · exact hbb' ht k (by omega) (by omega)
          rw [h2]
          rcases he.long (by omega) with h0 | h1
          · rw [h0]; simp
          · have hall : (all1 : BitVec 64) ≠ 0 := by decide
            rw [h1, decide_eq_true hall, all1, BitVec.getLsbD_allOnes]
            exact decide_eq_true (Nat.mod_lt _ (by decide))
    · simp only [if_neg hve]
      exact ⟨false, rfl, by simp, by omega⟩
  · simp only [if_neg h]
    refine ⟨_, rfl, ?_, ?_⟩
    · intro ht k hk
      have e1 := of_decide_eq_true ht
      have e2 := congrArg (fun y => y.getLsbD k) e1
      simp only [BitVec.getLsbD_and, getMask_bits (by omega : e.len < 64), decide_eq_true hk, Bool.and_true] at e2
      rw [bitAt, if_pos (by omega), ← e2, hv k (by omega)]
    · intro h7 hm
      rw [h7, hm]; simp

theorem findEnc_ok (buf : List (BitVec 64)) (n cur : Nat) (hb : (n + 63) / 64 ≤ buf.length) (v : BitVec 64)
    (hv : ∀ j, j < 64 → v.getLsbD j = sbit buf n (cur + j)) :
    ∀ (es : List Enc) (i : Nat), (∀ e ∈ es, GoodEnc e) → (∃ e ∈ es, e.len = 7 ∧ v &&& getMask 7 = e.v) →
    ∃ j e, es[j]? = some e ∧ findEnc buf n cur v es i = .ok (i + j, e) ∧
      ∀ k, k < e.len → sbit buf n (cur + k) = bitAt e k := by
  intro es
  induction es with
  | nil => intro i _ h; obtain ⟨e, he, _⟩ := h; simp at he
  | cons e es ih =>
    intro i hg hex
    rw [findEnc]
    obtain ⟨b, eb, h1, h2⟩ := found_ok buf n cur hb v hv e (hg e (by simp))
    simp only [eb, Res.ok_bind]
    cases b with
    | true => exact ⟨0, e, rfl, rfl, h1 rfl⟩
    | false =>
      obtain ⟨j, e', hj, hf, hm⟩ := ih (i + 1) (fun x hx => hg x (by simp [hx])) (by
        obtain ⟨x, hx, h7, hmask⟩ := hex
        rcases List.mem_cons.1 hx with rfl | hx
        · exact absurd (h2 h7 hmask) (by simp)
        · exact ⟨x, hx, h7, hmask⟩)
      refine ⟨j + 1, e', by simpa using hj, ?_, hm⟩
      simp only [Bool.false_eq_true, if_false, hf]
      rw [show i + 1 + j = i + (j + 1) by omega]

theorem seven_exists {enc : List Enc} {M : Nat} (hg : GoodTbl enc M) (v : BitVec 64) :
    ∃ e ∈ enc, e.len = 7 ∧ v &&& getMask 7 = e.v := by
  refine ⟨_, hg.seven (v.toNat % 128) (Nat.mod_lt _ (by decide)), rfl, ?_⟩
  rw [Enc.make]
  apply BitVec.eq_of_toNat_eq
  rw [BitVec.toNat_and, BitVec.toNat_ofNat, show (getMask 7).toNat = 2 ^ 7 - 1 by decide, Nat.and_two_pow_sub_one_eq_mod]
  omega

/-- The bits of a code word sequence. -/
def codeBits (enc : List Enc) (vec : List Nat) : List Bool :=
  vec.flatMap fun i => bitsE (enc.getD i ⟨0, 0, 0⟩)

theorem codeBits_append (enc : List Enc) (a b : List Nat) : codeBits enc (a ++ b) = codeBits enc a ++ codeBits enc b := by
  simp [codeBits]

/-- First `N` bits of the stream. -/
def strBits (buf : List (BitVec 64)) (n N : Nat) : List Bool := (List.range N).map (sbit buf n)

theorem strBits_add (buf : List (BitVec 64)) (n a : Nat) (e : Enc)
    (h : ∀ k, k < e.len → sbit buf n (a + k) = bitAt e k) :
    strBits buf n (a + e.len) = strBits buf n a ++ bitsE e := by
  rw [strBits, List.range_add, List.map_append, strBits, List.map_map, bitsE]
  congr 1
  apply List.map_congr_left
  intro k hk
  exact h k (by simpa using hk)

theorem rk_eq {e : Enc} (he : GoodEnc e) : e.rk = (bitsE e).count true := by
  have hm := congrArg Enc.rk he.made
  rw [hm, Enc.make]
  simp only
  rw [bitsE, List.count_eq_countP, List.countP_map]
  by_cases h : e.len ≤ 64
  · rw [if_pos h, cnt64, cnt]
    have h1 : ∀ i, e.len ≤ i → e.v.getLsbD i = false := by
      intro i hi
      by_cases h64 : e.len = 64
      · exact BitVec.getLsbD_of_ge _ _ (by omega)
      · rw [← BitVec.testBit_toNat]
        apply Nat.testBit_lt_two_pow
        exact Nat.lt_of_lt_of_le (he.short (by omega)) (Nat.pow_le_pow_right (by decide) hi)
    have hr : List.range 64 = List.range e.len ++ (List.range (64 - e.len)).map (e.len + ·) := by
      rw [← List.range_add]; congr 1; omega
    rw [hr, List.countP_append]
    have h2 : ((List.range (64 - e.len)).map (e.len + ·)).countP (fun i => e.v.getLsbD i) = 0 := by
      rw [List.countP_eq_zero]
      intro i hi
      simp only [List.mem_map, List.mem_range] at hi
      obtain ⟨a, _, rfl⟩ := hi
      rw [h1 _ (by omega)]; simp
    rw [h2, Nat.add_zero]
    apply List.countP_congr
    intro i hi
    have hi : i < e.len := by simpa using hi
    simp [bitAt, show i < 64 by omega]
  · rw [if_neg h]
    rcases he.long (by omega) with h0 | h1
    · rw [if_pos h0]
      symm
      rw [List.countP_eq_zero]
      intro i _
      simp [bitAt, h0]
    · have hall : (all1 : BitVec 64) ≠ 0 := by decide
      rw [if_neg (by rw [h1]; exact hall)]
      symm
      have : (List.range e.len).countP ((fun x => x == true) ∘ bitAt e) = (List.range e.len).length := by
        rw [List.countP_eq_length]
        intro i _
        simp only [Function.comp, bitAt]
        by_cases h64 : i < 64
        · rw [if_pos h64, h1, all1, BitVec.getLsbD_allOnes]; simp [h64]
        · rw [if_neg h64, h1, decide_eq_true hall]; rfl
      rw [this, List.length_range]

theorem bitsE_length (e : Enc) : (bitsE e).length = e.len := by simp [bitsE]

theorem outLoop_ok (buf : List (BitVec 64)) (n : Nat) (hb : (n + 63) / 64 ≤ buf.length) (enc : List Enc) (M : Nat)
    (hg : GoodTbl enc M) :
    ∀ (fuel cur : Nat) (vec : List Nat) (rk : Nat), n - cur < fuel → (cur < n ∨ cur = 0) →
    (∀ i ∈ vec, i < enc.length) → codeBits enc vec = strBits buf n cur → rk = (strBits buf n cur).count true % 2 ^ 32 →
    ∃ vec' N, outLoop buf n enc fuel cur vec rk = .ok (vec', (strBits buf n N).count true % 2 ^ 32) ∧
      (∀ i ∈ vec', i < enc.length) ∧ codeBits enc vec' = strBits buf n N ∧ n ≤ N ∧ N ≤ n + M := by
  intro fuel
  induction fuel with
  | zero => intro cur _ _ h; omega
  | succ fuel ih =>
    intro cur vec rk hf hc hidx hcode hrk
    rw [outLoop]
    obtain ⟨v, ev, hv⟩ := peek_ok buf n cur 0 hb
    simp only [Nat.add_zero] at hv
    obtain ⟨j, e, hj, hfe, hm⟩ := findEnc_ok buf n cur hb v hv enc 0 (fun e he => (hg.good e he).1) (seven_exists hg v)
    simp only [ev, hfe, Res.ok_bind, Nat.zero_add]
    have hjl : j < enc.length := (List.getElem?_eq_some_iff.1 hj).1
    have hmem : e ∈ enc := by
      obtain ⟨_, e1⟩ := List.getElem?_eq_some_iff.1 hj
      rw [← e1]; exact List.getElem_mem _
    have hj256 : j % 256 = j := Nat.mod_eq_of_lt (by have := hg.size; omega)
    have hgd : enc.getD j ⟨0, 0, 0⟩ = e := by rw [List.getD_eq_getElem?_getD, hj]; rfl
    have hcode' : codeBits enc (vec ++ [j % 256]) = strBits buf n (cur + e.len) := by
      rw [codeBits_append, hcode, strBits_add buf n cur e hm]
      simp only [codeBits, List.flatMap_cons, List.flatMap_nil, List.append_nil]
      rw [hj256, hgd]
    have hidx' : ∀ i ∈ vec ++ [j % 256], i < enc.length := by
      intro i hi
      rcases List.mem_append.1 hi with h | h
      · exact hidx i h
      · rw [List.mem_singleton.1 h, hj256]; exact hjl
    have hrk' : (rk + e.rk) % 2 ^ 32 = (strBits buf n (cur + e.len)).count true % 2 ^ 32 := by
      rw [strBits_add buf n cur e hm, List.count_append, ← rk_eq (hg.good e hmem).1, hrk, Nat.mod_add_mod]
    have hpos := (hg.good e hmem).1.pos
    have hM := (hg.good e hmem).2
    by_cases hcn : cur < n
    · simp only [if_pos hcn]
      by_cases h : cur + e.len ≥ n
      · rw [if_pos h]
        refine ⟨_, cur + e.len, ?_, hidx', hcode', h, by omega⟩
        rw [hrk']; rfl
      · rw [if_neg h]
        exact ih (cur + e.len) _ _ (by omega) (by omega) hidx' hcode' hrk'
    · simp only [if_neg hcn]
      have h0 : cur = 0 := by omega
      rw [if_pos (by omega)]
      refine ⟨_, cur + e.len, ?_, hidx', hcode', by omega, by omega⟩
      rw [hrk']; rfl

/-! ## Blocks -/

theorem sampleLoop_ok (b : Blk) (next : Nat) (hn : next + 1024 ≤ 2 ^ 32) :
    ∀ (fuel sp : Nat) (blk : List Blk), next - sp < fuel →
    ∃ k, sampleLoop b next fuel sp blk = .ok (sp + 1024 * k, blk ++ List.replicate k b) ∧ next ≤ sp + 1024 * k ∧
      ∀ m, m < k → sp + 1024 * m < next := by
  intro fuel
  induction fuel with
  | zero => intro sp _ h; omega
  | succ fuel ih =>
    intro sp blk hf
    rw [sampleLoop]
    by_cases h : sp < next
    · rw [if_pos h, Nat.mod_eq_of_lt (by omega)]
      obtain ⟨k, e, h1, h2⟩ := ih (sp + 1024) (blk ++ [b]) (by omega)
      refine ⟨k + 1, ?_, by omega, ?_⟩
      · rw [e, List.replicate_succ, List.append_assoc, List.singleton_append]
        congr 2
        omega
      · intro m hm
        cases m with
        | zero => omega
        | succ m => have := h2 m (by omega); omega
    · rw [if_neg h]
      exact ⟨0, by simp, by omega, by omega⟩

/-- Bits covered by the first `k` codes. -/
def P (enc : List Enc) (vec : List Nat) (k : Nat) : Nat := (codeBits enc (vec.take k)).length
/-- Ones among them. -/
def R (enc : List Enc) (vec : List Nat) (k : Nat) : Nat := (codeBits enc (vec.take k)).count true

/-- Block `m` describes the code that covers bit `1024 * m`. -/
def GoodBlk (enc : List Enc) (vec : List Nat) (m : Nat) (b : Blk) : Prop :=
  ∃ k, k < vec.length ∧ b = ⟨P enc vec k, k, R enc vec k⟩ ∧ P enc vec k ≤ 1024 * m ∧ 1024 * m < P enc vec (k + 1)

theorem codeBits_take_succ (enc : List Enc) (vec : List Nat) (k : Nat) (hk : k < vec.length) :
    codeBits enc (vec.take (k + 1)) = codeBits enc (vec.take k) ++ bitsE (enc.getD vec[k] ⟨0, 0, 0⟩) := by
  rw [← List.take_append_getElem hk, codeBits_append]
  simp [codeBits]

theorem P_le (enc : List Enc) (vec : List Nat) (k : Nat) : P enc vec k ≤ (codeBits enc vec).length := by
  rw [P]
  have : codeBits enc vec = codeBits enc (vec.take k) ++ codeBits enc (vec.drop k) := by
    rw [← codeBits_append, List.take_append_drop]
  rw [this]; simp

theorem R_le (enc : List Enc) (vec : List Nat) (k : Nat) : R enc vec k ≤ P enc vec k := List.count_le_length

theorem blockLoop_ok (enc : List Enc) (M : Nat) (hg : GoodTbl enc M) (vec : List Nat) (hidx : ∀ i ∈ vec, i < enc.length)
    (hT : (codeBits enc vec).length + 1024 ≤ 2 ^ 32) (hvl : vec.length < 2 ^ 32) :
    ∀ (cnt k : Nat) (blk : List Blk), k + cnt = vec.length → P enc vec k ≤ 1024 * blk.length →
    (∀ m b, blk[m]? = some b → GoodBlk enc vec m b) →
    ∃ blk', blockLoop enc (vec.drop k) k (P enc vec k) (R enc vec k) (1024 * blk.length) blk = .ok blk' ∧
      (∀ m b, blk'[m]? = some b → GoodBlk enc vec m b) ∧ (codeBits enc vec).length ≤ 1024 * blk'.length := by
  intro cnt
  induction cnt with
  | zero =>
    intro k blk hk hp hblk
    rw [List.drop_of_length_le (by omega), blockLoop]
    refine ⟨blk, rfl, hblk, ?_⟩
    have : P enc vec k = (codeBits enc vec).length := by rw [P, List.take_of_length_le (by omega)]
    omega
  | succ cnt ih =>
    intro k blk hk hp hblk
    have hkl : k < vec.length := by omega
    rw [List.drop_eq_getElem_cons hkl, blockLoop]
    have hvi : vec[k] < enc.length := hidx _ (List.getElem_mem _)
    rw [at?_eq_ok hvi]
    simp only [Res.ok_bind]
    have hts := codeBits_take_succ enc vec k hkl
    rw [List.getD_eq_getElem _ _ hvi] at hts
    have hP1 : P enc vec (k + 1) = P enc vec k + enc[vec[k]].len := by
      rw [P, hts, List.length_append, bitsE_length, P]
    have hR1 : R enc vec (k + 1) = R enc vec k + enc[vec[k]].rk := by
      rw [R, hts, List.count_append, ← rk_eq (hg.good _ (List.getElem_mem _)).1, R]
    have hple := P_le enc vec (k + 1)
    have hrle := R_le enc vec (k + 1)
    rw [← hP1, ← hR1, Nat.mod_eq_of_lt (by omega : P enc vec (k + 1) < 2 ^ 32), Nat.mod_eq_of_lt (by omega : k < 2 ^ 32),
      Nat.mod_eq_of_lt (by omega : R enc vec (k + 1) < 2 ^ 32)]
    obtain ⟨c, e, h1, h2⟩ := sampleLoop_ok ⟨P enc vec k, k, R enc vec k⟩ (P enc vec (k + 1)) (by omega)
      (P enc vec (k + 1) + 1) (1024 * blk.length) blk (by omega)
    simp only [e, Res.ok_bind]
    have hl : 1024 * blk.length + 1024 * c = 1024 * (blk ++ List.replicate c (Blk.mk (P enc vec k) k (R enc vec k))).length := by
      simp [Nat.mul_add]
    rw [hl] at h1 ⊢
    apply ih (k + 1) _ (by omega) h1
    intro m b hm
    by_cases hml : m < blk.length
    · rw [List.getElem?_append_left hml] at hm
      exact hblk m b hm
    · rw [List.getElem?_append_right (by omega)] at hm
      obtain ⟨hlt, hb⟩ := List.getElem?_eq_some_iff.1 hm
      rw [List.getElem_replicate] at hb
      rw [List.length_replicate] at hlt
      have := h2 _ hlt
      exact ⟨k, hkl, hb.symm, by omega, by omega⟩

/-! ## Lookup -/

theorem count_prefix {e : Enc} (he : GoodEnc e) {p : Nat} (hp : p < e.len) :
    ((bitsE e).take p).count true =
      if p ≥ 64 then (if e.v ≠ 0 then p else 0) else popcnt64 (e.v &&& getMask p) := by
  rw [bitsE, ← List.map_take, List.take_range, Nat.min_eq_left (by omega), List.count_eq_countP, List.countP_map]
  by_cases h : p ≥ 64
  · rw [if_pos h]
    rcases he.long (by omega) with h0 | h1
    · rw [if_neg (by simp [h0]), List.countP_eq_zero]
      intro i _
      simp [bitAt, h0]
    · have hall : (all1 : BitVec 64) ≠ 0 := by decide
      rw [if_pos (by rw [h1]; exact hall)]
      have : (List.range p).countP ((fun x => x == true) ∘ bitAt e) = (List.range p).length := by
        rw [List.countP_eq_length]
        intro i _
        simp only [Function.comp, bitAt]
        by_cases h64 : i < 64
        · rw [if_pos h64, h1, all1, BitVec.getLsbD_allOnes]; simp [h64]
        · rw [if_neg h64, h1, decide_eq_true hall]; rfl
      rw [this, List.length_range]
  · rw [if_neg h, getMask]
    rw [popcnt_mask _ (by omega), cnt]
    apply List.countP_congr
    intro i hi
    have hi : i < p := by simpa using hi
    simp [bitAt, show i < 64 by omega]

theorem seek_ok (enc : List Enc) (M : Nat) (hg : GoodTbl enc M) : ∀ (vs : List Nat) (pos rk : Nat),
    (∀ i ∈ vs, i < enc.length) → pos < (codeBits enc vs).length →
    ∃ e p rk', seek enc vs pos rk = .ok (e, p, rk') ∧ GoodEnc e ∧ p < e.len ∧
      (codeBits enc vs)[pos]? = some (bitAt e p) ∧
      rk' + ((bitsE e).take p).count true = rk + ((codeBits enc vs).take pos).count true := by
  intro vs
  induction vs with
  | nil => intro pos rk _ h; simp [codeBits] at h
  | cons v vs ih =>
    intro pos rk hidx hpos
    have hv := hidx v (by simp)
    have hc : codeBits enc (v :: vs) = bitsE enc[v] ++ codeBits enc vs := by
      simp only [codeBits, List.flatMap_cons]
      rw [List.getD_eq_getElem _ _ hv]
    rw [seek, at?_eq_ok hv]
    simp only [Res.ok_bind]
    have hge := hg.good _ (List.getElem_mem hv)
    by_cases h : enc[v].len > pos
    · rw [if_pos h]
      refine ⟨_, _, _, rfl, hge.1, h, ?_, ?_⟩
      · rw [hc, List.getElem?_append_left (by rw [bitsE_length]; exact h), bitsE]
        simp [h]
      · rw [hc, List.take_append_of_le_length (by rw [bitsE_length]; omega)]
    · rw [if_neg h]
      rw [hc, List.length_append, bitsE_length] at hpos
      obtain ⟨e, p, rk', e1, h1, h2, h3, h4⟩ := ih (pos - enc[v].len) (rk + enc[v].rk)
        (fun i hi => hidx i (by simp [hi])) (by omega)
      refine ⟨e, p, rk', e1, h1, h2, ?_, ?_⟩
      · rw [hc, List.getElem?_append_right (by rw [bitsE_length]; omega), bitsE_length, h3]
      · rw [h4, hc, List.take_append, bitsE_length, List.take_of_length_le (by rw [bitsE_length]; omega : (bitsE enc[v]).length ≤ pos), List.count_append,
          ← rk_eq hge.1]
        omega

/-- What `init` establishes, for whatever dictionary. -/
structure Good (c : CV) (buf : List (BitVec 64)) (n : Nat) : Prop where
  size : c.bitSize = n
  tbl : ∃ M, GoodTbl c.enc M
  idx : ∀ i ∈ c.vec, i < c.enc.length
  code : ∃ N, n ≤ N ∧ N < 2 ^ 32 ∧ codeBits c.enc c.vec = strBits buf n N ∧ c.rk = (strBits buf n N).count true
  blks : ∀ m b, c.blk[m]? = some b → GoodBlk c.enc c.vec m b
  cover : n ≤ 1024 * c.blk.length

theorem strBits_get {buf : List (BitVec 64)} {n N i : Nat} (hn : i < n) (hN : n ≤ N) :
    (strBits buf n N)[i]? = some (bufBit buf i) := by
  rw [strBits, List.getElem?_map, List.getElem?_range (by omega), Option.map_some, sbit_low hn]

theorem strBits_take {buf : List (BitVec 64)} {n N i : Nat} (hn : i ≤ n) (hN : n ≤ N) :
    (strBits buf n N).take i = (bufBits buf n).take i := by
  rw [strBits, bufBits, ← List.map_take, ← List.map_take, List.take_range, List.take_range, Nat.min_eq_left (by omega),
    Nat.min_eq_left (by omega)]
  apply List.map_congr_left
  intro k hk
  have hk : k < i := by simpa using hk
  exact sbit_low (by omega)

theorem lookup {c : CV} {buf : List (BitVec 64)} {n : Nat} (h : Good c buf n) {pos : Nat} (hp : pos < n) :
    ∃ b, at? c.blk (pos / 1024) = .ok b ∧ b.orgPos ≤ pos ∧ ∀ rk, ∃ e p rk',
      seek c.enc (c.vec.drop b.vecPos) (pos - b.orgPos) rk = .ok (e, p, rk') ∧ GoodEnc e ∧ p < e.len ∧
      bitAt e p = bufBit buf pos ∧
      (rk = b.rk → rk' + ((bitsE e).take p).count true = ((bufBits buf n).take pos).count true) := by
  have hlt : pos / 1024 < c.blk.length := by have := h.cover; omega
  obtain ⟨k, hk, hb, hlo, hhi⟩ := h.blks (pos / 1024) _ (List.getElem?_eq_getElem hlt)
  refine ⟨c.blk[pos / 1024], at?_eq_ok hlt, by rw [hb]; simp only; omega, ?_⟩
  intro rk
  rw [hb]
  simp only
  obtain ⟨N, hN, _, hcode, _⟩ := h.code
  obtain ⟨M, hM⟩ := h.tbl
  have hsplit : codeBits c.enc c.vec = codeBits c.enc (c.vec.take k) ++ codeBits c.enc (c.vec.drop k) := by
    rw [← codeBits_append, List.take_append_drop]
  have hlen : (codeBits c.enc c.vec).length = N := by rw [hcode, strBits]; simp
  have hP : (codeBits c.enc (c.vec.take k)).length = P c.enc c.vec k := rfl
  have hdl : (codeBits c.enc (c.vec.drop k)).length = N - P c.enc c.vec k := by
    rw [← hlen, hsplit, List.length_append, hP]; omega
  obtain ⟨e, p, rk', e1, h1, h2, h3, h4⟩ := seek_ok c.enc M hM (c.vec.drop k) (pos - P c.enc c.vec k) rk
    (fun i hi => h.idx i (List.mem_of_mem_drop hi)) (by omega)
  refine ⟨e, p, rk', e1, h1, h2, ?_, ?_⟩
  · have : (codeBits c.enc c.vec)[pos]? = some (bitAt e p) := by
      rw [hsplit, List.getElem?_append_right (by omega), hP, h3]
    rw [hcode, strBits_get hp hN] at this
    exact (Option.some.inj this).symm
  · intro hr
    rw [h4, hr, ← strBits_take (by omega : pos ≤ n) hN, ← hcode, hsplit, List.take_append, hP,
      List.take_of_length_le (by omega : (codeBits c.enc (c.vec.take k)).length ≤ pos), List.count_append]
    rfl

theorem test_bit (x : BitVec 64) (p : Nat) (h : p < 64) : decide (x &&& ((1 : BitVec 64) <<< p) ≠ 0) = x.getLsbD p := by
  have hb : ∀ i, ((1 : BitVec 64) <<< p).getLsbD i = decide (i = p) := by
    intro i
    rw [BitVec.getLsbD_shiftLeft]
    by_cases hi : i = p
    · subst hi; simp [h]
    · by_cases h2 : i < p
      · simp [h2, hi]
      · have : (1 : BitVec 64).getLsbD (i - p) = false := by
          rw [show (1 : BitVec 64) = 1#64 from rfl, BitVec.getLsbD_one]
          have : i - p ≠ 0 := by omega
          simp [this]
        simp only [this, hi, Bool.and_false, decide_false]
  cases hx : x.getLsbD p with
  | true =>
    rw [decide_eq_true_iff]
    intro h0
    have := congrArg (fun y => y.getLsbD p) h0
    simp only [BitVec.getLsbD_and, hb, hx] at this
    simp at this
  | false =>
    rw [decide_eq_false_iff_not, Decidable.not_not]
    apply BitVec.eq_of_getLsbD_eq
    intro i _
    rw [BitVec.getLsbD_and, hb]
    by_cases hi : i = p
    · subst hi; simp [hx]
    · simp [hi]

theorem get_ok {c : CV} {buf : List (BitVec 64)} {n : Nat} (h : Good c buf n) {pos : Nat} (hp : pos < n) :
    c.get pos = .ok (bufBit buf pos) := by
  rw [CV.get, h.size, if_neg (by omega)]
  obtain ⟨b, eb, hle, hs⟩ := lookup h hp
  obtain ⟨e, p, rk', e1, hge, hpl, hbit, _⟩ := hs 0
  simp only [eb, Res.ok_bind, if_neg (by omega : ¬ pos < b.orgPos), e1, Res.pure_eq]
  refine congrArg Res.ok ?_
  rw [← hbit, bitAt]
  by_cases h64 : p ≥ 64
  · rw [if_pos h64, if_neg (by omega)]
  · rw [if_neg h64, if_pos (by omega), test_bit _ _ (by omega)]

theorem rank1_ok {c : CV} {buf : List (BitVec 64)} {n : Nat} (h : Good c buf n) {pos : Nat} (hp : pos < n) :
    c.rank1 pos = .ok (rankOf (bufBits buf n) true pos) := by
  rw [CV.rank1, h.size, if_neg (by omega)]
  obtain ⟨b, eb, hle, hs⟩ := lookup h hp
  obtain ⟨e, p, rk', e1, hge, hpl, _, hcnt⟩ := hs b.rk
  simp only [eb, Res.ok_bind, if_neg (by omega : ¬ pos < b.orgPos), e1, Res.pure_eq]
  refine congrArg Res.ok ?_
  rw [rankOf, ← hcnt rfl, count_prefix hge hpl]

/-! ## Construction -/

theorem codeBits_length_ge {enc : List Enc} {M : Nat} (hg : GoodTbl enc M) : ∀ (vec : List Nat),
    (∀ i ∈ vec, i < enc.length) → vec.length ≤ (codeBits enc vec).length := by
  intro vec
  induction vec with
  | nil => intro _; simp
  | cons v vs ih =>
    intro hidx
    have hv := hidx v (by simp)
    have := ih (fun i hi => hidx i (by simp [hi]))
    have hpos := (hg.good _ (List.getElem_mem hv)).1.pos
    simp only [codeBits, List.flatMap_cons, List.length_append, List.length_cons] at this ⊢
    rw [List.getD_eq_getElem _ _ hv, bitsE_length]
    omega

theorem build_ok (enc : List Enc) (M : Nat) (hg : GoodTbl enc M) (h256 : enc.length = 256) (buf : List (BitVec 64)) (n : Nat)
    (hb : (n + 63) / 64 ≤ buf.length) (hn : n + M + 1024 ≤ 2 ^ 32) :
    ∃ c, buildWith enc [] buf n = .ok c ∧ Good c buf n ∧ c.enc = enc := by
  obtain ⟨vec, N, e, hidx, hcode, hle, hN⟩ := outLoop_ok buf n hb enc M hg (n + 1) 0 [] 0 (by omega) (Or.inr rfl)
    (by simp) (by simp [codeBits, strBits]) (by simp [strBits])
  have hlen : (codeBits enc vec).length = N := by rw [hcode, strBits]; simp
  have hvl := codeBits_length_ge hg vec hidx
  have hcnt : (strBits buf n N).count true ≤ N := by
    have : (strBits buf n N).length = N := by simp [strBits]
    exact Nat.le_trans List.count_le_length (Nat.le_of_eq this)
  obtain ⟨blk, eb, hblk, hcov⟩ := blockLoop_ok enc M hg vec hidx (by omega) (by omega) vec.length 0 [] (by omega)
    (by simp [P, codeBits]) (by simp)
  have hP0 : P enc vec 0 = 0 := by simp [P, codeBits]
  have hR0 : R enc vec 0 = 0 := by simp [R, codeBits]
  rw [hP0, hR0, List.drop_zero, List.length_nil, Nat.mul_zero] at eb
  rw [Nat.mod_eq_of_lt (by omega)] at e
  refine ⟨⟨enc, n, vec, blk, (strBits buf n N).count true⟩, ?_, ?_, rfl⟩
  · rw [buildWith, growLoop]
    simp only [e, Res.ok_bind, if_pos h256, Res.pure_eq, eb]
  · exact ⟨rfl, ⟨M, hg⟩, hidx, ⟨N, hle, by omega, hcode, rfl⟩, hblk, by simp only; omega⟩

/-! ## The table of the code -/

theorem insertEnc_perm (e : Enc) : ∀ l, (insertEnc e l).Perm (e :: l) := by
  intro l
  induction l with
  | nil => exact List.Perm.refl _
  | cons x xs ih =>
    rw [insertEnc]
    split
    · exact (List.Perm.cons x ih).trans (List.Perm.swap e x xs)
    · exact List.Perm.refl _

theorem sortTbl_perm (l : List Enc) : (sortTbl l).Perm l := by
  rw [sortTbl]
  have : ∀ (l t : List Enc), (l.foldl (fun t e => insertEnc e t) t).Perm (t ++ l) := by
    intro l
    induction l with
    | nil => intro t; simp
    | cons e l ih =>
      intro t
      rw [List.foldl_cons]
      refine (ih _).trans ?_
      refine (List.Perm.append_right l (insertEnc_perm e t)).trans ?_
      rw [List.cons_append]
      exact List.perm_middle.symm
  simpa using this l []

theorem base_good : (∀ e ∈ baseTbl, (e = Enc.make e.v e.len ∧ 0 < e.len ∧ (e.len < 64 → e.v.toNat < 2 ^ e.len) ∧
    (64 < e.len → e.v = 0 ∨ e.v = all1)) ∧ e.len ≤ 16384) ∧ baseTbl.length = 256 := by
  decide +kernel

theorem initTable_ok : ∃ enc, initTable = .ok enc ∧ GoodTbl enc 16384 ∧ enc.length = 256 := by
  have hl := base_good.2
  refine ⟨sortTbl baseTbl, by rw [initTable, if_neg (by omega)], ?_, ?_⟩
  · have hp : (sortTbl baseTbl).Perm baseTbl := sortTbl_perm _
    refine ⟨by rw [hp.length_eq, hl]; decide, ?_, ?_⟩
    · intro e he
      obtain ⟨⟨a, b, c, d⟩, f⟩ := base_good.1 e (hp.mem_iff.1 he)
      exact ⟨⟨a, b, c, d⟩, f⟩
    · intro i hi
      rw [hp.mem_iff, baseTbl]
      exact List.mem_append.2 (Or.inr (List.mem_map.2 ⟨i, by simpa using hi, rfl⟩))
  · rw [(sortTbl_perm _).length_eq, hl]

theorem concat_good {a b : Enc} (ha : GoodEnc a) (hb : GoodEnc b) (hl : a.len + b.len < 2 ^ 32) {v : BitVec 64} {len : Nat}
    (h : concatPair a b = some (v, len)) :
    GoodEnc (Enc.make v len) ∧ bitsE (Enc.make v len) = bitsE a ++ bitsE b := by
  have hpa := ha.pos
  have hpb := hb.pos
  rw [concatPair, Nat.mod_eq_of_lt hl] at h
  have key : ∀ w : BitVec 64, len = a.len + b.len → v = w →
      (∀ i, i < a.len → bitAt (Enc.make w (a.len + b.len)) i = bitAt a i) →
      (∀ i, i < b.len → bitAt (Enc.make w (a.len + b.len)) (a.len + i) = bitAt b i) →
      bitsE (Enc.make v len) = bitsE a ++ bitsE b := by
    intro w h1 h2 h3 h4
    subst h1 h2
    rw [bitsE, show (Enc.make v (a.len + b.len)).len = a.len + b.len from rfl, List.range_add, List.map_append, List.map_map]
    congr 1
    · exact List.map_congr_left (fun i hi => h3 i (by simpa using hi))
    · exact List.map_congr_left (fun i hi => h4 i (by simpa using hi))
  by_cases h0 : a.v = 0 ∧ b.v = 0
  · rw [if_pos h0] at h
    obtain ⟨rfl, rfl⟩ := Prod.mk.inj (Option.some.inj h)
    refine ⟨⟨rfl, by show 0 < a.len + b.len; omega, fun _ => by simp [Enc.make]; exact Nat.two_pow_pos _, fun _ => Or.inl rfl⟩, ?_⟩
    apply key 0 rfl rfl <;> intro i _ <;> simp [bitAt, Enc.make, h0]
  · rw [if_neg h0] at h
    by_cases h1 : isAll1 a.v a.len ∧ isAll1 b.v b.len
    · rw [if_pos h1] at h
      simp only [Option.some.injEq, Prod.mk.injEq] at h
      obtain ⟨rfl, rfl⟩ := h
      have hall : (all1 : BitVec 64) ≠ 0 := by decide
      have ones : ∀ e : Enc, GoodEnc e → isAll1 e.v e.len → ∀ i, i < e.len → bitAt e i = true := by
        intro e he h i hi
        rw [isAll1] at h
        by_cases hl : e.len ≥ 64
        · rw [if_pos hl] at h
          have hv := of_decide_eq_true h
          rw [bitAt]
          by_cases hi : i < 64
          · rw [if_pos hi, hv, all1, BitVec.getLsbD_allOnes]; exact decide_eq_true hi
          · rw [if_neg hi, hv]; exact decide_eq_true hall
        · rw [if_neg hl] at h
          have e2 := congrArg (fun y => y.getLsbD i) (of_decide_eq_true h)
          simp only [BitVec.getLsbD_and, getMask_bits (by omega : e.len < 64), decide_eq_true hi, Bool.and_true, all1,
            BitVec.getLsbD_allOnes] at e2
          rw [bitAt, if_pos (by omega), e2]; exact decide_eq_true (by omega)
      have onesW : ∀ i, i < a.len + b.len →
          bitAt (Enc.make (if a.len + b.len ≥ 64 then all1 else getMask (a.len + b.len)) (a.len + b.len)) i = true := by
        intro i hi
        simp only [bitAt, Enc.make]
        by_cases hl : a.len + b.len ≥ 64
        · rw [if_pos hl]
          by_cases hi : i < 64
          · rw [if_pos hi, all1, BitVec.getLsbD_allOnes]; exact decide_eq_true hi
          · rw [if_neg hi]; exact decide_eq_true hall
        · rw [if_neg hl, if_pos (by omega), getMask_bits (by omega)]; exact decide_eq_true hi
      refine ⟨⟨rfl, by show 0 < a.len + b.len; omega, ?_, ?_⟩, ?_⟩
      · intro hlt
        have hlt : a.len + b.len < 64 := hlt
        show (if a.len + b.len ≥ 64 then all1 else getMask (a.len + b.len)).toNat < 2 ^ (a.len + b.len)
        rw [if_neg (by omega), getMask, mask_toNat _ hlt]
        have := Nat.two_pow_pos (a.len + b.len)
        omega
      · intro hlt
        have hlt : 64 < a.len + b.len := hlt
        right
        show (if a.len + b.len ≥ 64 then all1 else getMask (a.len + b.len)) = all1
        rw [if_pos (by omega)]
      · apply key _ rfl rfl
        · intro i hi; rw [onesW i (by omega), ones a ha h1.1 i hi]
        · intro i hi; rw [onesW (a.len + i) (by omega), ones b hb h1.2 i hi]
    · rw [if_neg h1] at h
      by_cases h2 : a.len + b.len ≤ 64
      · rw [if_pos h2] at h
        obtain ⟨rfl, rfl⟩ := Prod.mk.inj (Option.some.inj h)
        have hlow : ∀ e : Enc, GoodEnc e → e.len < 64 → ∀ i, e.len ≤ i → e.v.getLsbD i = false := by
          intro e he hl i hi
          rw [← BitVec.testBit_toNat]
          apply Nat.testBit_lt_two_pow
          exact Nat.lt_of_lt_of_le (he.short hl) (Nat.pow_le_pow_right (by decide) hi)
        have bit : ∀ i, i < 64 → ((b.v <<< a.len) ||| a.v).getLsbD i =
            if i < a.len then a.v.getLsbD i else b.v.getLsbD (i - a.len) := by
          intro i hi
          rw [BitVec.getLsbD_or, BitVec.getLsbD_shiftLeft]
          by_cases hia : i < a.len
          · simp [hia]
          · rw [if_neg hia, hlow a ha (by omega) i (by omega)]
            simp [hi, hia]
        refine ⟨⟨rfl, by show 0 < a.len + b.len; omega, ?_, ?_⟩, ?_⟩
        · intro hlt
          have hlt : a.len + b.len < 64 := hlt
          show ((b.v <<< a.len) ||| a.v).toNat < 2 ^ (a.len + b.len)
          apply Nat.lt_pow_two_of_testBit
          intro j hj
          rw [BitVec.testBit_toNat]
          by_cases hj64 : j < 64
          · rw [bit _ hj64, if_neg (by omega)]
            exact hlow b hb (by omega) _ (by omega)
          · exact BitVec.getLsbD_of_ge _ _ (by omega)
        · intro hlt
          have hlt : 64 < a.len + b.len := hlt
          omega
        · apply key _ rfl rfl
          · intro i hi
            simp only [bitAt, Enc.make]
            rw [if_pos (by omega), if_pos (by omega), bit _ (by omega), if_pos hi]
          · intro i hi
            simp only [bitAt, Enc.make]
            rw [if_pos (by omega), if_pos (by omega), bit _ (by omega), if_neg (by omega), Nat.add_sub_cancel_left]
      · rw [if_neg h2] at h; exact absurd h (by simp)

/-- The sampling loop does not end if the covered length is just below 2^32. -/
theorem sampleLoop_hang (b : Blk) (next : Nat) (hn : 2 ^ 32 - 1024 < next) :
    ∀ (fuel sp : Nat) (blk : List Blk), sp % 1024 = 0 → sp < 2 ^ 32 → sampleLoop b next fuel sp blk = .ub := by
  intro fuel
  induction fuel with
  | zero => intro sp blk _ _; rfl
  | succ fuel ih =>
    intro sp blk h1 h2
    rw [sampleLoop, if_pos (by omega)]
    exact ih _ _ (by omega) (Nat.mod_lt _ (by decide))

end Verif.CSuc
