import Verif.Model.Base64
import Verif.Spec.Base64
import Verif.Proof.Common

set_option linter.unusedSimpArgs false

namespace Verif.Base64
open Verif.Spec.Base64

/-! ## Tables -/

theorem tbl_char64 : ∀ i, i < 64 → tbl[i]? = some (char64 i) := by
  have : (List.range 64).all (fun i => tbl[i]? == some (char64 i)) = true := by decide +kernel
  intro i hi
  have := List.all_eq_true.mp this i (List.mem_range.mpr hi)
  simpa using this

theorem at_tbl {i : Nat} (h : i < 64) : at? tbl i = .ok (char64 i) := by
  simp [at?, tbl_char64 i h]

/-- What the decoder table says about each byte. -/
def decVal (b : UInt8) : Nat := (decTbl[b.toNat]?).getD 255

theorem decTbl_length : decTbl.length = 256 := by decide +kernel

theorem at_decTbl (b : UInt8) : at? decTbl b.toNat = .ok (decVal b) := by
  have h : b.toNat < decTbl.length := by rw [decTbl_length]; exact b.toNat_lt
  simp [at?, decVal, h]

theorem decVal_char64 {i : Nat} (h : i < 64) : decVal (char64 i) = i := by
  have : (List.range 64).all (fun i => decVal (char64 i) == i) = true := by decide +kernel
  simpa using List.all_eq_true.mp this i (List.mem_range.mpr h)

theorem decVal_skip (b : UInt8) : decVal b = 255 ↔ isAlphabet b = false := by
  have h := forall_byte (p := fun b => decide (decVal b = 255) == !isAlphabet b) (by decide +kernel) b
  simp at h
  by_cases h1 : decVal b = 255 <;> cases h2 : isAlphabet b <;> simp_all

theorem isAlphabet_char64 {i : Nat} (h : i < 64) : isAlphabet (char64 i) = true := by
  have : (List.range 64).all (fun i => isAlphabet (char64 i)) = true := by decide +kernel
  simpa using List.all_eq_true.mp this i (List.mem_range.mpr h)

theorem decVal_lt (b : UInt8) (h : isAlphabet b = true) : decVal b < 64 := by
  have h' := forall_byte (p := fun b => !isAlphabet b || decide (decVal b < 64)) (by decide +kernel) b
  simp [h] at h'
  exact h'

/-! ## Encoder without the buffer -/

/-- Column bookkeeping after a byte: newline if the line is full. -/
def colOut (L : Nat) (mode : Int) (pos : Nat) : List UInt8 :=
  if L ≠ 0 ∧ pos = L then newline mode else []
def colPos (L : Nat) (pos : Nat) : Nat := if L ≠ 0 ∧ pos = L then 0 else pos

structure PSt where
  remain : Nat
  idx : Nat
  pos : Nat

/-- The encoder step with an unlimited output buffer. -/
def pstep (L : Nat) (st : PSt) (b : UInt8) : PSt :=
  let c := b.toNat
  if st.idx = 0 then ⟨(c &&& 3) <<< 4, 1, colPos L (st.pos + 1)⟩
  else if st.idx = 1 then ⟨(c &&& 0xf) <<< 2, 2, colPos L (st.pos + 1)⟩
  else ⟨st.remain, 0, colPos L (st.pos + 2)⟩

def pout (L : Nat) (mode : Int) (st : PSt) (b : UInt8) : List UInt8 :=
  let c := b.toNat
  if st.idx = 0 then char64 (c >>> 2) :: colOut L mode (st.pos + 1)
  else if st.idx = 1 then char64 (st.remain ||| (c >>> 4)) :: colOut L mode (st.pos + 1)
  else char64 (st.remain ||| (c >>> 6)) :: char64 (c &&& 0x3f) :: colOut L mode (st.pos + 2)

def Enc.toP (s : Enc) : PSt := ⟨s.remain, s.idx, s.pos⟩

theorem put_ok {s : Enc} {c : UInt8} (h : s.outBuf.length < outBufCap) :
    put s c = .ok { s with outBuf := s.outBuf ++ [c] } := by simp [put, h]

theorem putTbl_ok {s : Enc} {i : Nat} (hi : i < 64) (h : s.outBuf.length < outBufCap) :
    putTbl s i = .ok { s with outBuf := s.outBuf ++ [char64 i] } := by
  simp [putTbl, at_tbl hi, put_ok h]

theorem addEndLine_ok {s : Enc} {mode : Int} (h : s.outBuf.length + 2 ≤ outBufCap) :
    addEndLine mode s = .ok { s with outBuf := s.outBuf ++ newline mode } := by
  simp only [addEndLine, newline]
  split
  · simp
  · split
    · rw [put_ok (by omega)]
      simp only [Res.ok_bind]
      rw [put_ok (by simp; omega)]
      simp
    · simp only [Res.ok_bind]
      rw [put_ok (by omega)]

theorem newline_length (mode : Int) : (newline mode).length ≤ 2 := by
  simp only [newline]; split <;> (try split) <;> simp

theorem or_lt_64 {a b : Nat} (ha : a < 64) (hb : b < 64) : a ||| b < 64 :=
  Nat.or_lt_two_pow (n := 6) ha hb

theorem byte_shift {b : UInt8} {k : Nat} (hk : 2 ≤ k) : b.toNat >>> k < 64 := by
  have := b.toNat_lt
  rw [Nat.shiftRight_eq_div_pow]
  have h4 : 2 ^ 2 ≤ 2 ^ k := Nat.pow_le_pow_right (by omega) hk
  apply Nat.div_lt_of_lt_mul
  have : 4 * 64 ≤ 2 ^ k * 64 := Nat.mul_le_mul_right _ h4
  omega

theorem and_shl_lt {c : Nat} {m k : Nat} (h : m <<< k < 64) : (c &&& m) <<< k < 64 := by
  have : c &&& m ≤ m := Nat.and_le_right
  rw [Nat.shiftLeft_eq] at *
  have := Nat.mul_le_mul_right (2 ^ k) this
  omega

theorem pstep_remain {L : Nat} {st : PSt} {b : UInt8} (h : st.remain < 64) :
    (pstep L st b).remain < 64 := by
  simp only [pstep]
  split
  · exact and_shl_lt (by decide)
  · split
    · exact and_shl_lt (by decide)
    · exact h

theorem encByte_ok {L : Nat} {mode : Int} {s : Enc} {b : UInt8} (hr : s.remain < 64)
    (hb : s.outBuf.length + 4 ≤ outBufCap) :
    encByte L mode s b = .ok
      { remain := (pstep L s.toP b).remain, idx := (pstep L s.toP b).idx,
        pos := (pstep L s.toP b).pos, outBuf := s.outBuf ++ pout L mode s.toP b, os := s.os } := by
  have h6 : b.toNat &&& 0x3f < 64 := by
    have : b.toNat &&& 0x3f ≤ 0x3f := Nat.and_le_right
    omega
  simp only [encByte, pstep, pout, Enc.toP]
  by_cases h0 : s.idx = 0
  · simp only [h0, if_true]
    rw [putTbl_ok (byte_shift (by omega)) (by simp; omega)]
    simp only [Res.ok_bind, Res.pure_eq, colPos, colOut]
    split
    · rw [addEndLine_ok (by simp; omega)]; simp
    · simp
  · simp only [h0, if_false]
    by_cases h1 : s.idx = 1
    · simp only [h1, if_true]
      rw [putTbl_ok (or_lt_64 hr (byte_shift (by omega))) (by simp; omega)]
      simp only [Res.ok_bind, Res.pure_eq, colPos, colOut]
      split
      · rw [addEndLine_ok (by simp; omega)]; simp
      · simp
    · simp only [h1, if_false]
      rw [putTbl_ok (or_lt_64 hr (byte_shift (by omega))) (by omega)]
      simp only [Res.ok_bind]
      rw [putTbl_ok h6 (by simp; omega)]
      simp only [Res.ok_bind, Res.pure_eq, colPos, colOut]
      split
      · rw [addEndLine_ok (by simp; omega)]; simp
      · simp

theorem pout_length {L : Nat} {mode : Int} {st : PSt} {b : UInt8} :
    (pout L mode st b).length ≤ 4 := by
  have := newline_length mode
  simp only [pout, colOut]
  repeat' split
  all_goals simp
  all_goals omega

def prun (L : Nat) : PSt → List UInt8 → PSt
  | st, [] => st
  | st, b :: bs => prun L (pstep L st b) bs

def pruno (L : Nat) (mode : Int) : PSt → List UInt8 → List UInt8
  | _, [] => []
  | st, b :: bs => pout L mode st b ++ pruno L mode (pstep L st b) bs

theorem prun_append {L : Nat} {st : PSt} {a b : List UInt8} :
    prun L st (a ++ b) = prun L (prun L st a) b := by
  induction a generalizing st with
  | nil => rfl
  | cons x a ih => simp [prun, ih]

theorem pruno_append {L : Nat} {mode : Int} {st : PSt} {a b : List UInt8} :
    pruno L mode st (a ++ b) = pruno L mode st a ++ pruno L mode (prun L st a) b := by
  induction a generalizing st with
  | nil => rfl
  | cons x a ih => simp [pruno, prun, ih]

theorem prun_remain {L : Nat} {st : PSt} {bs : List UInt8} (h : st.remain < 64) :
    (prun L st bs).remain < 64 := by
  induction bs generalizing st with
  | nil => exact h
  | cons b bs ih => exact ih (pstep_remain h)

theorem encBuf_ok {L : Nat} {mode : Int} {bs : List UInt8} {s : Enc} (hr : s.remain < 64)
    (hb : s.outBuf.length + 4 * bs.length ≤ outBufCap) :
    encBuf L mode s bs = .ok
      { remain := (prun L s.toP bs).remain, idx := (prun L s.toP bs).idx,
        pos := (prun L s.toP bs).pos, outBuf := s.outBuf ++ pruno L mode s.toP bs, os := s.os } := by
  induction bs generalizing s with
  | nil => simp [encBuf, prun, pruno, Enc.toP]
  | cons b bs ih =>
    simp only [List.length_cons] at hb
    simp only [encBuf]
    rw [encByte_ok hr (by omega)]
    simp only [Res.ok_bind]
    rw [ih (pstep_remain hr)]
    · simp [prun, pruno, Enc.toP]
    · have := @pout_length L mode s.toP b
      simp; omega

theorem encLoop_ok {L : Nat} {mode : Int} {cs : List (List UInt8)} {s : Enc} (hr : s.remain < 64)
    (ho : s.outBuf = []) (hc : ∀ c ∈ cs, c ≠ [] ∧ c.length ≤ 1024) :
    encLoop L mode s cs = .ok
      { remain := (prun L s.toP cs.flatten).remain, idx := (prun L s.toP cs.flatten).idx,
        pos := (prun L s.toP cs.flatten).pos, outBuf := [],
        os := s.os ++ pruno L mode s.toP cs.flatten } := by
  induction cs generalizing s with
  | nil => cases s; simp_all [encLoop, prun, pruno, Enc.toP]
  | cons c cs ih =>
    have h1 := hc c (by simp)
    simp only [encLoop, h1.1, if_false]
    rw [encBuf_ok hr (by simp [ho, outBufCap]; omega)]
    simp only [Res.ok_bind]
    rw [ih (prun_remain hr) rfl (fun c hc' => hc c (by simp [hc']))]
    simp [prun_append, pruno_append, Enc.toP, ho]

/-- Text emitted by `encFinish` with an unlimited buffer. -/
def pfin (L : Nat) (mode : Int) (st : PSt) : List UInt8 :=
  let t := if st.idx = 0 then [] else if st.idx = 1 then [char64 st.remain, 61, 61]
    else [char64 st.remain, 61]
  let p := st.pos + t.length
  t ++ (if L ≠ 0 ∧ p > 0 then newline mode else [])

theorem encFinish_ok {L : Nat} {mode : Int} {s : Enc} (hr : s.remain < 64) (ho : s.outBuf = []) :
    encFinish L mode s = .ok (s.os ++ pfin L mode s.toP) := by
  simp only [encFinish, pfin, Enc.toP]
  by_cases h0 : s.idx = 0
  · simp only [h0, if_true]
    simp only [ho, Nat.lt_irrefl, if_false, Res.pure_eq, Res.ok_bind, gt_iff_lt, List.length_nil,
      Nat.add_zero]
    split
    · rw [addEndLine_ok (by simp [ho, outBufCap])]; simp [ho]
    · simp [ho]
  · have : s.idx > 0 := by omega
    simp only [h0, if_false, this, if_true]
    rw [putTbl_ok hr (by simp [ho, outBufCap])]
    simp only [Res.ok_bind]
    rw [put_ok (by simp [ho, outBufCap])]
    simp only [Res.ok_bind]
    by_cases h1 : s.idx = 1
    · simp only [h1, if_true]
      rw [put_ok (by simp [ho, outBufCap])]
      simp only [Res.ok_bind, Res.pure_eq]
      split
      · rw [addEndLine_ok (by simp [ho, outBufCap])]; simp_all
      · simp_all
    · simp only [h1, if_false, Res.ok_bind, Res.pure_eq]
      split
      · rw [addEndLine_ok (by simp [ho, outBufCap])]; simp_all
      · simp_all

theorem encode_ok {L : Nat} {mode : Int} {cs : List (List UInt8)} (hL : L ≤ 128) (h4 : L % 4 = 0)
    (hc : ∀ c ∈ cs, c ≠ [] ∧ c.length ≤ 1024) :
    encode L mode cs = .ok (pruno L mode ⟨0, 0, 0⟩ cs.flatten ++
      pfin L mode (prun L ⟨0, 0, 0⟩ cs.flatten)) := by
  have : ¬ (L > 128 ∨ L % 4 ≠ 0) := by omega
  simp only [encode, this, if_false]
  rw [encLoop_ok (by simp) rfl hc]
  simp only [Res.ok_bind]
  rw [encFinish_ok (prun_remain (by simp [Enc.toP])) rfl]
  simp [Enc.toP]

/-! ## From the step machine to the RFC text -/

/-- Characters laid out with a running column. -/
def brk (L : Nat) (mode : Int) : Nat → List UInt8 → List UInt8
  | p, [] => if L ≠ 0 ∧ p > 0 then newline mode else []
  | p, c :: cs => c :: (colOut L mode (p + 1) ++ brk L mode (colPos L (p + 1)) cs)

theorem shl_or {a b k : Nat} (h : b < 2 ^ k) : a <<< k ||| b = a * 2 ^ k + b := by
  rw [← Nat.shiftLeft_add_eq_or_of_lt h, Nat.shiftLeft_eq]

theorem and_mask (c k : Nat) : c &&& (2 ^ k - 1) = c % 2 ^ k := Nat.and_two_pow_sub_one_eq_mod c k

theorem group1 (a : UInt8) : a.toNat >>> 2 = a.toNat * 16 / 64 ∧
    (a.toNat &&& 3) <<< 4 = a.toNat * 16 % 64 := by
  have := a.toNat_lt
  have h := and_mask a.toNat 2
  simp only [Nat.reducePow, Nat.reduceSub] at h
  rw [Nat.shiftRight_eq_div_pow, h, Nat.shiftLeft_eq]
  omega

theorem group2 (a b : UInt8) : let v := (a.toNat * 256 + b.toNat) * 4
    a.toNat >>> 2 = v / 4096 ∧
    (a.toNat &&& 3) <<< 4 ||| b.toNat >>> 4 = v / 64 % 64 ∧
    (b.toNat &&& 0xf) <<< 2 = v % 64 := by
  have := a.toNat_lt
  have := b.toNat_lt
  have h := and_mask a.toNat 2
  have h' := and_mask b.toNat 4
  simp only [Nat.reducePow, Nat.reduceSub] at h h'
  have hb : b.toNat >>> 4 < 2 ^ 4 := by
    rw [Nat.shiftRight_eq_div_pow]; omega
  rw [shl_or hb]
  simp only [Nat.shiftRight_eq_div_pow, h, h', Nat.shiftLeft_eq, Nat.reducePow]
  omega

theorem group3 (a b c : UInt8) : let v := a.toNat * 65536 + b.toNat * 256 + c.toNat
    a.toNat >>> 2 = v / 262144 ∧
    (a.toNat &&& 3) <<< 4 ||| b.toNat >>> 4 = v / 4096 % 64 ∧
    (b.toNat &&& 0xf) <<< 2 ||| c.toNat >>> 6 = v / 64 % 64 ∧
    c.toNat &&& 0x3f = v % 64 := by
  have := a.toNat_lt
  have := b.toNat_lt
  have := c.toNat_lt
  have h := and_mask a.toNat 2
  have h' := and_mask b.toNat 4
  have h'' := and_mask c.toNat 6
  simp only [Nat.reducePow, Nat.reduceSub] at h h' h''
  have hb : b.toNat >>> 4 < 2 ^ 4 := by
    rw [Nat.shiftRight_eq_div_pow]; omega
  have hc : c.toNat >>> 6 < 2 ^ 2 := by
    rw [Nat.shiftRight_eq_div_pow]; omega
  rw [shl_or hb, shl_or hc]
  simp only [Nat.shiftRight_eq_div_pow, h, h', h'', Nat.shiftLeft_eq, Nat.reducePow]
  omega

theorem colPos_ne {L p : Nat} (h : L = 0 ∨ p ≠ L) : colPos L p = p := by
  simp only [colPos]; split <;> omega
theorem colOut_ne {L p : Nat} {mode : Int} (h : L = 0 ∨ p ≠ L) : colOut L mode p = [] := by
  simp only [colOut]; split
  · omega
  · rfl

theorem machine_rfc {L : Nat} {mode : Int} (h4 : L % 4 = 0) (x : List UInt8) (r p : Nat)
    (hp : L = 0 ∨ (p % 4 = 0 ∧ p < L)) :
    pruno L mode ⟨r, 0, p⟩ x ++ pfin L mode (prun L ⟨r, 0, p⟩ x) = brk L mode p (rfc4648 x) := by
  fun_induction rfc4648 x generalizing r p with
  | case1 => simp [pruno, prun, pfin, brk]
  | case2 a v =>
    obtain ⟨e1, e2⟩ := group1 a
    have n1 : L = 0 ∨ p + 1 ≠ L := by omega
    have n2 : L = 0 ∨ p + 1 + 1 ≠ L := by omega
    have n3 : L = 0 ∨ p + 1 + 1 + 1 ≠ L := by omega
    simp only [pruno, prun, pstep, pout, pfin, brk, if_true, if_false, Nat.one_ne_zero,
      colPos_ne n1, colOut_ne n1, colPos_ne n2, colOut_ne n2, colPos_ne n3, colOut_ne n3, e1, e2]
    simp only [colPos, colOut, List.length_cons, List.length_nil, List.append_nil, List.nil_append,
      List.cons_append]
    by_cases hL : L = 0
    · simp [hL, v]
    · by_cases hf : p + 1 + 1 + 1 + 1 = L <;> simp [hL, hf, v, brk]
  | case3 a b v =>
    obtain ⟨e1, e2, e3⟩ := group2 a b
    have n1 : L = 0 ∨ p + 1 ≠ L := by omega
    have n2 : L = 0 ∨ p + 1 + 1 ≠ L := by omega
    have n3 : L = 0 ∨ p + 1 + 1 + 1 ≠ L := by omega
    simp only [pruno, prun, pstep, pout, pfin, brk, if_true, if_false, Nat.one_ne_zero,
      colPos_ne n1, colOut_ne n1, colPos_ne n2, colOut_ne n2, colPos_ne n3, colOut_ne n3, e1, e2, e3]
    simp only [colPos, colOut, List.length_cons, List.length_nil, List.append_nil, List.nil_append,
      List.cons_append]
    by_cases hL : L = 0
    · simp [hL, v]
    · by_cases hf : p + 1 + 1 + 1 + 1 = L <;> simp [hL, hf, v, brk]
  | case4 a b c rest v ih =>
    obtain ⟨e1, e2, e3, e4⟩ := group3 a b c
    have n1 : L = 0 ∨ p + 1 ≠ L := by omega
    have n2 : L = 0 ∨ p + 1 + 1 ≠ L := by omega
    have n3 : L = 0 ∨ p + 1 + 1 + 1 ≠ L := by omega
    simp only [pruno, prun, pstep, pout, brk, if_true, if_false, Nat.one_ne_zero,
      colPos_ne n1, colOut_ne n1, colPos_ne n2, colOut_ne n2, colPos_ne n3, colOut_ne n3,
      e1, e2, e3, e4]
    have hp' : L = 0 ∨ (colPos L (p + 4) % 4 = 0 ∧ colPos L (p + 4) < L) := by
      simp only [colPos]; split <;> omega
    have := ih ((b.toNat &&& 15) <<< 2) (colPos L (p + 4)) hp'
    simp [v, ← this]

theorem pieces_cons {n : Nat} (hn : n ≠ 0) {s : List UInt8} (hs : s ≠ []) :
    pieces n s = s.take n :: pieces n (s.drop n) := by
  conv => lhs; unfold pieces
  simp [hn, hs]

theorem pieces_nil {n : Nat} : pieces n [] = [] := by
  unfold pieces; simp

/-- `brk` starting in column `p`: the rest of the first line, then whole lines. -/
theorem brk_layout_aux {L : Nat} {mode : Int} (hL : L ≠ 0) (s : List UInt8) (p : Nat) (hp : p < L) :
    brk L mode p s =
      (if p = 0 ∧ s = [] then [] else s.take (L - p) ++ newline mode ++
        (pieces L (s.drop (L - p))).flatMap (fun l => l ++ newline mode)) := by
  induction s generalizing p with
  | nil =>
    simp only [brk, pieces_nil, List.take_nil, List.drop_nil]
    by_cases h : p = 0 <;> simp [h, hL]
  | cons c s ih =>
    simp only [brk, colOut, colPos]
    by_cases hf : p + 1 = L
    · simp only [hf, hL, ne_eq, not_false_iff, and_self, if_true]
      rw [ih 0 (by omega)]
      have e : L - p = 1 := by omega
      simp only [e, List.take_succ_cons, List.take_zero, List.drop_succ_cons, List.drop_zero,
        Nat.sub_zero, true_and]
      by_cases hs : s = []
      · simp [hs, pieces_nil]
      · simp [hs, pieces_cons hL hs]
    · have hne : ¬ (L ≠ 0 ∧ p + 1 = L) := fun h => hf h.2
      simp only [hne, if_false]
      rw [ih (p + 1) (by omega)]
      have e : L - p = (L - (p + 1)) + 1 := by omega
      simp [e]

theorem brk_layout {L : Nat} {mode : Int} (s : List UInt8) : brk L mode 0 s = layout L mode s := by
  by_cases hL : L = 0
  · subst hL
    simp only [layout, if_true]
    suffices h : ∀ p, brk 0 mode p s = s from h 0
    induction s with
    | nil => simp [brk]
    | cons c s ih => simp [brk, colOut, colPos, ih]
  · rw [brk_layout_aux hL s 0 (by omega)]
    simp only [layout, hL, if_false]
    by_cases hs : s = []
    · simp [hs, pieces_nil]
    · simp [hs, pieces_cons hL hs]

/-! ## Decoder without the buffer -/

def dstep (st : Nat × Nat) (b : UInt8) : Nat × Nat :=
  let t := decVal b
  if isAlphabet b = false then st
  else if st.1 = 0 then (1, t <<< 2)
  else if st.1 = 1 then (2, (t &&& 0xf) <<< 4)
  else if st.1 = 2 then (3, (t &&& 3) <<< 6)
  else (0, st.2)

def dout (st : Nat × Nat) (b : UInt8) : List UInt8 :=
  let t := decVal b
  if isAlphabet b = false then []
  else if st.1 = 0 then []
  else if st.1 = 1 then [UInt8.ofNat (st.2 ||| (t >>> 4))]
  else if st.1 = 2 then [UInt8.ofNat (st.2 ||| (t >>> 2))]
  else [UInt8.ofNat (st.2 ||| t)]

def drun : Nat × Nat → List UInt8 → Nat × Nat
  | st, [] => st
  | st, b :: bs => drun (dstep st b) bs

def druno : Nat × Nat → List UInt8 → List UInt8
  | _, [] => []
  | st, b :: bs => dout st b ++ druno (dstep st b) bs

theorem drun_append {st : Nat × Nat} {a b : List UInt8} :
    drun st (a ++ b) = drun (drun st a) b := by
  induction a generalizing st with
  | nil => rfl
  | cons x a ih => simp [drun, ih]

theorem druno_append {st : Nat × Nat} {a b : List UInt8} :
    druno st (a ++ b) = druno st a ++ druno (drun st a) b := by
  induction a generalizing st with
  | nil => rfl
  | cons x a ih => simp [druno, drun, ih]

def Dec.all (s : Dec) : List UInt8 := s.os ++ s.outBuf

theorem Dec.put_ok {s : Dec} {v : Nat} (h : s.outBuf.length < decBufCap) :
    s.put v = .ok { s with outBuf := s.outBuf ++ [UInt8.ofNat v] } := by simp [Dec.put, h]

theorem decByte_ok {s : Dec} {b : UInt8} (h : s.outBuf.length < decBufCap) :
    ∃ s', decByte s b = .ok s' ∧ s'.outBuf.length < decBufCap ∧
      (s'.idx, s'.cur) = dstep (s.idx, s.cur) b ∧ s'.all = s.all ++ dout (s.idx, s.cur) b := by
  simp only [decByte, at_decTbl, Res.ok_bind, decVal_skip]
  by_cases ha : isAlphabet b = false
  · exact ⟨s, by simp [ha], h, by simp [dstep, ha], by simp [dout, ha]⟩
  · have ha' : isAlphabet b = true := by simpa using ha
    simp only [ha', Bool.true_eq_false, if_false]
    have hcap : decBufCap = 1024 := rfl
    by_cases h0 : s.idx = 0
    · refine ⟨{ s with cur := decVal b <<< 2, idx := 1 }, ?_, h, ?_, ?_⟩
      · simp [h0]; omega
      · simp [dstep, ha, h0]
      · simp [dout, ha, h0, Dec.all]
    · by_cases h1 : s.idx = 1
      · simp only [h1, Nat.one_ne_zero, if_false, if_true, Dec.put_ok h, Res.ok_bind, Res.pure_eq]
        split
        · refine ⟨_, rfl, ?_, ?_, ?_⟩ <;> simp [dstep, dout, ha, h1, Dec.all, decBufCap]
        · refine ⟨_, rfl, ?_, ?_, ?_⟩
          · simp at *; omega
          · simp [dstep, ha, h1]
          · simp [dout, ha, h1, Dec.all]
      · by_cases h2 : s.idx = 2
        · simp only [h2, Nat.succ_ne_zero, Nat.reduceEqDiff, if_false, if_true, Dec.put_ok h,
            Res.ok_bind, Res.pure_eq]
          split
          · refine ⟨_, rfl, ?_, ?_, ?_⟩ <;> simp [dstep, dout, ha, h2, Dec.all, decBufCap]
          · refine ⟨_, rfl, ?_, ?_, ?_⟩
            · simp at *; omega
            · simp [dstep, ha, h2]
            · simp [dout, ha, h2, Dec.all]
        · simp only [h0, h1, h2, if_false, Dec.put_ok h, Res.ok_bind, Res.pure_eq]
          split
          · refine ⟨_, rfl, ?_, ?_, ?_⟩ <;> simp [dstep, dout, ha, h0, h1, h2, Dec.all, decBufCap]
          · refine ⟨_, rfl, ?_, ?_, ?_⟩
            · simp at *; omega
            · simp [dstep, ha, h0, h1, h2]
            · simp [dout, ha, h0, h1, h2, Dec.all]

theorem Dec.write_ok {bs : List UInt8} {s : Dec} (h : s.outBuf.length < decBufCap) :
    ∃ s', s.write bs = .ok s' ∧ s'.outBuf.length < decBufCap ∧
      (s'.idx, s'.cur) = drun (s.idx, s.cur) bs ∧ s'.all = s.all ++ druno (s.idx, s.cur) bs := by
  induction bs generalizing s with
  | nil => exact ⟨s, rfl, h, rfl, by simp [druno]⟩
  | cons b bs ih =>
    obtain ⟨s1, e1, l1, i1, o1⟩ := decByte_ok (b := b) h
    obtain ⟨s2, e2, l2, i2, o2⟩ := ih l1
    refine ⟨s2, by simp [Dec.write, e1, e2], l2, ?_, ?_⟩
    · simp [drun, i2, i1]
    · simp [druno, o2, o1, i1]

theorem Dec.flush_os (s : Dec) : s.flush.os = s.all := by
  simp only [Dec.flush, Dec.all]
  split
  · rfl
  · have : s.outBuf = [] := by
      have h : ¬ s.outBuf.length > 0 := by assumption
      exact List.eq_nil_of_length_eq_zero (by omega)
    simp [this]

theorem decLoop_ok {cs : List (List UInt8)} {s : Dec} (h : s.outBuf.length < decBufCap)
    (hc : ∀ c ∈ cs, c ≠ []) :
    ∃ s', decLoop s cs = .ok s' ∧ s'.outBuf.length < decBufCap ∧
      s'.all = s.all ++ druno (s.idx, s.cur) cs.flatten := by
  induction cs generalizing s with
  | nil => exact ⟨s, rfl, h, by simp [druno]⟩
  | cons c cs ih =>
    obtain ⟨s1, e1, l1, i1, o1⟩ := Dec.write_ok (bs := c) h
    obtain ⟨s2, e2, l2, o2⟩ := ih l1 (fun c hc' => hc c (by simp [hc']))
    refine ⟨s2, ?_, l2, ?_⟩
    · simp [decLoop, hc c (by simp), e1, e2]
    · simp [o2, o1, druno_append, i1]

theorem decode_ok {cs : List (List UInt8)} (hc : ∀ c ∈ cs, c ≠ []) :
    decode cs = .ok (druno (0, 0) cs.flatten) := by
  obtain ⟨s, e, _, o⟩ := decLoop_ok (s := Dec.init) (by simp [Dec.init, decBufCap]) hc
  simp only [decode, e, Dec.flush_os, o, Res.ok_bind]
  simp [Dec.init, Dec.all]

theorem druno_filter (s : List UInt8) (st : Nat × Nat) :
    druno st s = druno st (s.filter isAlphabet) := by
  induction s generalizing st with
  | nil => rfl
  | cons b s ih =>
    cases hb : isAlphabet b
    · simp [druno, hb, dout, dstep, ih]
    · simp [druno, hb, ih]

theorem newline_filter (mode : Int) : (newline mode).filter isAlphabet = [] := by
  simp only [newline]; split
  · rfl
  · split <;> decide

theorem brk_filter {L : Nat} {mode : Int} (s : List UInt8) (p : Nat) :
    (brk L mode p s).filter isAlphabet = s.filter isAlphabet := by
  induction s generalizing p with
  | nil =>
    simp only [brk]; split
    · simp [newline_filter]
    · rfl
  | cons c s ih =>
    have : (colOut L mode (p + 1)).filter isAlphabet = [] := by
      simp only [colOut]; split
      · exact newline_filter mode
      · rfl
    simp [brk, List.filter_cons, this, ih]

/-- Decoding the RFC text of `x`, starting at a group boundary, gives `x`. -/
theorem dec_rfc (x : List UInt8) (cur : Nat) : druno (0, cur) (rfc4648 x) = x := by
  have mk : ∀ a : UInt8, ∀ n, n = a.toNat → UInt8.ofNat n = a := by
    intro a n h; subst h; simp
  have pad : isAlphabet 61 = false := by decide
  fun_induction rfc4648 x generalizing cur with
  | case1 => rfl
  | case2 a v =>
    have := a.toNat_lt
    have h1 : v / 64 < 64 := by omega
    have h2 : v % 64 < 64 := by omega
    simp only [druno, dout, dstep, isAlphabet_char64 h1, isAlphabet_char64 h2, decVal_char64 h1,
      decVal_char64 h2, pad]
    simp only [Bool.true_eq_false, if_true, if_false, Nat.one_ne_zero, Nat.reduceEqDiff, List.nil_append,
      List.singleton_append, List.cons.injEq, and_true, Nat.succ_ne_zero, true_and]
    apply mk
    rw [shl_or (by rw [Nat.shiftRight_eq_div_pow]; omega), Nat.shiftRight_eq_div_pow]
    omega
  | case3 a b v =>
    have := a.toNat_lt
    have := b.toNat_lt
    have h1 : v / 4096 < 64 := by omega
    have h2 : v / 64 % 64 < 64 := by omega
    have h3 : v % 64 < 64 := by omega
    have hm := and_mask (v / 64 % 64) 4
    simp only [Nat.reducePow, Nat.reduceSub] at hm
    simp only [druno, dout, dstep, isAlphabet_char64 h1, isAlphabet_char64 h2, decVal_char64 h1,
      decVal_char64 h2, isAlphabet_char64 h3, decVal_char64 h3, pad]
    simp only [Bool.true_eq_false, if_true, if_false, Nat.one_ne_zero, Nat.reduceEqDiff, List.nil_append,
      List.singleton_append, List.cons.injEq, and_true, Nat.succ_ne_zero, true_and]
    constructor
    · apply mk
      rw [shl_or (by rw [Nat.shiftRight_eq_div_pow]; omega), Nat.shiftRight_eq_div_pow]
      omega
    · apply mk
      rw [hm, shl_or (by rw [Nat.shiftRight_eq_div_pow]; omega), Nat.shiftRight_eq_div_pow]
      omega
  | case4 a b c rest v ih =>
    have := a.toNat_lt
    have := b.toNat_lt
    have := c.toNat_lt
    have h1 : v / 262144 < 64 := by omega
    have h2 : v / 4096 % 64 < 64 := by omega
    have h3 : v / 64 % 64 < 64 := by omega
    have h4 : v % 64 < 64 := by omega
    have hm := and_mask (v / 4096 % 64) 4
    have hm' := and_mask (v / 64 % 64) 2
    simp only [Nat.reducePow, Nat.reduceSub] at hm hm'
    simp only [druno, dout, dstep, isAlphabet_char64 h1, isAlphabet_char64 h2, decVal_char64 h1,
      decVal_char64 h2, isAlphabet_char64 h3, decVal_char64 h3, isAlphabet_char64 h4,
      decVal_char64 h4]
    simp only [Bool.true_eq_false, if_true, if_false, Nat.one_ne_zero, Nat.reduceEqDiff, List.nil_append,
      List.singleton_append, List.cons.injEq, and_true, Nat.succ_ne_zero, ih, true_and]
    refine ⟨?_, ?_, ?_⟩
    · apply mk
      rw [shl_or (by rw [Nat.shiftRight_eq_div_pow]; omega), Nat.shiftRight_eq_div_pow]
      omega
    · apply mk
      rw [hm, shl_or (by rw [Nat.shiftRight_eq_div_pow]; omega), Nat.shiftRight_eq_div_pow]
      omega
    · apply mk
      rw [hm', shl_or (by omega)]
      omega

end Verif.Base64
