import Verif.Model.Sha
import Verif.Spec.Sha
import Verif.Proof.Endian

set_option linter.unusedSimpArgs false

/-! The buffering of sha2.hpp/sha1.hpp, for any compression function. -/
namespace Verif.Sha
open Verif.Endian Verif.Spec.Endian Verif.Spec.Sha

theorem store_app {a j bs : List UInt8} {off : Nat} (ho : a.length = off) (h : bs.length ≤ j.length) :
    store (a ++ j) off bs = .ok (a ++ bs ++ j.drop bs.length) := by
  subst ho
  rw [store, if_pos (by simp; omega)]
  congr 2
  · simp
  · rw [List.drop_append]; simp

theorem wr_app {a j : List UInt8} {off v : Nat} (ho : a.length = off) (h : 1 ≤ j.length) :
    wr (a ++ j) off v = .ok (a ++ [UInt8.ofNat v] ++ j.drop 1) := by
  rw [wr_eq (by simp; omega)]
  have := @store_app a j [UInt8.ofNat v] off ho h
  rw [store, if_pos (by simp; omega)] at this
  exact this

theorem replicate_split (m n : Nat) (a : UInt8) :
    List.replicate (m + n) a = List.replicate m a ++ List.replicate n a := by
  rw [List.replicate_append_replicate]

@[simp] theorem assert_true {b : Bool} (h : b = true) : assert b = .ok () := by rw [assert, if_pos h]

section
variable {H S : Type} (B : Nat) (comp : H → List UInt8 → Res H) (R : S → H)
  (cs : S → List UInt8 → S)

/-- After the blocks `blks` and `tail` the object has compressed `blks` and keeps `tail`. -/
structure Inv (r0 : S) (blks : List (List UInt8)) (tail : List UInt8) (s : St H) : Prop where
  len : ∀ b ∈ blks, b.length = B
  tl : tail.length < B
  h : s.h = R (blks.foldl cs r0)
  total : s.totalSize = BitVec.ofNat 64 (B * blks.length)
  bs : s.roundBufSize = tail.length
  rl : s.roundBuf.length = B
  rb : s.roundBuf.take tail.length = tail

variable {B comp R cs}

theorem Inv.buf {r0 : S} {blks : List (List UInt8)} {tail : List UInt8} {s : St H}
    (i : Inv B R cs r0 blks tail s) :
    ∃ j, s.roundBuf = tail ++ j ∧ tail.length + j.length = B := by
  refine ⟨s.roundBuf.drop tail.length, ?_, ?_⟩
  · conv => lhs; rw [← List.take_append_drop tail.length s.roundBuf, i.rb]
  · have := i.rl; have := i.tl; simp; omega

theorem round_inv (hc : ∀ r blk, blk.length = B → ∀ rest, comp (R r) (blk ++ rest) = .ok (R (cs r blk)))
    {r0 : S} {blks : List (List UInt8)} {s : St H} (hh : s.h = R (blks.foldl cs r0))
    (ht : s.totalSize = BitVec.ofNat 64 (B * blks.length)) (buf : List UInt8) (hb : B ≤ buf.length) :
    round B comp s buf = .ok { s with
      h := R ((blks ++ [buf.take B]).foldl cs r0)
      totalSize := BitVec.ofNat 64 (B * (blks ++ [buf.take B]).length) } := by
  rw [round, hh]
  have h1 := hc (blks.foldl cs r0) (buf.take B) (by simp; omega) (buf.drop B)
  rw [List.take_append_drop] at h1
  rw [h1, ht]
  simp only [Res.ok_bind, Res.pure_eq, List.foldl_append, List.foldl_cons, List.foldl_nil,
    List.length_append, List.length_cons, List.length_nil, Nat.mul_add, BitVec.ofNat_add]
  simp

theorem updateLoop_inv (hB : 0 < B)
    (hc : ∀ r blk, blk.length = B → ∀ rest, comp (R r) (blk ++ rest) = .ok (R (cs r blk)))
    {r0 : S} : ∀ (fuel : Nat) (blks : List (List UInt8)) (s : St H) (buf : List UInt8),
      buf.length < fuel → Inv B R cs r0 blks [] s →
      ∃ blks' rest s', updateLoop B comp fuel s buf = .ok (s', rest) ∧ Inv B R cs r0 blks' [] s' ∧
        rest.length < B ∧ blks'.flatten ++ rest = blks.flatten ++ buf := by
  intro fuel
  induction fuel with
  | zero => intro _ _ _ h; omega
  | succ fuel ih =>
    intro blks s buf hf i
    rw [updateLoop]
    by_cases hl : B ≤ buf.length
    · rw [if_pos hl, assert_true (by simp [i.bs]), round_inv hc i.h i.total buf hl]
      simp only [Res.ok_bind]
      obtain ⟨b', rest, s', e, i', hr, hfl⟩ := ih (blks ++ [buf.take B]) { s with
          h := R ((blks ++ [buf.take B]).foldl cs r0)
          totalSize := BitVec.ofNat 64 (B * (blks ++ [buf.take B]).length) } (buf.drop B)
        (by simp; omega)
        { len := by
            intro b hb
            rcases List.mem_append.mp hb with hb | hb
            · exact i.len b hb
            · simp at hb; subst hb; simp; omega
          tl := i.tl, h := rfl, total := rfl, bs := i.bs, rl := i.rl, rb := i.rb }
      refine ⟨b', rest, s', e, i', hr, ?_⟩
      rw [hfl]; simp
    · rw [if_neg hl]
      exact ⟨blks, buf, s, rfl, i, by omega, rfl⟩

/-- One `update`. -/
theorem update_inv (hB : 0 < B)
    (hc : ∀ r blk, blk.length = B → ∀ rest, comp (R r) (blk ++ rest) = .ok (R (cs r blk)))
    {r0 : S} {blks : List (List UInt8)} {tail : List UInt8} {s : St H} (d : List UInt8)
    (i : Inv B R cs r0 blks tail s) :
    ∃ blks' tail' s', update B comp s d = .ok s' ∧ Inv B R cs r0 blks' tail' s' ∧
      blks'.flatten ++ tail' = blks.flatten ++ tail ++ d := by
  rw [update]
  by_cases hd : d.length = 0
  · rw [if_pos hd]
    have : d = [] := List.length_eq_zero_iff.mp hd
    subst this
    exact ⟨blks, tail, s, rfl, i, by simp⟩
  rw [if_neg hd]
  -- pending block
  have key : ∃ blks1 tail1 d1 s1 s2, fillPending B s d = .ok (s1, d1) ∧ flushPending B comp s1 = .ok s2 ∧
      Inv B R cs r0 blks1 tail1 s2 ∧ (tail1 = [] ∨ d1 = []) ∧
      blks1.flatten ++ tail1 ++ d1 = blks.flatten ++ tail ++ d := by
    by_cases h0 : 0 < s.roundBufSize
    · obtain ⟨j, hj, hjl⟩ := i.buf
      have hb := i.bs
      rw [fillPending, if_pos h0]
      by_cases hlt : tail.length + d.length < B
      · have hmin : min (B - s.roundBufSize) d.length = d.length := by omega
        simp only [hmin, List.take_length, List.drop_length]
        rw [hj, store_app hb.symm (by omega)]
        simp only [Res.ok_bind, Res.pure_eq]
        refine ⟨blks, tail ++ d, [], _, { s with roundBufSize := s.roundBufSize + d.length
                                                 roundBuf := tail ++ d ++ j.drop d.length },
          rfl, ?_, ?_, Or.inr rfl, by simp⟩
        · rw [flushPending, if_neg]
          show ¬ (s.roundBufSize + d.length = B)
          omega
        · exact { len := i.len, tl := by simpa using hlt, h := i.h, total := i.total,
                  bs := by simp [hb], rl := by simp; omega,
                  rb := by rw [List.take_left' rfl] }
      · have hmin : min (B - s.roundBufSize) d.length = B - tail.length := by omega
        simp only [hmin]
        have hdl : (d.take (B - tail.length)).length = B - tail.length := by simp; omega
        rw [hj, store_app hb.symm (by omega), hdl]
        simp only [Res.ok_bind, Res.pure_eq]
        have hj0 : j.drop (B - tail.length) = [] := List.drop_of_length_le (by omega)
        rw [hj0, List.append_nil]
        have hfull : (tail ++ d.take (B - tail.length)).length = B := by
          rw [List.length_append, hdl]; have := i.tl; omega
        refine ⟨blks ++ [tail ++ d.take (B - tail.length)], [], d.drop (B - tail.length), _, ?_, rfl, ?_, ?_,
          Or.inl rfl, by simp⟩
        · exact { totalSize := BitVec.ofNat 64 (B * (blks ++ [tail ++ d.take (B - tail.length)]).length)
                  roundBufSize := 0
                  roundBuf := tail ++ d.take (B - tail.length)
                  h := R ((blks ++ [tail ++ d.take (B - tail.length)]).foldl cs r0) }
        · rw [flushPending, if_pos (by show s.roundBufSize + (B - tail.length) = B; have := i.tl; omega)]
          have := @round_inv H S B comp R cs hc r0 blks
            { s with roundBuf := tail ++ d.take (B - tail.length)
                     roundBufSize := s.roundBufSize + (B - tail.length) } i.h i.total
            (tail ++ d.take (B - tail.length)) (by omega)
          rw [this]
          simp only [Res.ok_bind, Res.pure_eq]
          rw [List.take_of_length_le (by omega : (tail ++ d.take (B - tail.length)).length ≤ B)]
        · exact { len := by
                    intro b hb
                    rcases List.mem_append.mp hb with hb | hb
                    · exact i.len b hb
                    · simp only [List.mem_singleton] at hb; rw [hb]; exact hfull
                  tl := hB, h := rfl, total := rfl, bs := rfl, rl := hfull, rb := by simp }
    · have ht : tail = [] := List.length_eq_zero_iff.mp (by have := i.bs; omega)
      rw [fillPending, if_neg h0]
      refine ⟨blks, tail, d, s, s, rfl, ?_, i, Or.inl ht, rfl⟩
      rw [flushPending, if_neg (by omega)]
  obtain ⟨b1, t1, d1, s1, s2, e1, e2, i2, hor, hfl⟩ := key
  rw [e1]
  simp only [Res.ok_bind]
  rw [e2]
  simp only [Res.ok_bind]
  rcases hor with ht1 | hd1
  · subst ht1
    obtain ⟨b3, rest, s3, e3, i3, hr, hfl3⟩ := updateLoop_inv hB hc (d1.length + 1) b1 s2 d1 (by omega) i2
    rw [e3]
    simp only [Res.ok_bind]
    rw [keepRest]
    by_cases hr0 : 0 < rest.length
    · obtain ⟨j, hj, hjl⟩ := i3.buf
      rw [if_pos hr0, assert_true (by simpa using hr), assert_true (by simp [i3.bs])]
      have hst : store s3.roundBuf 0 rest = .ok (rest ++ s3.roundBuf.drop rest.length) := by
        have := @store_app [] s3.roundBuf rest 0 rfl (by have := i3.rl; omega)
        simpa using this
      simp only [Res.ok_bind, hst, Res.pure_eq]
      rw [assert_true (by simpa using hr)]
      refine ⟨b3, rest, _, rfl, ?_, by rw [hfl3]; simpa using hfl⟩
      exact { len := i3.len, tl := hr, h := i3.h, total := i3.total, bs := rfl,
              rl := by have := i3.rl; simp; omega, rb := by simp }
    · have : rest = [] := List.length_eq_zero_iff.mp (by omega)
      subst this
      rw [if_neg hr0]
      simp only [Res.ok_bind]
      rw [assert_true (by simp [i3.bs]; exact hB)]
      exact ⟨b3, [], s3, rfl, i3, by rw [hfl3]; simpa using hfl⟩
  · subst hd1
    have : updateLoop B comp 1 s2 [] = .ok (s2, []) := by
      rw [updateLoop, if_neg (by simp; omega)]
    simp only [List.length_nil, Nat.zero_add, this, Res.ok_bind, keepRest]
    rw [if_neg (by simp)]
    simp only [Res.ok_bind]
    rw [assert_true (by simp [i2.bs]; exact i2.tl)]
    exact ⟨b1, t1, s2, rfl, i2, by simpa using hfl⟩

theorem chunks_flatten (hB : 0 < B) : ∀ (blks : List (List UInt8)), (∀ b ∈ blks, b.length = B) →
    chunks B blks.length blks.flatten = blks := by
  intro blks
  induction blks with
  | nil => intro _; rfl
  | cons b bs ih =>
    intro h
    have hb : b.length = B := h b (by simp)
    simp only [List.length_cons, List.flatten_cons, chunks]
    rw [List.take_left' hb, List.drop_left' hb, ih (fun x hx => h x (by simp [hx]))]

theorem flatten_len : ∀ (blks : List (List UInt8)), (∀ b ∈ blks, b.length = B) →
    blks.flatten.length = B * blks.length := by
  intro blks
  induction blks with
  | nil => intro _; rfl
  | cons b bs ih =>
    intro h
    have hb : b.length = B := h b (by simp)
    rw [List.flatten_cons, List.length_append, hb, ih (fun x hx => h x (by simp [hx])),
      List.length_cons, Nat.mul_succ, Nat.add_comm]

theorem bytesBE_hi (L x : Nat) (hL : 8 ≤ L) (hx : x < 2 ^ 64) :
    bytesBE L x = List.replicate (L - 8) 0 ++ bytesBE 8 x := by
  apply List.ext_getElem
  · simp; omega
  · intro i h1 h2
    simp only [bytesBE_length] at h1
    by_cases hi : i < L - 8
    · rw [List.getElem_append_left (by simpa using hi)]
      simp only [bytesBE, List.getElem_map, List.getElem_range, List.getElem_replicate]
      have : x / 256 ^ (L - 1 - i) = 0 := by
        apply Nat.div_eq_of_lt
        calc x < 2 ^ 64 := hx
          _ = 256 ^ 8 := by decide
          _ ≤ 256 ^ (L - 1 - i) := Nat.pow_le_pow_right (by decide) (by omega)
      rw [this]; rfl
    · rw [List.getElem_append_right (by simpa using hi)]
      simp only [bytesBE, List.getElem_map, List.getElem_range, List.length_replicate]
      have : 8 - 1 - (i - (L - 8)) = L - 1 - i := by omega
      rw [this]

theorem set64BE_app {a j : List UInt8} {off x : Nat} (ho : a.length = off) (h : j.length = 8) :
    set64BEMem (a ++ j) off x = .ok (a ++ bytesBE 8 x) := by
  rw [set64BEMem, store_app ho (by simp; omega), memBytes_bswap]
  rw [List.drop_of_length_le (by simp; omega)]; simp

theorem set32BE_app {a j : List UInt8} {off x : Nat} (ho : a.length = off) (h : 4 ≤ j.length) :
    set32BEMem (a ++ j) off x = .ok (a ++ bytesBE 4 x ++ j.drop 4) := by
  rw [set32BEMem, store_app ho (by simp; omega), memBytes_bswap]
  simp

/-- The blocks of the padded message, from the blocks and the rest of the message. -/
theorem blocksOf_eq (hB : 0 < B) {L : Nat} (hL : L < B) {blks : List (List UInt8)} {tail : List UInt8}
    (hlen : ∀ b ∈ blks, b.length = B) (htl : tail.length < B) :
    blocksOf B L (blks.flatten ++ tail) =
      blks ++ if tail.length < B - L then
        [tail ++ [0x80] ++ List.replicate (B - L - 1 - tail.length) 0 ++
          bytesBE L (8 * (blks.flatten ++ tail).length)]
      else
        [tail ++ [0x80] ++ List.replicate (B - 1 - tail.length) 0,
          List.replicate (B - L) 0 ++ bytesBE L (8 * (blks.flatten ++ tail).length)] := by
  have hm : (blks.flatten ++ tail).length % B = tail.length := by
    rw [List.length_append, flatten_len blks hlen, Nat.mul_add_mod, Nat.mod_eq_of_lt htl]
  generalize hN : 8 * (blks.flatten ++ tail).length = N
  rw [blocksOf]
  have hp : pad B L (blks.flatten ++ tail) = blks.flatten ++ (tail ++ [0x80] ++
      List.replicate ((2 * B - 1 - L - tail.length) % B) 0 ++ bytesBE L N) := by
    rw [pad, hm, hN]; simp
  rw [hp]
  by_cases ht : tail.length < B - L
  · rw [if_pos ht]
    have hz : (2 * B - 1 - L - tail.length) % B = B - L - 1 - tail.length := by
      have : 2 * B - 1 - L - tail.length = (B - L - 1 - tail.length) + B := by omega
      rw [this, Nat.add_mod_right, Nat.mod_eq_of_lt (by omega)]
    rw [hz]
    generalize hlast : tail ++ [0x80] ++ List.replicate (B - L - 1 - tail.length) 0 ++ bytesBE L N = last
    have hll : last.length = B := by rw [← hlast]; simp; omega
    have hall : ∀ b ∈ blks ++ [last], b.length = B := by
      intro b hb
      rcases List.mem_append.mp hb with hb | hb
      · exact hlen b hb
      · simp only [List.mem_singleton] at hb; rw [hb]; exact hll
    have he : blks.flatten ++ last = (blks ++ [last]).flatten := by simp
    rw [he, flatten_len _ hall, Nat.mul_div_cancel_left _ hB, chunks_flatten hB _ hall]
  · rw [if_neg ht]
    have hz : (2 * B - 1 - L - tail.length) % B = (B - 1 - tail.length) + (B - L) := by
      rw [Nat.mod_eq_of_lt (by omega)]; omega
    rw [hz, replicate_split]
    generalize hl1 : tail ++ [0x80] ++ List.replicate (B - 1 - tail.length) 0 = l1
    generalize hl2 : List.replicate (B - L) 0 ++ bytesBE L N = l2
    have h1 : l1.length = B := by rw [← hl1]; simp; omega
    have h2 : l2.length = B := by rw [← hl2]; simp; omega
    have hall : ∀ b ∈ blks ++ [l1, l2], b.length = B := by
      intro b hb
      rcases List.mem_append.mp hb with hb | hb
      · exact hlen b hb
      · simp only [List.mem_cons, List.not_mem_nil, or_false] at hb
        rcases hb with hb | hb <;> rw [hb] <;> assumption
    have he : blks.flatten ++ (tail ++ [0x80] ++ (List.replicate (B - 1 - tail.length) 0 ++
        List.replicate (B - L) 0) ++ bytesBE L N) = (blks ++ [l1, l2]).flatten := by
      rw [← hl1, ← hl2]
      simp only [List.flatten_append, List.flatten_cons, List.flatten_nil, List.append_nil, List.append_assoc]
    rw [he, flatten_len _ hall, Nat.mul_div_cancel_left _ hB, chunks_flatten hB _ hall]

theorem total_toNat {k t N : Nat} (hN : N = B * k + t) (hlt : N < 2 ^ 61) :
    ((BitVec.ofNat 64 (B * k) + BitVec.ofNat 64 t) * 8).toNat = 8 * N := by
  rw [← BitVec.ofNat_add, ← hN]
  have h8 : (8 : BitVec 64).toNat = 8 := rfl
  simp only [BitVec.toNat_mul, BitVec.toNat_ofNat, h8]
  omega

/-- The block in which the padding of a message ends. -/
def lastBlock (B L : Nat) (m : List UInt8) : List UInt8 := (blocksOf B L m).getLast?.getD []

/-- `term` compresses the padding blocks; the last of them stays in the buffer, and the number of bytes in the buffer is not changed. -/
theorem term_inv (hB : 0 < B) {L : Nat} (hL8 : 8 ≤ L) (hL : L < B)
    (hc : ∀ r blk, blk.length = B → ∀ rest, comp (R r) (blk ++ rest) = .ok (R (cs r blk)))
    {r0 : S} {blks : List (List UInt8)} {tail : List UInt8} {s : St H}
    (i : Inv B R cs r0 blks tail s) (hlt : (blks.flatten ++ tail).length < 2 ^ 61) :
    ∃ s', term B L comp s = .ok s' ∧
      s'.h = R ((blocksOf B L (blks.flatten ++ tail)).foldl cs r0) ∧ s'.roundBuf.length = B ∧
      Inv B R cs r0 (blocksOf B L (blks.flatten ++ tail)) ((lastBlock B L (blks.flatten ++ tail)).take tail.length) s' := by
  obtain ⟨j, hj, hjl⟩ := i.buf
  have htl := i.tl
  have hlen : (blks.flatten ++ tail).length = B * blks.length + tail.length := by
    rw [List.length_append, flatten_len blks i.len]
  rw [term, assert_true (by simp [i.bs, htl])]
  simp only [Res.ok_bind, i.bs, i.total]
  rw [hj, wr_app rfl (by omega)]
  simp only [Res.ok_bind]
  rw [store_app (by simp) (by simp; omega)]
  simp only [Res.ok_bind]
  have hd : (j.drop 1).drop (List.replicate (B - tail.length - 1) (0 : UInt8)).length = [] :=
    List.drop_of_length_le (by simp; omega)
  rw [hd, List.append_nil, termExtra, lastBlock, blocksOf_eq hB hL i.len htl]
  have h8 : UInt8.ofNat 128 = 0x80 := rfl
  rw [h8, total_toNat hlen hlt]
  generalize hN : (blks.flatten ++ tail).length = N at *
  have hN2 : 8 * N < 2 ^ 64 := by omega
  rw [bytesBE_hi L _ hL8 hN2]
  by_cases ht : B - L ≤ tail.length
  · rw [if_pos ht, if_neg (by omega)]
    generalize hl1 : tail ++ [0x80] ++ List.replicate (B - tail.length - 1) 0 = l1
    have hl1' : tail ++ [0x80] ++ List.replicate (B - 1 - tail.length) 0 = l1 := by
      rw [← hl1]; congr 2; omega
    have hll : l1.length = B := by rw [← hl1]; simp; omega
    rw [hl1', round_inv hc i.h i.total l1 (by omega)]
    simp only [Res.ok_bind]
    have hst : store l1 0 (List.replicate (B - 8) 0) = .ok (List.replicate (B - 8) 0 ++ l1.drop (B - 8)) := by
      have := @store_app [] l1 (List.replicate (B - 8) 0) 0 rfl (by simp; omega)
      simpa using this
    rw [hst]
    simp only [Res.ok_bind, Res.pure_eq]
    rw [set64BE_app (by simp) (by simp; omega)]
    simp only [Res.ok_bind]
    rw [List.take_of_length_le (by omega : l1.length ≤ B)]
    rw [@round_inv H S B comp R cs hc r0 (blks ++ [l1]) _ rfl rfl _ (by simp; omega)]
    have hb2 : List.replicate (B - L) (0 : UInt8) ++ (List.replicate (L - 8) 0 ++ bytesBE 8 (8 * N)) =
        List.replicate (B - 8) 0 ++ bytesBE 8 (8 * N) := by
      rw [← List.append_assoc (List.replicate (B - L) 0), ← replicate_split]
      have : B - L + (L - 8) = B - 8 := by omega
      rw [this]
    rw [hb2]
    generalize hl2 : List.replicate (B - 8) (0 : UInt8) ++ bytesBE 8 (8 * N) = l2
    have hll2 : l2.length = B := by rw [← hl2]; simp; omega
    rw [List.take_of_length_le (by omega : l2.length ≤ B)]
    have hlast : ((blks ++ [l1, l2]).getLast?).getD [] = l2 := by simp
    rw [hlast]
    have happ : blks ++ [l1] ++ [l2] = blks ++ [l1, l2] := by simp
    rw [happ]
    refine ⟨_, rfl, rfl, hll2, ?_⟩
    refine { len := ?_, tl := ?_, h := rfl, total := rfl, bs := ?_, rl := hll2, rb := ?_ }
    · intro b hb
      rcases List.mem_append.mp hb with hb | hb
      · exact i.len b hb
      · simp only [List.mem_cons, List.not_mem_nil, or_false] at hb
        rcases hb with hb | hb <;> rw [hb] <;> assumption
    · rw [List.length_take]; omega
    · show s.roundBufSize = _
      rw [List.length_take, i.bs]; omega
    · show l2.take _ = _
      rw [List.length_take, hll2, Nat.min_eq_left (by omega)]
  · rw [if_neg ht, if_pos (by omega)]
    simp only [Res.ok_bind]
    have hsp : tail ++ [0x80] ++ List.replicate (B - tail.length - 1) (0 : UInt8) =
        (tail ++ [0x80] ++ List.replicate (B - L - 1 - tail.length) 0 ++ List.replicate (L - 8) 0) ++
          List.replicate 8 0 := by
      have : B - tail.length - 1 = B - L - 1 - tail.length + (L - 8) + 8 := by omega
      rw [this, replicate_split, replicate_split]; simp only [List.append_assoc]
    rw [hsp, set64BE_app (by simp; omega) (by simp)]
    simp only [Res.ok_bind]
    rw [round_inv hc i.h i.total _ (by simp; omega)]
    have hb1 : tail ++ [0x80] ++ List.replicate (B - L - 1 - tail.length) 0 ++ (List.replicate (L - 8) 0 ++ bytesBE 8 (8 * N)) =
        tail ++ [0x80] ++ List.replicate (B - L - 1 - tail.length) 0 ++ List.replicate (L - 8) 0 ++ bytesBE 8 (8 * N) := by
      simp only [List.append_assoc]
    rw [hb1]
    generalize hl2 : tail ++ [0x80] ++ List.replicate (B - L - 1 - tail.length) 0 ++ List.replicate (L - 8) 0 ++ bytesBE 8 (8 * N) = l2
    have hll2 : l2.length = B := by rw [← hl2]; simp; omega
    rw [List.take_of_length_le (by omega : l2.length ≤ B)]
    have hlast : ((blks ++ [l2]).getLast?).getD [] = l2 := by simp
    rw [hlast]
    refine ⟨_, rfl, rfl, hll2, ?_⟩
    refine { len := ?_, tl := ?_, h := rfl, total := rfl, bs := ?_, rl := hll2, rb := ?_ }
    · intro b hb
      rcases List.mem_append.mp hb with hb | hb
      · exact i.len b hb
      · simp only [List.mem_singleton] at hb
        rw [hb]; assumption
    · rw [List.length_take]; omega
    · show s.roundBufSize = _
      rw [List.length_take, i.bs]; omega
    · show l2.take _ = _
      rw [List.length_take, hll2, Nat.min_eq_left (by omega)]

end
end Verif.Sha
