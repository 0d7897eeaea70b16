import Verif.Proof.Sha2

set_option linter.unusedSimpArgs false

/-! HMAC of sha2.hpp, and sha1.hpp. -/
namespace Verif.Sha
open Verif.Endian Verif.Spec.Endian Verif.Spec.Sha

theorem hmacKey_eq (k0 rb0 key : List UInt8) (hk : k0.length = 64) (hr : rb0.length = 64)
    (hlt : key.length < 2 ^ 61) :
    ∃ kk j rb, hmacKey (clear256 rb0) k0 key = .ok (kk ++ j, kk.length, clear256 rb) ∧
      kk = (if 64 < key.length then sha256 key else key) ∧ kk.length + j.length = 64 ∧ rb.length = 64 := by
  rw [hmacKey]
  by_cases h : 64 < key.length
  · rw [if_pos h, if_pos h]
    obtain ⟨s', e, hl, _⟩ := digest256_inv (inv_clear256 rb0 hr) k0 32 (by omega) (by omega) key (by simpa using hlt)
    rw [e]
    simp only [Res.ok_bind, Res.pure_eq, List.flatten_nil, List.nil_append]
    refine ⟨sha256 key, k0.drop 32, s'.roundBuf, ?_, rfl, ?_, hl⟩
    · rw [sha256_length]
    · rw [sha256_length]; simp; omega
  · rw [if_neg h, if_neg h]
    have := @store_app [] k0 key 0 rfl (by omega)
    rw [List.nil_append, List.nil_append] at this
    rw [this]
    simp only [Res.ok_bind, Res.pure_eq]
    exact ⟨key, k0.drop key.length, rb0, rfl, rfl, by simp; omega, hr⟩

theorem update256_clear {rb k : List UInt8} (hr : rb.length = 64) :
    ∃ blks tail s, update256 (clear256 rb) k = .ok s ∧
      Inv 64 Regs.toList (compress alg256) (iv 32) blks tail s ∧ blks.flatten ++ tail = k := by
  obtain ⟨b, t, s, e, i, h⟩ := update_inv (by decide) comp256_eq k (inv_clear256 rb hr)
  exact ⟨b, t, s, e, i, by simpa using h⟩

theorem hmac256_eq (k0 rb0 md key msg : List UInt8) (hk : k0.length = 64) (hr : rb0.length = 64)
    (hm : 32 ≤ md.length) (hlt : key.length < 2 ^ 61) (hlm : 64 + msg.length < 2 ^ 61) :
    hmac256 k0 rb0 md key msg = .ok (hmac sha256 64 key msg ++ md.drop 32) := by
  rw [hmac256]
  obtain ⟨kk, j, rb, e, hkk, hj, hrb⟩ := hmacKey_eq k0 rb0 key hk hr hlt
  simp only [e, Res.ok_bind]
  have hx := xorLoop_eq 0x36 kk.length 0 [] (kk ++ j) rfl (by simp)
  rw [List.nil_append, List.nil_append, List.take_left' rfl, List.drop_left' rfl] at hx
  rw [hx]
  simp only [Res.ok_bind]
  rw [store_app (by simp) (by simp; omega)]
  simp only [Res.ok_bind]
  have hd : j.drop (List.replicate (64 - kk.length) (0x36 : UInt8)).length = [] :=
    List.drop_of_length_le (by simp; omega)
  rw [hd, List.append_nil]
  generalize hK : kk ++ List.replicate (64 - kk.length) 0 = K
  have hKl : K.length = 64 := by rw [← hK]; simp; omega
  have hK1 : kk.map (· ^^^ (0x36 : UInt8)) ++ List.replicate (64 - kk.length) 0x36 = K.map (· ^^^ 0x36) := by
    rw [← hK, List.map_append, List.map_replicate]; rfl
  rw [hK1]
  obtain ⟨b, t, s, eu, iu, hf⟩ := @update256_clear rb (K.map (· ^^^ 0x36)) hrb
  rw [eu]
  simp only [Res.ok_bind]
  obtain ⟨s2, ed, hl2, _⟩ := digest256_inv iu md 32 (by omega) hm msg (by rw [hf]; simp; omega)
  rw [ed, hf]
  simp only [Res.ok_bind]
  have hx2 := xorLoop_eq (0x36 ^^^ 0x5c) 64 0 [] (K.map (· ^^^ 0x36)) rfl (by simp; omega)
  rw [List.nil_append, List.nil_append, List.take_of_length_le (by simp; omega),
    List.drop_of_length_le (by simp; omega), List.append_nil, List.map_map] at hx2
  rw [hx2]
  simp only [Res.ok_bind]
  have hK2 : K.map ((· ^^^ ((0x36 : UInt8) ^^^ 0x5c)) ∘ (· ^^^ 0x36)) = K.map (· ^^^ 0x5c) := by
    apply List.map_congr_left
    intro a _
    simp only [Function.comp]
    rw [UInt8.xor_assoc]; rfl
  rw [hK2]
  obtain ⟨b3, t3, s3, eu3, iu3, hf3⟩ := @update256_clear s2.roundBuf (K.map (· ^^^ 0x5c)) hl2
  rw [eu3]
  simp only [Res.ok_bind]
  rw [List.take_left' (sha256_length _)]
  obtain ⟨s4, ed4, _⟩ := digest256_inv iu3 (sha256 (K.map (· ^^^ 0x36) ++ msg) ++ md.drop 32) 32 (by omega)
    (by simp [sha256_length]) (sha256 (K.map (· ^^^ 0x36) ++ msg)) (by rw [hf3]; simp [sha256_length]; omega)
  rw [ed4, hf3]
  simp only [Res.ok_bind, Res.pure_eq]
  rw [List.drop_left' (sha256_length _), hmac]
  simp only [← hkk, hK]

/-! ## SHA-1 -/

theorem rotl1_eq (x : BitVec 32) (s : Nat) (h : s < 32) : rotl1 x s = x.rotateLeft s := by
  rw [rotl1, BitVec.rotateLeft_eq_rotateLeftAux_of_lt h, BitVec.rotateLeftAux]

theorem f0_eq (b c d : BitVec 32) : f0 b c d = ch b c d := by
  rw [f0, ch]
  ext i hi
  simp only [BitVec.getElem_xor, BitVec.getElem_and, BitVec.getElem_or, BitVec.getElem_not]
  cases b[i] <;> cases c[i] <;> cases d[i] <;> rfl

theorem f2_eq (b c d : BitVec 32) : f2 b c d = maj b c d := by
  rw [f2, maj]
  ext i hi
  simp only [BitVec.getElem_xor, BitVec.getElem_and, BitVec.getElem_or]
  cases b[i] <;> cases c[i] <;> cases d[i] <;> rfl

theorem f_eq (t : Nat) (b c d : BitVec 32) : f1of t b c d = ft t b c d := by
  rw [f1of, ft, f0_eq, f2_eq, f1]
  repeat' split
  all_goals first | rfl | (exfalso; omega)

/-- The table built by `reset`. -/
def K1 : List (BitVec 32) := (reset1 [] []).K

theorem K1_eq : K1 = (List.range 80).map kt := by decide +kernel

attribute [local irreducible] kt K1

theorem loadW1_eq (buf : List UInt8) (hb : 64 ≤ buf.length) : ∀ (cnt k : Nat), k + cnt ≤ 16 →
    loadW1 buf cnt ((List.range k).map (word 32 buf)) = .ok ((List.range (k + cnt)).map (word 32 buf)) := by
  intro cnt
  induction cnt with
  | zero => intro k _; rfl
  | succ cnt ih =>
    intro k h
    rw [loadW1, List.length_map, List.length_range, get32BE_eq (by omega)]
    simp only [Res.ok_bind]
    have : BitVec.ofNat 32 (valueBE ((buf.drop (k * 4)).take 4)) = word 32 buf k := by
      rw [word, Nat.mul_comm]
    rw [this, range_snoc, ih (k + 1) (by omega)]
    congr 3; omega

theorem extW1_eq (M : Nat → BitVec 32) : ∀ (cnt k : Nat), 16 ≤ k →
    extW1 cnt ((List.range k).map (sched1 M)) = .ok ((List.range (k + cnt)).map (sched1 M)) := by
  intro cnt
  induction cnt with
  | zero => intro k _; rfl
  | succ cnt ih =>
    intro k h
    rw [extW1]
    simp only [List.length_map, List.length_range]
    rw [at?_map _ _ _ (by omega), at?_map _ _ _ (by omega), at?_map _ _ _ (by omega),
      at?_map _ _ _ (by omega)]
    simp only [Res.ok_bind]
    have : rotl1 (sched1 M (k - 3) ^^^ sched1 M (k - 8) ^^^ sched1 M (k - 14) ^^^ sched1 M (k - 16)) 1 =
        sched1 M k := by
      conv => rhs; rw [sched1, if_neg (by omega)]
      rw [rotl1_eq _ _ (by decide)]
    rw [this, range_snoc, ih (k + 1) (by omega)]
    congr 3; omega

theorem rounds1_eq (W : Nat → BitVec 32) : ∀ (cnt i : Nat) (r : Regs1), i + cnt ≤ 80 →
    rounds1 K1 ((List.range 80).map W) cnt i r.a r.b r.c r.d r.e =
      .ok (let x := (List.range' i cnt).foldl (step1 W) r; (x.a, x.b, x.c, x.d, x.e)) := by
  intro cnt
  induction cnt with
  | zero => intro i r _; rfl
  | succ cnt ih =>
    intro i r h
    rw [rounds1, at?_map _ _ _ (by omega), K1_eq, at?_map _ _ _ (by omega)]
    simp only [Res.ok_bind]
    have := ih (i + 1) (step1 W r i) (by omega)
    have h1 : (step1 W r i).a = rotl1 r.a 5 + f1of i r.b r.c r.d + r.e + W i + kt i := by
      rw [step1, f_eq, rotl1_eq _ _ (by decide)]
      simp only
      ac_rfl
    have h2 : (step1 W r i).c = rotl1 r.b 30 := by rw [step1, rotl1_eq _ _ (by decide)]
    rw [h1, h2, K1_eq] at this
    exact this

theorem comp1_eq (r : Regs1) (blk : List UInt8) (h : blk.length = 64) (rest : List UInt8) :
    comp1 K1 r.toList (blk ++ rest) = .ok (compress1 r blk).toList := by
  have h1 : loadW1 (blk ++ rest) 16 [] = .ok ((List.range 16).map (sched1 (word 32 blk))) := by
    have h1 := loadW1_eq (blk ++ rest) (by simp; omega) 16 0 (by decide)
    have h2 : (List.range 16).map (word 32 blk) = (List.range 16).map (sched1 (word 32 blk)) := by
      apply List.map_congr_left
      intro t ht
      rw [sched1, if_pos (by simpa using ht)]
    have h4 := words_app (n := 32) (B := 64) (by decide) (rest := rest) h
    rw [List.range_zero, List.map_nil] at h1
    exact h1.trans (congrArg Res.ok (h4.trans h2))
  have h2 : extW1 64 ((List.range 16).map (sched1 (word 32 blk))) =
      .ok ((List.range 80).map (sched1 (word 32 blk))) := extW1_eq _ 64 16 (by decide)
  have h3 := rounds1_eq (sched1 (word 32 blk)) 80 0 r (by decide)
  have ha : at? r.toList 0 = .ok r.a := rfl
  have hb : at? r.toList 1 = .ok r.b := rfl
  have hc : at? r.toList 2 = .ok r.c := rfl
  have hd : at? r.toList 3 = .ok r.d := rfl
  have he : at? r.toList 4 = .ok r.e := rfl
  rw [← List.range_eq_range'] at h3
  unfold comp1 compress1
  rw [h1, Res.ok_bind, h2, Res.ok_bind, ha, Res.ok_bind, hb, Res.ok_bind, hc, Res.ok_bind, hd,
    Res.ok_bind, he, Res.ok_bind, h3]
  generalize (List.range 80).foldl (step1 (sched1 (word 32 blk))) r = x
  rfl

theorem len64 {N : Nat} (h : N < 2 ^ 61) :
    bytesBE 4 (BitVec.ofNat 64 N >>> 29).toNat ++ bytesBE 4 ((BitVec.ofNat 64 N * 8).toNat % 2 ^ 32) =
      bytesBE 8 (8 * N) := by
  have h1 : (BitVec.ofNat 64 N >>> 29).toNat = 8 * N / 256 ^ 4 := by
    rw [BitVec.toNat_ushiftRight, BitVec.toNat_ofNat, Nat.mod_eq_of_lt (by omega), Nat.shiftRight_eq_div_pow]
    omega
  have h8 : (8 : BitVec 64).toNat = 8 := rfl
  have h2 : (BitVec.ofNat 64 N * 8).toNat % 2 ^ 32 = 8 * N % 256 ^ 4 := by
    rw [BitVec.toNat_mul, BitVec.toNat_ofNat, h8]
    omega
  rw [h1, h2]
  generalize 8 * N = x
  simp only [bytesBE, List.range, List.range.loop, List.map_cons, List.map_nil, List.cons_append, List.nil_append]
  simp only [Nat.reduceSub, Nat.reducePow]
  simp only [List.cons.injEq, and_true]
  have e1 : ∀ k, x / 4294967296 / k % 256 = x / (4294967296 * k) % 256 := by
    intro k; rw [Nat.div_div_eq_div_mul]
  refine ⟨by rw [e1], by rw [e1], by rw [e1], by rw [e1], ?_, ?_, ?_, ?_⟩ <;> congr 1 <;> omega

theorem toList1_length (r : Regs1) : 4 * r.toList.length = 20 := rfl

theorem term1_gen {cs : Regs1 → List UInt8 → Regs1} {r0 : Regs1} {K : List (BitVec 32)}
    (hc : ∀ r blk, blk.length = 64 → ∀ rest, comp1 K r.toList (blk ++ rest) = .ok (cs r blk).toList)
    {blks : List (List UInt8)} {tail : List UInt8} {o : St1} (last0 : List UInt8)
    (hl0 : last0.length = 64) (hK : o.K = K) (hdg : o.digest.length = 20)
    (i : Inv 64 Regs1.toList cs r0 blks tail o.base)
    (hlt : (blks.flatten ++ tail).length < 2 ^ 61) :
    ∃ o', term1 last0 o = .ok o' ∧
      o'.digest = bytesOf ((blocksOf 64 8 (blks.flatten ++ tail)).foldl cs r0).toList ∧
      o'.base.roundBuf.length = 64 := by
  have htl := i.tl
  have hlen : (blks.flatten ++ tail).length = 64 * blks.length + tail.length := by
    rw [List.length_append, flatten_len blks i.len]
  rw [term1]
  simp only [i.bs, i.total, i.rb]
  rw [assert_true (by simpa using htl)]
  simp only [Res.ok_bind]
  have h1 := @store_app [] last0 tail 0 rfl (by omega)
  rw [List.nil_append, List.nil_append] at h1
  rw [h1]
  simp only [Res.ok_bind]
  rw [store_app rfl (by simp; omega), List.drop_of_length_le (l := last0.drop tail.length) (by simp; omega), List.append_nil]
  simp only [Res.ok_bind]
  rw [wr_app rfl (by simp; omega)]
  simp only [Res.ok_bind]
  have h8 : UInt8.ofNat 128 = 0x80 := rfl
  rw [h8, List.drop_replicate, ← BitVec.ofNat_add, ← hlen, blocksOf_eq (by decide) (by decide) i.len htl, hK]
  generalize hN : (blks.flatten ++ tail).length = N at *
  rw [term1Extra]
  by_cases ht : 56 ≤ tail.length
  · rw [if_pos ht, if_neg (by omega)]
    generalize hl1 : tail ++ [0x80] ++ List.replicate (64 - tail.length - 1) 0 = l1
    have hl1' : tail ++ [0x80] ++ List.replicate (64 - 1 - tail.length) 0 = l1 := by
      rw [← hl1]; congr 2; omega
    have hll : l1.length = 64 := by rw [← hl1]; simp; omega
    rw [hl1', round_inv hc i.h i.total l1 (by omega)]
    simp only [Res.ok_bind, Res.pure_eq]
    have hz : List.replicate 64 (0 : UInt8) = List.replicate 56 0 ++ List.replicate 8 0 := by
      rw [← replicate_split]
    rw [hz, set32BE_app (by simp) (by simp)]
    simp only [Res.ok_bind]
    rw [set32BE_app (by simp) (by simp)]
    simp only [Res.ok_bind]
    rw [List.drop_of_length_le (l := (List.replicate 8 (0 : UInt8)).drop 4) (by simp), List.append_nil,
      List.append_assoc, len64 hlt]
    rw [List.take_of_length_le (by omega : l1.length ≤ 64)]
    rw [@round_inv _ _ 64 (comp1 K) _ _ hc r0 (blks ++ [l1]) _ rfl rfl _ (by simp)]
    simp only [Res.ok_bind]
    have hout := out256_eq (((blks ++ [l1] ++ [(List.replicate 56 0 ++ bytesBE 8 (8 * N)).take 64]).foldl cs r0).toList)
      0 [] o.digest rfl (by rw [hdg, toList1_length]; exact Nat.le_refl 20)
    rw [List.nil_append, List.nil_append, toList1_length] at hout
    rw [hout]
    simp only [Res.ok_bind, Res.pure_eq]
    refine ⟨_, rfl, ?_, i.rl⟩
    dsimp only
    rw [List.drop_of_length_le (by omega), List.append_nil, List.take_of_length_le (by simp)]
    simp
  · rw [if_neg ht, if_pos (by omega)]
    simp only [Res.ok_bind]
    have hsp : tail ++ [0x80] ++ List.replicate (64 - tail.length - 1) (0 : UInt8) =
        (tail ++ [0x80] ++ List.replicate (64 - 8 - 1 - tail.length) 0) ++ List.replicate 8 0 := by
      have : 64 - tail.length - 1 = 64 - 8 - 1 - tail.length + 8 := by omega
      rw [this, replicate_split]; simp only [List.append_assoc]
    rw [hsp, set32BE_app (by simp; omega) (by simp)]
    simp only [Res.ok_bind]
    rw [set32BE_app (by simp; omega) (by simp)]
    simp only [Res.ok_bind]
    rw [List.drop_of_length_le (l := (List.replicate 8 (0 : UInt8)).drop 4) (by simp), List.append_nil]
    rw [List.append_assoc _ (bytesBE 4 _) (bytesBE 4 _), len64 hlt]
    rw [round_inv hc i.h i.total _ (by simp; omega)]
    simp only [Res.ok_bind]
    rw [List.take_of_length_le (by simp; omega)]
    have hout := out256_eq (((blks ++ [tail ++ [0x80] ++ List.replicate (64 - 8 - 1 - tail.length) 0 ++
      bytesBE 8 (8 * N)]).foldl cs r0).toList)
      0 [] o.digest rfl (by rw [hdg, toList1_length]; exact Nat.le_refl 20)
    rw [List.nil_append, List.nil_append, toList1_length] at hout
    rw [hout]
    simp only [Res.ok_bind, Res.pure_eq]
    refine ⟨_, rfl, ?_, i.rl⟩
    dsimp only
    rw [List.drop_of_length_le (by omega), List.append_nil]

theorem term1_inv {blks : List (List UInt8)} {tail : List UInt8} {o : St1} (last0 : List UInt8)
    (hl0 : last0.length = 64) (hK : o.K = K1) (hdg : o.digest.length = 20)
    (i : Inv 64 Regs1.toList compress1 iv1 blks tail o.base)
    (hlt : (blks.flatten ++ tail).length < 2 ^ 61) :
    ∃ o', term1 last0 o = .ok o' ∧ o'.digest = sha1 (blks.flatten ++ tail) ∧
      o'.base.roundBuf.length = 64 :=
  term1_gen comp1_eq last0 hl0 hK hdg i hlt

end Verif.Sha
