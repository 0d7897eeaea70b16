import Verif.Proof.Sha1

/-! C39-C41: SHA-2, SHA-1 and HMAC-SHA-256. -/
namespace Verif.Props.Sha
open Verif.Sha Verif.Spec.Sha Verif.Spec.Endian

/-- Any sequence of `update` calls on a `Sha256` object after its constructor or `clear` (`rb` is
whatever its buffer contains), followed by `digest`, writes the SHA-256 hash of the concatenation
into the first 32 bytes of `md`, leaves the other bytes alone and returns 32. -/
theorem C39_sha256 (rb : List UInt8) (hrb : rb.length = 64) (ds : List (List UInt8)) (d md : List UInt8)
    (mdSize : Nat) (hs : 32 ≤ mdSize) (hm : mdSize ≤ md.length)
    (hlt : (ds.flatten ++ d).length < 2 ^ 61) :
    ∃ s s', updates update256 (clear256 rb) ds = .ok s ∧
      digest256 s md mdSize d = .ok (32, sha256 (ds.flatten ++ d) ++ md.drop 32, s') := by
  obtain ⟨b, t, s, e, i, h⟩ := updates_inv (by decide) comp256_eq ds [] [] _ (inv_clear256 rb hrb)
  simp only [List.flatten_nil, List.nil_append] at h
  obtain ⟨s', e', _⟩ := digest256_inv i md mdSize hs (by omega) d (by rw [h]; exact hlt)
  refine ⟨s, s', e, ?_⟩
  rw [e', h]

/-- The same for `Sha512`. -/
theorem C39_sha512 (rb : List UInt8) (hrb : rb.length = 128) (ds : List (List UInt8)) (d md : List UInt8)
    (mdSize : Nat) (hs : 64 ≤ mdSize) (hm : mdSize ≤ md.length)
    (hlt : (ds.flatten ++ d).length < 2 ^ 61) :
    ∃ s s', updates update512 (clear512 rb) ds = .ok s ∧
      digest512 s md mdSize d = .ok (64, sha512 (ds.flatten ++ d) ++ md.drop 64, s') := by
  obtain ⟨b, t, s, e, i, h⟩ := updates_inv (by decide) comp512_eq ds [] [] _ (inv_clear512 rb hrb)
  simp only [List.flatten_nil, List.nil_append] at h
  obtain ⟨s', e', _⟩ := digest512_inv i md mdSize hs (by omega) d (by rw [h]; exact hlt)
  refine ⟨s, s', e, ?_⟩
  rw [e', h]

/-- Non-trivial case: chunks of sizes 3, 0, 70 and a last part, into a 40-byte buffer. -/
example : ∃ s s', updates update256 (clear256 (List.replicate 64 7))
      [[1, 2, 3], [], List.replicate 70 5] = .ok s ∧
    digest256 s (List.replicate 40 9) 40 [8] =
      .ok (32, sha256 ([1, 2, 3] ++ List.replicate 70 5 ++ [8]) ++ List.replicate 8 9, s') := by
  have := C39_sha256 (List.replicate 64 7) (by simp) [[1, 2, 3], [], List.replicate 70 5] [8]
    (List.replicate 40 9) 40 (by decide) (by simp) (by decide)
  simpa using this

/-- Too small a buffer: nothing is written and 0 is returned. -/
theorem C39_small_buffer (s : St (List (BitVec 32))) (s2 : St (List (BitVec 64))) (md d : List UInt8)
    (mdSize : Nat) :
    (mdSize < 32 → digest256 s md mdSize d = .ok (0, md, s)) ∧
    (mdSize < 64 → digest512 s2 md mdSize d = .ok (0, md, s2)) :=
  ⟨fun h => by rw [digest256, if_pos h], fun h => by rw [digest512, if_pos h]⟩

/-- The model gives the published value for `"abc"` (FIPS 180-4 example), hence so does the
specification. -/
theorem C39_abc : sha256 [0x61, 0x62, 0x63] =
    bytesBE 32 0xba7816bf8f01cfea414140de5dae2223b00361a396177a9cb410ff61f20015ad := by
  obtain ⟨s, s', h1, h2⟩ := C39_sha256 (List.replicate 64 0) (by simp) [] [0x61, 0x62, 0x63]
    (List.replicate 32 0) 32 (by decide) (by simp) (by decide)
  simp only [updates, Res.ok.injEq] at h1
  subst h1
  have h3 : (match digest256 (clear256 (List.replicate 64 0)) (List.replicate 32 0) 32 [0x61, 0x62, 0x63] with
      | .ok (_, md, _) => md | _ => []) =
      bytesBE 32 0xba7816bf8f01cfea414140de5dae2223b00361a396177a9cb410ff61f20015ad := by decide +kernel
  rw [h2] at h3
  simpa using h3

/-- The same for SHA-512. -/
theorem C39_abc512 : sha512 [0x61, 0x62, 0x63] =
    bytesBE 64 0xddaf35a193617abacc417349ae20413112e6fa4e89a97ea20a9eeee64b55d39a2192992a274fc1a836ba3c23a3feebbd454d4423643ce80e2a9ac94fa54ca49f := by
  obtain ⟨s, s', h1, h2⟩ := C39_sha512 (List.replicate 128 0) (by simp) [] [0x61, 0x62, 0x63]
    (List.replicate 64 0) 64 (by decide) (by simp) (by decide)
  simp only [updates, Res.ok.injEq] at h1
  subst h1
  have h3 : (match digest512 (clear512 (List.replicate 128 0)) (List.replicate 64 0) 64 [0x61, 0x62, 0x63] with
      | .ok (_, md, _) => md | _ => []) =
      bytesBE 64 0xddaf35a193617abacc417349ae20413112e6fa4e89a97ea20a9eeee64b55d39a2192992a274fc1a836ba3c23a3feebbd454d4423643ce80e2a9ac94fa54ca49f := by
    decide +kernel
  rw [h2] at h3
  simpa using h3

/-- The roots of the specification are integer roots. -/
theorem C39_root (k bits m : Nat) (hk : 0 < k) (h : m < (2 ^ bits) ^ k) :
    root k bits m ^ k ≤ m ∧ m < (root k bits m + 1) ^ k := by
  apply rootAux_spec
  · rw [Nat.zero_pow hk]; omega
  · rwa [Nat.zero_add]

example : (311 * 2 ^ 96 : Nat) < (2 ^ (32 + 8)) ^ 3 := by decide

/-- The padding of the specification fills the last block with the least number of zeros. -/
theorem C39_padding (B L : Nat) (m : List UInt8) (hL : L < B) :
    (pad B L m).length % B = 0 ∧
    ∀ z, (m.length + 1 + z + L) % B = 0 → m.length + 1 + z + L ≥ (pad B L m).length := by
  have hB : 0 < B := by omega
  have hr : m.length % B < B := Nat.mod_lt _ hB
  have hlen : (pad B L m).length = m.length + 1 + (2 * B - 1 - L - m.length % B) % B + L := by
    simp [pad, Verif.Endian.bytesBE_length]
    omega
  have hm := Nat.div_add_mod m.length B
  constructor
  · rw [hlen]
    by_cases h : m.length % B < B - L
    · have hz : (2 * B - 1 - L - m.length % B) % B = B - L - 1 - m.length % B := by
        have : 2 * B - 1 - L - m.length % B = (B - L - 1 - m.length % B) + B := by omega
        rw [this, Nat.add_mod_right, Nat.mod_eq_of_lt (by omega)]
      rw [hz]
      have : m.length + 1 + (B - L - 1 - m.length % B) + L = B * (m.length / B) + B := by omega
      rw [this, Nat.add_mod_right, Nat.mul_mod_right]
    · have hz : (2 * B - 1 - L - m.length % B) % B = 2 * B - 1 - L - m.length % B :=
        Nat.mod_eq_of_lt (by omega)
      rw [hz]
      have : m.length + 1 + (2 * B - 1 - L - m.length % B) + L = B * (m.length / B) + B + B := by omega
      rw [this, Nat.add_mod_right, Nat.add_mod_right, Nat.mul_mod_right]
  · intro z hz
    rw [hlen]
    have h1 := Nat.div_add_mod (m.length + 1 + z + L) B
    rw [hz, Nat.add_zero] at h1
    generalize hq : (m.length + 1 + z + L) / B = q at h1
    generalize hp : m.length / B = p at hm
    have hqp : p < q := by
      by_cases hc : p < q
      · exact hc
      · have := Nat.mul_le_mul_left B (by omega : q ≤ p)
        omega
    have hge : B * (p + 1) ≤ B * q := Nat.mul_le_mul_left B hqp
    rw [Nat.mul_succ] at hge
    by_cases h : m.length % B < B - L
    · have hz : (2 * B - 1 - L - m.length % B) % B = B - L - 1 - m.length % B := by
        have : 2 * B - 1 - L - m.length % B = (B - L - 1 - m.length % B) + B := by omega
        rw [this, Nat.add_mod_right, Nat.mod_eq_of_lt (by omega)]
      omega
    · have hz : (2 * B - 1 - L - m.length % B) % B = 2 * B - 1 - L - m.length % B :=
        Nat.mod_eq_of_lt (by omega)
      have hq2 : p + 1 < q := by
        by_cases hc : p + 1 < q
        · exact hc
        · have : q = p + 1 := by omega
          subst this
          rw [Nat.mul_succ] at h1
          omega
      have hge2 : B * (p + 1 + 1) ≤ B * q := Nat.mul_le_mul_left B hq2
      rw [Nat.mul_succ, Nat.mul_succ] at hge2
      omega

/-- Finding: `digest` does not prepare the object for another message.  The same empty message
hashed twice with the same object, without `clear`, gives two different results. -/
theorem C39_digest_does_not_clear :
    (do let (_, a, s) ← digest256 (clear256 (List.replicate 64 0)) (List.replicate 32 0) 32 []
        let (_, b, _) ← digest256 s (List.replicate 32 0) 32 []
        return (a == b) : Res Bool) = .ok false := by decide +kernel

/-! ## C40 -/

/-- An object ready for a new message: what the constructor and `digest` leave; the byte buffer and
the old digest are arbitrary. -/
def Fresh (o : St1) : Prop := ∃ rb dg, rb.length = 64 ∧ dg.length = 20 ∧ o = reset1 rb dg

/-- A sequence of `update` calls. -/
def updates1 : St1 → List (List UInt8) → Res St1
  | o, [] => .ok o
  | o, d :: ds => do
    let o ← update1 o d
    updates1 o ds

theorem update1_inv {o : St1} (hd : o.done = false) (hK : o.K = K1) {blks : List (List UInt8)}
    {tail : List UInt8} (i : Inv 64 Regs1.toList compress1 iv1 blks tail o.base) (d : List UInt8) :
    ∃ blks' tail' o', update1 o d = .ok o' ∧ Inv 64 Regs1.toList compress1 iv1 blks' tail' o'.base ∧
      o'.done = false ∧ o'.K = K1 ∧ o'.digest = o.digest ∧
      blks'.flatten ++ tail' = blks.flatten ++ tail ++ d := by
  rw [update1]
  by_cases h : d.length = 0
  · rw [if_pos h]
    have : d = [] := List.length_eq_zero_iff.mp h
    subst this
    exact ⟨blks, tail, o, rfl, i, hd, hK, rfl, by simp⟩
  · rw [if_neg h, assert_true (by rw [hd]; rfl)]
    obtain ⟨b, t, s, e, i', hf⟩ := update_inv (by decide) comp1_eq d i
    rw [hK]
    simp only [Res.ok_bind]
    rw [e]
    exact ⟨b, t, _, rfl, i', hd, rfl, rfl, hf⟩

theorem updates1_inv : ∀ (ds : List (List UInt8)) (o : St1), o.done = false → o.K = K1 →
    ∀ (blks : List (List UInt8)) (tail : List UInt8), Inv 64 Regs1.toList compress1 iv1 blks tail o.base →
    ∃ blks' tail' o', updates1 o ds = .ok o' ∧ Inv 64 Regs1.toList compress1 iv1 blks' tail' o'.base ∧
      o'.done = false ∧ o'.K = K1 ∧ o'.digest = o.digest ∧
      blks'.flatten ++ tail' = blks.flatten ++ tail ++ ds.flatten := by
  intro ds
  induction ds with
  | nil => intro o hd hK b t i; exact ⟨b, t, o, rfl, i, hd, hK, rfl, by simp⟩
  | cons d ds ih =>
    intro o hd hK b t i
    obtain ⟨b1, t1, o1, e1, i1, hd1, hK1, hg1, hf1⟩ := update1_inv hd hK i d
    obtain ⟨b2, t2, o2, e2, i2, hd2, hK2, hg2, hf2⟩ := ih o1 hd1 hK1 b1 t1 i1
    refine ⟨b2, t2, o2, ?_, i2, hd2, hK2, hg2.trans hg1, ?_⟩
    · rw [updates1, e1]; exact e2
    · rw [hf2, hf1]; simp

theorem reset1_K (rb dg : List UInt8) : (reset1 rb dg).K = K1 := by rw [K1]; rfl

theorem inv_reset1 (rb dg : List UInt8) (h : rb.length = 64) :
    Inv 64 Regs1.toList compress1 iv1 [] [] (reset1 rb dg).base :=
  { len := by simp, tl := by decide, h := rfl, total := rfl, bs := rfl, rl := h, rb := rfl }

/-- Any sequence of `update` calls on a fresh object followed by `digest` gives the SHA-1 hash of the
concatenation, no assertion fails, and the object is fresh again.  `last0` is the indeterminate
content of the local array of `term`. -/
theorem C40_sha1 (o : St1) (ho : Fresh o) (ds : List (List UInt8)) (d last0 : List UInt8)
    (hl : last0.length = 64) (hlt : (ds.flatten ++ d).length < 2 ^ 61) :
    ∃ o1 o2, updates1 o ds = .ok o1 ∧ digest1 last0 o1 d = .ok (sha1 (ds.flatten ++ d), o2) ∧ Fresh o2 := by
  obtain ⟨rb, dg, hrb, hdg, rfl⟩ := ho
  obtain ⟨b, t, o1, e1, i1, hd1, hK1, hg1, hf1⟩ :=
    updates1_inv ds (reset1 rb dg) rfl (reset1_K rb dg) [] [] (inv_reset1 rb dg hrb)
  simp only [List.flatten_nil, List.nil_append] at hf1
  refine ⟨o1, ?_⟩
  obtain ⟨b2, t2, o2, e2, i2, hd2, hK2, hg2, hf2⟩ := update1_inv hd1 hK1 i1 d
  rw [hf1] at hf2
  have hdl : o2.digest.length = 20 := by rw [hg2, hg1]; exact hdg
  obtain ⟨o3, e3, hdig, hrl⟩ := term1_inv last0 hl hK2 hdl i2 (by rw [hf2]; exact hlt)
  refine ⟨reset1 o3.base.roundBuf o3.digest, e1, ?_, ?_⟩
  · rw [digest1, assert_true (by rw [hd1]; rfl)]
    simp only [Res.ok_bind, e2, e3, Res.pure_eq]
    rw [hdig, hf2]
  · refine ⟨o3.base.roundBuf, o3.digest, hrl, ?_, rfl⟩
    rw [hdig, sha1, bytesOf_length]; rfl

/-- A session: messages, each given as the arguments of `update` calls and of `digest`. -/
def session (last0 : List UInt8) : St1 → List (List (List UInt8) × List UInt8) → Res (List (List UInt8))
  | _, [] => .ok []
  | o, (ds, d) :: ms => do
    let o ← updates1 o ds
    let (h, o) ← digest1 last0 o d
    let hs ← session last0 o ms
    return h :: hs

/-- Every message of a session gets its hash, whatever was hashed before with the object. -/
theorem C40_session (last0 : List UInt8) (hl : last0.length = 64) :
    ∀ (ms : List (List (List UInt8) × List UInt8)) (o : St1), Fresh o →
      (∀ m ∈ ms, (m.1.flatten ++ m.2).length < 2 ^ 61) →
      session last0 o ms = .ok (ms.map fun m => sha1 (m.1.flatten ++ m.2)) := by
  intro ms
  induction ms with
  | nil => intro o _ _; rfl
  | cons m ms ih =>
    intro o ho h
    obtain ⟨ds, d⟩ := m
    obtain ⟨o1, o2, e1, e2, ho2⟩ := C40_sha1 o ho ds d last0 hl (h (ds, d) (by simp))
    rw [session, e1]
    simp only [Res.ok_bind, e2]
    rw [ih o2 ho2 (fun m hm => h m (by simp [hm]))]
    rfl

/-- The constructor gives a fresh object (sha1.hpp:134-137). -/
example : Fresh (reset1 (List.replicate 64 1) (List.replicate 20 2)) :=
  ⟨_, _, by simp, by simp, rfl⟩

/-- The published value for `"abc"`. -/
theorem C40_abc : sha1 [0x61, 0x62, 0x63] = bytesBE 20 0xa9993e364706816aba3e25717850c26c9cd0d89d := by
  obtain ⟨o1, o2, h1, h2, _⟩ := C40_sha1 (reset1 (List.replicate 64 0) (List.replicate 20 0))
    ⟨_, _, by simp, by simp, rfl⟩ [] [0x61, 0x62, 0x63] (List.replicate 64 0) (by simp) (by decide)
  simp only [updates1, Res.ok.injEq] at h1
  subst h1
  have h3 : (match digest1 (List.replicate 64 0) (reset1 (List.replicate 64 0) (List.replicate 20 0))
      [0x61, 0x62, 0x63] with | .ok (md, _) => md | _ => []) =
      bytesBE 20 0xa9993e364706816aba3e25717850c26c9cd0d89d := by decide +kernel
  rw [h2] at h3
  exact h3

/-! ## C41 -/

/-- `hmac256` writes the RFC 2104 HMAC-SHA-256 of the message into the first 32 bytes of the
buffer, for keys of every length, whatever the indeterminate local memory contains. -/
theorem C41_hmac (k0 rb0 md key msg : List UInt8) (hk : k0.length = 64) (hr : rb0.length = 64)
    (hm : 32 ≤ md.length) (hlt : key.length < 2 ^ 61) (hlm : 64 + msg.length < 2 ^ 61) :
    hmac256 k0 rb0 md key msg = .ok (hmac sha256 64 key msg ++ md.drop 32) :=
  hmac256_eq k0 rb0 md key msg hk hr hm hlt hlm

/-- A key longer than a block. -/
example : hmac256 (List.replicate 64 1) (List.replicate 64 2) (List.replicate 32 0)
    (List.replicate 65 3) [4, 5] = .ok (hmac sha256 64 (List.replicate 65 3) [4, 5]) := by
  rw [C41_hmac _ _ _ _ _ (by simp) (by simp) (by simp) (by simp) (by decide)]
  simp

#print axioms C39_sha256
#print axioms C39_sha512
#print axioms C39_padding
#print axioms C40_session
#print axioms C41_hmac

end Verif.Props.Sha
