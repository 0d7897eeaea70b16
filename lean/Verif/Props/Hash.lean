import Verif.Proof.Hash

/-!
# C42 SipHash-2-4, C43 FNV
-/
namespace Verif.Props.Hash
open Verif.Hash Verif.Spec.Hash

attribute [local irreducible] sipRound doubleRound sipWord in
/-- C42: `siphash24` reads inside the message only and returns SipHash-2-4 of it, for every message
and key. -/
theorem C42_siphash24 (src : List UInt8) (k0 k1 : BitVec 64) :
    siphash24 src k0 k1 = .ok (sip24 k0 k1 src) := by
  rw [siphash24]
  generalize hv : V.mk (k0 ^^^ 0x736f6d6570736575) (k1 ^^^ 0x646f72616e646f6d)
    (k0 ^^^ 0x6c7967656e657261) (k1 ^^^ 0x7465646279746573) = v
  obtain ⟨v', e, hv'⟩ := sipLoop_eq (src.length + 1) v src (by omega)
  simp only [e, Res.ok_bind, last_word, Res.pure_eq]
  refine congrArg Res.ok ?_
  have h0 : toSip v = Sip.mk (k0 ^^^ 0x736f6d6570736575) (k1 ^^^ 0x646f72616e646f6d)
      (k0 ^^^ 0x6c7967656e657261) (k1 ^^^ 0x7465646279746573) := by rw [← hv]; rfl
  rw [sip24, words_spec, List.foldl_append, ← h0, ← hv', List.foldl_cons, List.foldl_nil]
  generalize sipWord src (src.length / 8) = w
  rw [sipCompress]
  have h2 : ∀ a : V, (a.v0 ^^^ a.v1) ^^^ (a.v2 ^^^ a.v3) =
      (toSip a).v0 ^^^ (toSip a).v1 ^^^ (toSip a).v2 ^^^ (toSip a).v3 := by
    intro a; simp only [toSip, BitVec.xor_assoc]
  rw [h2]
  have h3 : toSip (doubleRound { v' with v3 := v'.v3 ^^^ w }) =
      sipRound (sipRound { toSip v' with v3 := (toSip v').v3 ^^^ w }) := by
    rw [doubleRound_eq]; rfl
  generalize doubleRound { v' with v3 := v'.v3 ^^^ w } = a at h3 ⊢
  rw [doubleRound_eq, doubleRound_eq, ← h3]
  rfl

/-- C43: with the default seed `hash32` over bytes is FNV-1a with the standard offset basis. -/
theorem C43_hash32_fnv1a (m : List UInt8) : hash32 (ofU8 32) m 0 = fnv1a32 2166136261 m := by
  rw [hash32]; exact loop32_fnv m _

/-- C43: with any other seed it continues FNV-1a from that seed. -/
theorem C43_hash32_seed (m : List UInt8) (v : BitVec 32) (h : v ≠ 0) :
    hash32 (ofU8 32) m v = fnv1a32 v m := by
  rw [hash32]; simp only [if_neg h]; exact loop32_fnv m _

/-- C43: hashing a concatenation is hashing the first part and continuing from the result, for every
element type, as long as the intermediate value is not 0. -/
theorem C43_hash32_append {α : Type} (conv : α → BitVec 32) (a b : List α) (v : BitVec 32)
    (h : hash32 conv a v ≠ 0) : hash32 conv (a ++ b) v = hash32 conv b (hash32 conv a v) := by
  have e : ∀ w : BitVec 32, w ≠ 0 → hash32 conv b w = loop32 conv b w := by
    intro w hw; rw [hash32]; simp only [if_neg hw]
  rw [e _ h, hash32, hash32, loop32_append]

/-- C43, the exception: if the intermediate value is 0, continuing restarts from the default seed, so
the first part is forgotten. -/
theorem C43_hash32_zero_restarts {α : Type} (conv : α → BitVec 32) (a b : List α) (v : BitVec 32)
    (h : hash32 conv a v = 0) : hash32 conv b (hash32 conv a v) = hash32 conv b 0 := by
  rw [h]

/-- C43: `hash64` over bytes is FNV-1a followed by xor of the upper half into the lower, for the
default seed and every other. -/
theorem C43_hash64_fnv1a (m : List UInt8) (v : BitVec 64) :
    hash64 (ofU8 64) m v =
      (let f := fnv1a64 (if v = 0 then 14695981039346656037 else v) m; f ^^^ (f >>> 32)) := by
  rw [Hash.hash64]; simp only [loop64_fnv]

/-- C43: for text in `std::string` (elements of type `char`) the same holds if every character is
ASCII.
Missing: other characters, for which it is false (`C43_finding_signed_char`). -/
theorem C43_ascii_string_partial (m : List UInt8) (h : ∀ x ∈ m, x.toNat < 128) :
    hash32 (ofChar 32) m 0 = fnv1a32 2166136261 m ∧
    hash64 (ofChar 64) m 0 =
      (let f := fnv1a64 14695981039346656037 m; f ^^^ (f >>> 32)) := by
  constructor
  · rw [← C43_hash32_fnv1a, hash32, hash32]
    exact loop32_congr m (fun x hx => ofChar_ascii (by decide) (h x hx)) _
  · have := C43_hash64_fnv1a m 0
    simp only [if_true] at this
    rw [← this, Hash.hash64, Hash.hash64]
    simp only [loop64_congr m (fun x hx => ofChar_ascii (by decide) (h x hx))]

/-- C43, finding: for other characters it is not FNV-1a; `char` is sign-extended. -/
theorem C43_finding_signed_char :
    hash32 (ofChar 32) [0x80] 0 ≠ fnv1a32 2166136261 [0x80] := by
  decide +kernel

/-- C43, finding: `hash64` cannot be continued from its result. -/
theorem C43_finding_hash64_not_compositional :
    hash64 (ofU8 64) ([1] ++ [2]) 0 ≠ hash64 (ofU8 64) [2] (hash64 (ofU8 64) [1] 0) := by
  decide +kernel

/-- C43, finding: the exception of `C43_hash32_zero_restarts` occurs: this four-byte string hashes to
0, and continuing from there differs from hashing the concatenation. -/
theorem C43_finding_zero_intermediate :
    hash32 (ofU8 32) [0xcc, 0x24, 0x31, 0xc4] 0 = 0 ∧
    hash32 (ofU8 32) ([0xcc, 0x24, 0x31, 0xc4] ++ [1]) 0 ≠
      hash32 (ofU8 32) [1] (hash32 (ofU8 32) [0xcc, 0x24, 0x31, 0xc4] 0) := by
  decide +kernel

/-- The published test value of SipHash-2-4. -/
example : siphash24 (List.ofFn fun i : Fin 15 => UInt8.ofNat i.val) 0x0706050403020100 0x0f0e0d0c0b0a0908 =
    .ok 0xa129ca6149be45e5 := by decide +kernel
/-- "foobar" has the published FNV-1a value. -/
example : hash32 (ofU8 32) [0x66, 0x6f, 0x6f, 0x62, 0x61, 0x72] 0 = 0xbf9cf968 := by decide +kernel
example : hash32 (ofU8 32) [0x66, 0x6f, 0x6f] 0 ≠ 0 := by decide +kernel
example : ∀ x ∈ ([0x66, 0x6f] : List UInt8), x.toNat < 128 := by decide

#print axioms C42_siphash24
#print axioms C43_hash32_append
#print axioms C43_hash64_fnv1a

end Verif.Props.Hash
