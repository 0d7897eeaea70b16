import Verif.Spec.Endian

/-!
# SipHash-2-4 (Aumasson, Bernstein) and FNV-1a
-/
namespace Verif.Spec.Hash
open Verif.Spec.Endian

/-- The internal state. -/
structure Sip where
  (v0 v1 v2 v3 : BitVec 64)

/-- SipRound, line by line as in the paper. -/
def sipRound (s : Sip) : Sip :=
  let v0 := s.v0 + s.v1
  let v1 := s.v1.rotateLeft 13
  let v1 := v1 ^^^ v0
  let v0 := v0.rotateLeft 32
  let v2 := s.v2 + s.v3
  let v3 := s.v3.rotateLeft 16
  let v3 := v3 ^^^ v2
  let v0 := v0 + v3
  let v3 := v3.rotateLeft 21
  let v3 := v3 ^^^ v0
  let v2 := v2 + v1
  let v1 := v1.rotateLeft 17
  let v1 := v1 ^^^ v2
  let v2 := v2.rotateLeft 32
  { v0 := v0, v1 := v1, v2 := v2, v3 := v3 }

/-- The message with its padding: zeros up to one byte before a multiple of eight, then the length
modulo 256. -/
def sipPad (m : List UInt8) : List UInt8 :=
  m ++ List.replicate (7 - m.length % 8) 0 ++ [UInt8.ofNat (m.length % 256)]

/-- Word `i`: eight bytes, least significant first. -/
def sipWord (m : List UInt8) (i : Nat) : BitVec 64 :=
  BitVec.ofNat 64 (valueLE (((sipPad m).drop (8 * i)).take 8))

/-- Compression of a word with two rounds. -/
def sipCompress (s : Sip) (w : BitVec 64) : Sip :=
  let s := sipRound (sipRound { s with v3 := s.v3 ^^^ w })
  { s with v0 := s.v0 ^^^ w }

/-- SipHash-2-4. -/
def sip24 (k0 k1 : BitVec 64) (m : List UInt8) : BitVec 64 :=
  let s0 : Sip :=
    { v0 := k0 ^^^ 0x736f6d6570736575
      v1 := k1 ^^^ 0x646f72616e646f6d
      v2 := k0 ^^^ 0x6c7967656e657261
      v3 := k1 ^^^ 0x7465646279746573 }
  let s := ((List.range (m.length / 8 + 1)).map (sipWord m)).foldl sipCompress s0
  let s := { s with v2 := s.v2 ^^^ 0xff }
  let s := sipRound (sipRound (sipRound (sipRound s)))
  s.v0 ^^^ s.v1 ^^^ s.v2 ^^^ s.v3

/-- FNV-1a over bytes: xor, then multiply by the prime; `fnvPrime32 = 2^24 + 2^8 + 0x93`. -/
def fnv1a32 (h : BitVec 32) (m : List UInt8) : BitVec 32 :=
  m.foldl (fun h b => (h ^^^ BitVec.ofNat 32 b.toNat) * (BitVec.ofNat 32 (2 ^ 24 + 2 ^ 8 + 0x93))) h

/-- FNV-1a with 64 bits; the prime is `2^40 + 2^8 + 0xb3`. -/
def fnv1a64 (h : BitVec 64) (m : List UInt8) : BitVec 64 :=
  m.foldl (fun h b => (h ^^^ BitVec.ofNat 64 b.toNat) * (BitVec.ofNat 64 (2 ^ 40 + 2 ^ 8 + 0xb3))) h

end Verif.Spec.Hash
