import Verif.Spec.Endian

/-!
# FIPS 180-4 (SHA-1, SHA-256, SHA-512) and RFC 2104 (HMAC)

Written from the standard: message padding (section 5.1), parsing (5.2), the functions and
constants (4.1, 4.2, 5.3) and the hash computation (6.1, 6.2, 6.4).  The constants of SHA-2 are not
tables but what the standard says they are: leading bits of the fractional parts of roots of the
first primes.
-/
namespace Verif.Spec.Sha
open Verif.Spec.Endian

/-- The greatest `x < 2 ^ bits` with `x ^ k ≤ m`, by deciding the bits from the top. -/
def rootAux (k m : Nat) : Nat → Nat → Nat
  | 0, x => x
  | b + 1, x => if (x + 2 ^ b) ^ k ≤ m then rootAux k m b (x + 2 ^ b) else rootAux k m b x

/-- The integer `k`-th root of a number whose root has at most `bits` bits. -/
def root (k bits m : Nat) : Nat := rootAux k m bits 0

/-- `p` is a prime number. -/
def isPrime (p : Nat) : Bool := 2 ≤ p && (List.range p).all fun d => d < 2 || p % d != 0

/-- The primes below `n`. -/
def primesBelow (n : Nat) : List Nat := (List.range n).filter isPrime

/-- The first `n` bits of the fractional part of the `k`-th root of `p`. -/
def fracRoot (n k p : Nat) : BitVec n := BitVec.ofNat n (root k (n + 8) (p * 2 ^ (k * n)))

/-- Padding (5.1): a one bit, zero bits, and the length in bits in `L` bytes, up to a multiple of
`B` bytes. -/
def pad (B L : Nat) (m : List UInt8) : List UInt8 :=
  m ++ [0x80] ++ List.replicate ((2 * B - 1 - L - m.length % B) % B) 0 ++ bytesBE L (8 * m.length)

/-- Cut into pieces of `B` bytes (5.2). -/
def chunks (B : Nat) : Nat → List UInt8 → List (List UInt8)
  | 0, _ => []
  | n + 1, l => l.take B :: chunks B n (l.drop B)

/-- The blocks of the padded message. -/
def blocksOf (B L : Nat) (m : List UInt8) : List (List UInt8) :=
  chunks B ((pad B L m).length / B) (pad B L m)

/-- Word `t` of a block, `n / 8` bytes each, most significant byte first. -/
def word (n : Nat) (block : List UInt8) (t : Nat) : BitVec n :=
  BitVec.ofNat n (valueBE ((block.drop (n / 8 * t)).take (n / 8)))

/-- The eight working variables. -/
structure Regs (n : Nat) where
  (a b c d e f g h : BitVec n)

/-- What distinguishes SHA-256 and SHA-512. -/
structure Alg (n : Nat) where
  (bsig0 bsig1 ssig0 ssig1 : BitVec n → BitVec n)
  K : List (BitVec n)
  rounds : Nat

variable {n : Nat}

def ch (x y z : BitVec n) : BitVec n := (x &&& y) ^^^ (~~~x &&& z)
def maj (x y z : BitVec n) : BitVec n := (x &&& y) ^^^ (x &&& z) ^^^ (y &&& z)

/-- The message schedule. -/
def sched (A : Alg n) (M : Nat → BitVec n) (t : Nat) : BitVec n :=
  if t < 16 then M t
  else A.ssig1 (sched A M (t - 2)) + sched A M (t - 7) + A.ssig0 (sched A M (t - 15)) +
    sched A M (t - 16)
termination_by t

/-- One round. -/
def step (A : Alg n) (W : Nat → BitVec n) (r : Regs n) (t : Nat) : Regs n :=
  let t1 := r.h + A.bsig1 r.e + ch r.e r.f r.g + A.K.getD t 0 + W t
  let t2 := A.bsig0 r.a + maj r.a r.b r.c
  { a := t1 + t2, b := r.a, c := r.b, d := r.c, e := r.d + t1, f := r.e, g := r.f, h := r.g }

/-- The compression of one block. -/
def compress (A : Alg n) (H : Regs n) (block : List UInt8) : Regs n :=
  let r := (List.range A.rounds).foldl (step A (sched A (word n block))) H
  { a := H.a + r.a, b := H.b + r.b, c := H.c + r.c, d := H.d + r.d,
    e := H.e + r.e, f := H.f + r.f, g := H.g + r.g, h := H.h + r.h }

/-- The working variables in order. -/
def Regs.toList (r : Regs n) : List (BitVec n) := [r.a, r.b, r.c, r.d, r.e, r.f, r.g, r.h]

/-- The digest as bytes. -/
def bytesOf (l : List (BitVec n)) : List UInt8 := l.flatMap fun x => bytesBE (n / 8) x.toNat

def alg256 : Alg 32 where
  bsig0 x := x.rotateRight 2 ^^^ x.rotateRight 13 ^^^ x.rotateRight 22
  bsig1 x := x.rotateRight 6 ^^^ x.rotateRight 11 ^^^ x.rotateRight 25
  ssig0 x := x.rotateRight 7 ^^^ x.rotateRight 18 ^^^ x >>> 3
  ssig1 x := x.rotateRight 17 ^^^ x.rotateRight 19 ^^^ x >>> 10
  K := ((primesBelow 320).take 64).map (fracRoot 32 3)
  rounds := 64

def alg512 : Alg 64 where
  bsig0 x := x.rotateRight 28 ^^^ x.rotateRight 34 ^^^ x.rotateRight 39
  bsig1 x := x.rotateRight 14 ^^^ x.rotateRight 18 ^^^ x.rotateRight 41
  ssig0 x := x.rotateRight 1 ^^^ x.rotateRight 8 ^^^ x >>> 7
  ssig1 x := x.rotateRight 19 ^^^ x.rotateRight 61 ^^^ x >>> 6
  K := ((primesBelow 410).take 80).map (fracRoot 64 3)
  rounds := 80

/-- The initial hash value: square roots of the first eight primes (5.3.3, 5.3.5). -/
def iv (n : Nat) : Regs n where
  a := fracRoot n 2 2
  b := fracRoot n 2 3
  c := fracRoot n 2 5
  d := fracRoot n 2 7
  e := fracRoot n 2 11
  f := fracRoot n 2 13
  g := fracRoot n 2 17
  h := fracRoot n 2 19

/-- SHA-256 of a byte string (6.2). -/
def sha256 (m : List UInt8) : List UInt8 :=
  bytesOf ((blocksOf 64 8 m).foldl (compress alg256) (iv 32)).toList

/-- SHA-512 of a byte string (6.4). -/
def sha512 (m : List UInt8) : List UInt8 :=
  bytesOf ((blocksOf 128 16 m).foldl (compress alg512) (iv 64)).toList

/-! ## SHA-1 -/

/-- The five working variables. -/
structure Regs1 where
  (a b c d e : BitVec 32)

/-- Message schedule of SHA-1 (6.1.2). -/
def sched1 (M : Nat → BitVec 32) (t : Nat) : BitVec 32 :=
  if t < 16 then M t
  else (sched1 M (t - 3) ^^^ sched1 M (t - 8) ^^^ sched1 M (t - 14) ^^^ sched1 M (t - 16)).rotateLeft 1
termination_by t

/-- The functions of 4.1.1. -/
def ft (t : Nat) (x y z : BitVec 32) : BitVec 32 :=
  if t ≤ 19 then ch x y z
  else if 40 ≤ t ∧ t ≤ 59 then maj x y z
  else x ^^^ y ^^^ z

/-- The constants of 4.2.1: `⌊2^30 √2⌋`, `⌊2^30 √3⌋`, `⌊2^30 √5⌋`, `⌊2^30 √10⌋`. -/
def kt (t : Nat) : BitVec 32 :=
  let x := if t ≤ 19 then 2 else if t ≤ 39 then 3 else if t ≤ 59 then 5 else 10
  BitVec.ofNat 32 (root 2 40 (x * 2 ^ 60))

def step1 (W : Nat → BitVec 32) (r : Regs1) (t : Nat) : Regs1 where
  a := r.a.rotateLeft 5 + ft t r.b r.c r.d + r.e + kt t + W t
  b := r.a
  c := r.b.rotateLeft 30
  d := r.c
  e := r.d

def compress1 (H : Regs1) (block : List UInt8) : Regs1 :=
  let r := (List.range 80).foldl (step1 (sched1 (word 32 block))) H
  { a := H.a + r.a, b := H.b + r.b, c := H.c + r.c, d := H.d + r.d, e := H.e + r.e }

def Regs1.toList (r : Regs1) : List (BitVec 32) := [r.a, r.b, r.c, r.d, r.e]

/-- 5.3.1: the nibbles count up and down. -/
def iv1 : Regs1 where
  a := 0x67452301
  b := 0xefcdab89
  c := 0x98badcfe
  d := 0x10325476
  e := 0xc3d2e1f0

/-- SHA-1 of a byte string (6.1). -/
def sha1 (m : List UInt8) : List UInt8 :=
  bytesOf ((blocksOf 64 8 m).foldl compress1 iv1).toList

/-! ## HMAC -/

/-- RFC 2104: `H(K ⊕ opad, H(K ⊕ ipad, text))`, keys longer than a block are hashed first and keys
are padded with zeros to the block size. -/
def hmac (H : List UInt8 → List UInt8) (B : Nat) (key text : List UInt8) : List UInt8 :=
  let key := if B < key.length then H key else key
  let K := key ++ List.replicate (B - key.length) 0
  H (K.map (· ^^^ 0x5c) ++ H (K.map (· ^^^ 0x36) ++ text))

end Verif.Spec.Sha
