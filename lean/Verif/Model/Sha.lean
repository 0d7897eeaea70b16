import Verif.Model.Endian

/-!
# Model of `include/cybozu/sha2.hpp` (without OpenSSL) and `include/cybozu/sha1.hpp`

`uint32_t`/`uint64_t` values are `BitVec 32`/`BitVec 64`; the member arrays are lists.  The byte
buffers handed in by the caller are lists, so pointer and size are one value.  An `assert` is a
check whose failure is `.ub`.  `Get32bitAsBE` and friends are the `memcpy` branch of endian.hpp
(C09 shows that both branches agree).  Not modelled: the `_MSC_VER` intrinsics, the OpenSSL branch
(sha2.hpp:18-216), the `std::string` overloads (they forward).  `Sha1::toString` is in `Model/Sha1Text`.
-/
namespace Verif.Sha
open Verif.Endian

/-- `assert(b)`: a failing assertion is reported as undefined. -/
def assert (b : Bool) : Res Unit := if b then .ok () else .ub

/-- The members `totalSize_`, `roundBufSize_`, `roundBuf_`, `h_` (sha2.hpp:305-308, 436-439) and
`totalSize_`, `roundBufSize_`, `roundBuf_`, `H_` (sha1.hpp:21-24). -/
structure St (H : Type) where
  totalSize : BitVec 64
  roundBufSize : Nat
  roundBuf : List UInt8
  h : H

section Common
variable {H : Type}

/-- `self.round(buf)`: `comp` is the effect on `h_`, and `totalSize_ += blockSize_`
(sha2.hpp:366, 499; sha1.hpp:105). -/
def round (B : Nat) (comp : H → List UInt8 → Res H) (s : St H) (buf : List UInt8) : Res (St H) := do
  let h ← comp s.h buf
  return { s with h := h, totalSize := s.totalSize + BitVec.ofNat 64 B }

/-- The loop over whole blocks (sha2.hpp:281-286; sha1.hpp:153-158); `fuel` bounds the number of
rounds, running out of it is `.ub`. -/
def updateLoop (B : Nat) (comp : H → List UInt8 → Res H) :
    Nat → St H → List UInt8 → Res (St H × List UInt8)
  | 0, _, _ => .ub
  | fuel + 1, s, buf =>
    if B ≤ buf.length then do
      assert (s.roundBufSize == 0)
      let s ← round B comp s buf
      updateLoop B comp fuel s (buf.drop B)
    else .ok (s, buf)

/-- Filling up the pending block (sha2.hpp:270-276; sha1.hpp:142-148). -/
def fillPending (B : Nat) (s : St H) (buf : List UInt8) : Res (St H × List UInt8) :=
  if 0 < s.roundBufSize then do
    let size := min (B - s.roundBufSize) buf.length
    let rb ← store s.roundBuf s.roundBufSize (buf.take size)
    return ({ s with roundBuf := rb, roundBufSize := s.roundBufSize + size }, buf.drop size)
  else .ok (s, buf)

/-- Processing the pending block when it is full (sha2.hpp:277-280; sha1.hpp:149-152). -/
def flushPending (B : Nat) (comp : H → List UInt8 → Res H) (s : St H) : Res (St H) :=
  if s.roundBufSize = B then do
    let s ← round B comp s s.roundBuf
    return { s with roundBufSize := 0 }
  else .ok s

/-- Keeping the rest (sha2.hpp:287-292; sha1.hpp:159-164). -/
def keepRest (B : Nat) (s : St H) (buf : List UInt8) : Res (St H) :=
  if 0 < buf.length then do
    assert (buf.length < B)
    assert (s.roundBufSize == 0)
    let rb ← store s.roundBuf 0 buf
    return { s with roundBuf := rb, roundBufSize := buf.length }
  else .ok s

/-- `Common::inner_update` (sha2.hpp:266-294) and `Sha1::update` (sha1.hpp:138-166), whose bodies
are the same text with `T::blockSize_` and `64`. -/
def update (B : Nat) (comp : H → List UInt8 → Res H) (s : St H) (buf : List UInt8) :
    Res (St H) :=
  if buf.length = 0 then .ok s
  else do
    let (s, buf) ← fillPending B s buf
    let s ← flushPending B comp s
    let (s, buf) ← updateLoop B comp (buf.length + 1) s buf
    let s ← keepRest B s buf
    assert (s.roundBufSize < B)
    return s

/-- The extra block when the length does not fit (sha2.hpp:259-262).  `L` is `msgLenByte_`. -/
def termExtra (B L : Nat) (comp : H → List UInt8 → Res H) (s : St H) (bufSize : Nat)
    (buf : List UInt8) : Res (St H × List UInt8) :=
  if B - L ≤ bufSize then do
    let s ← round B comp s buf
    let buf ← store buf 0 (List.replicate (B - 8) 0)
    return (s, buf)
  else .ok (s, buf)

/-- `Common::term(roundBuf_, roundBufSize_)` (sha2.hpp:251-265); the buffer is the member
`roundBuf_` itself. -/
def term (B L : Nat) (comp : H → List UInt8 → Res H) (s : St H) : Res (St H) := do
  assert (s.roundBufSize < B)
  let totalSize := s.totalSize + BitVec.ofNat 64 s.roundBufSize
  let bufSize := s.roundBufSize
  let buf ← wr s.roundBuf bufSize 0x80
  let buf ← store buf (bufSize + 1) (List.replicate (B - bufSize - 1) 0)
  let (s, buf) ← termExtra B L comp s bufSize buf
  let buf ← set64BEMem buf (B - 8) (totalSize * 8).toNat
  let s ← round B comp s buf
  return { s with roundBuf := buf }

end Common

section Rounds
variable {n : Nat}

/-- A register array as used by `round1<i0, ..., i7>`. -/
abbrev Round1 (n : Nat) :=
  Nat → Nat → Nat → Nat → Nat → Nat → Nat → Nat → List (BitVec n) → List (BitVec n) → Nat →
    Res (List (BitVec n))

/-- `s[i] = v`. -/
def put {α : Type} (s : List α) (i : Nat) (v : α) : Res (List α) :=
  if i < s.length then .ok (s.set i v) else .ub

/-- The body of the loop over eight rounds (sha2.hpp:354-361, 487-494). -/
def eight (round1 : Round1 n) (s w : List (BitVec n)) (i : Nat) : Res (List (BitVec n)) := do
  let s ← round1 0 1 2 3 4 5 6 7 s w (i + 0)
  let s ← round1 7 0 1 2 3 4 5 6 s w (i + 1)
  let s ← round1 6 7 0 1 2 3 4 5 s w (i + 2)
  let s ← round1 5 6 7 0 1 2 3 4 s w (i + 3)
  let s ← round1 4 5 6 7 0 1 2 3 s w (i + 4)
  let s ← round1 3 4 5 6 7 0 1 2 s w (i + 5)
  let s ← round1 2 3 4 5 6 7 0 1 s w (i + 6)
  round1 1 2 3 4 5 6 7 0 s w (i + 7)

/-- `for (int i = 0; i < 8 * cnt; i += 8)` (sha2.hpp:353-362, 486-495); `j` is `i / 8`. -/
def rounds (round1 : Round1 n) (w : List (BitVec n)) :
    Nat → Nat → List (BitVec n) → Res (List (BitVec n))
  | 0, _, s => .ok s
  | cnt + 1, j, s => do
    let s ← eight round1 s w (8 * j)
    rounds round1 w cnt (j + 1) s

/-- `h_[i] += s[i]` for every `i` (sha2.hpp:363-365, 496-498). -/
def addRegs : List (BitVec n) → List (BitVec n) → List (BitVec n)
  | x :: xs, y :: ys => (x + y) :: addRegs xs ys
  | _, _ => []

end Rounds

/-! ## SHA-256 -/

/-- `rot32` (sha2.hpp:231-238). -/
def rot32 (x : BitVec 32) (s : Nat) : BitVec 32 := (x >>> s) ||| (x <<< (32 - s))

/-- `kTbl` of `Sha256::clear` (sha2.hpp:375-384). -/
def k256 : List (BitVec 32) := [
  0x428a2f98, 0x71374491, 0xb5c0fbcf, 0xe9b5dba5, 0x3956c25b, 0x59f111f1, 0x923f82a4, 0xab1c5ed5,
  0xd807aa98, 0x12835b01, 0x243185be, 0x550c7dc3, 0x72be5d74, 0x80deb1fe, 0x9bdc06a7, 0xc19bf174,
  0xe49b69c1, 0xefbe4786, 0x0fc19dc6, 0x240ca1cc, 0x2de92c6f, 0x4a7484aa, 0x5cb0a9dc, 0x76f988da,
  0x983e5152, 0xa831c66d, 0xb00327c8, 0xbf597fc7, 0xc6e00bf3, 0xd5a79147, 0x06ca6351, 0x14292967,
  0x27b70a85, 0x2e1b2138, 0x4d2c6dfc, 0x53380d13, 0x650a7354, 0x766a0abb, 0x81c2c92e, 0x92722c85,
  0xa2bfe8a1, 0xa81a664b, 0xc24b8b70, 0xc76c51a3, 0xd192e819, 0xd6990624, 0xf40e3585, 0x106aa070,
  0x19a4c116, 0x1e376c08, 0x2748774c, 0x34b0bcb5, 0x391c0cb3, 0x4ed8aa4a, 0x5b9cca4f, 0x682e6ff3,
  0x748f82ee, 0x78a5636f, 0x84c87814, 0x8cc70208, 0x90befffa, 0xa4506ceb, 0xbef9a3f7, 0xc67178f2]

/-- `Sha256::round1` (sha2.hpp:312-331). -/
def round1_256 : Round1 32 := fun i0 i1 i2 i3 i4 i5 i6 i7 s w i => do
  let e ← at? s i4
  let h ← at? s i7
  let h := h + (rot32 e 6 ^^^ rot32 e 11 ^^^ rot32 e 25)
  let f ← at? s i5
  let g ← at? s i6
  let h := h + (g ^^^ (e &&& (f ^^^ g)))
  let k ← at? k256 i
  let h := h + k
  let wi ← at? w i
  let h := h + wi
  let d ← at? s i3
  let s ← put s i3 (d + h)
  let a ← at? s i0
  let b ← at? s i1
  let c ← at? s i2
  let h := h + (rot32 a 2 ^^^ rot32 a 13 ^^^ rot32 a 22)
  let h := h + (((a ||| b) &&& c) ||| (a &&& b))
  put s i7 h

/-- The first 16 words (sha2.hpp:339-341); `cnt` words are still to read, `w` holds the words read
so far. -/
def loadW256 (buf : List UInt8) : Nat → List (BitVec 32) → Res (List (BitVec 32))
  | 0, w => .ok w
  | cnt + 1, w => do
    let x ← get32BEMem buf (w.length * 4)
    loadW256 buf cnt (w ++ [BitVec.ofNat 32 x])

/-- The message schedule (sha2.hpp:342-348); `i` is the number of words computed so far. -/
def extW256 : Nat → List (BitVec 32) → Res (List (BitVec 32))
  | 0, w => .ok w
  | cnt + 1, w => do
    let i := w.length
    let t ← at? w (i - 15)
    let s0 := rot32 t 7 ^^^ rot32 t 18 ^^^ (t >>> 3)
    let t ← at? w (i - 2)
    let s1 := rot32 t 17 ^^^ rot32 t 19 ^^^ (t >>> 10)
    let w16 ← at? w (i - 16)
    let w7 ← at? w (i - 7)
    extW256 cnt (w ++ [w16 + s0 + w7 + s1])

/-- `Sha256::round` (sha2.hpp:335-367), effect on `h_`. -/
def comp256 (h : List (BitVec 32)) (buf : List UInt8) : Res (List (BitVec 32)) := do
  let w ← loadW256 buf 16 []
  let w ← extW256 48 w
  let s ← rounds round1_256 w 8 0 h
  return addRegs h s

/-- `Sha256::clear` (sha2.hpp:373-396) on an object whose `roundBuf_` holds `rb`. -/
def clear256 (rb : List UInt8) : St (List (BitVec 32)) where
  totalSize := 0
  roundBufSize := 0
  roundBuf := rb
  h := [0x6a09e667, 0xbb67ae85, 0x3c6ef372, 0xa54ff53a, 0x510e527f, 0x9b05688c, 0x1f83d9ab, 0x5be0cd19]

/-- `Sha256::update` (sha2.hpp:397-400). -/
def update256 (s : St (List (BitVec 32))) (buf : List UInt8) := update 64 comp256 s buf

/-- `Set32bitAsBE(&p[i * 4], h_[i])` for every `i` from `i` on (sha2.hpp:407-409). -/
def out256 : List (BitVec 32) → Nat → List UInt8 → Res (List UInt8)
  | [], _, md => .ok md
  | x :: xs, i, md => do
    let md ← set32BEMem md (i * 4) x.toNat
    out256 xs (i + 1) md

/-- `Sha256::digest` (sha2.hpp:401-411): result, the buffer `md`, the object. -/
def digest256 (s : St (List (BitVec 32))) (md : List UInt8) (mdSize : Nat) (buf : List UInt8) :
    Res (Nat × List UInt8 × St (List (BitVec 32))) :=
  if mdSize < 32 then .ok (0, md, s)
  else do
    let s ← update256 s buf
    let s ← term 64 8 comp256 s
    let md ← out256 s.h 0 md
    return (32, md, s)

/-! ## SHA-512 -/

/-- `rot64` (sha2.hpp:240-247). -/
def rot64 (x : BitVec 64) (s : Nat) : BitVec 64 := (x >>> s) ||| (x <<< (64 - s))

/-- `kTbl` of `Sha512::clear` (sha2.hpp:508-525). -/
def k512 : List (BitVec 64) := [
  0x428a2f98d728ae22, 0x7137449123ef65cd, 0xb5c0fbcfec4d3b2f, 0xe9b5dba58189dbbc, 0x3956c25bf348b538,
  0x59f111f1b605d019, 0x923f82a4af194f9b, 0xab1c5ed5da6d8118, 0xd807aa98a3030242, 0x12835b0145706fbe,
  0x243185be4ee4b28c, 0x550c7dc3d5ffb4e2, 0x72be5d74f27b896f, 0x80deb1fe3b1696b1, 0x9bdc06a725c71235,
  0xc19bf174cf692694, 0xe49b69c19ef14ad2, 0xefbe4786384f25e3, 0x0fc19dc68b8cd5b5, 0x240ca1cc77ac9c65,
  0x2de92c6f592b0275, 0x4a7484aa6ea6e483, 0x5cb0a9dcbd41fbd4, 0x76f988da831153b5, 0x983e5152ee66dfab,
  0xa831c66d2db43210, 0xb00327c898fb213f, 0xbf597fc7beef0ee4, 0xc6e00bf33da88fc2, 0xd5a79147930aa725,
  0x06ca6351e003826f, 0x142929670a0e6e70, 0x27b70a8546d22ffc, 0x2e1b21385c26c926, 0x4d2c6dfc5ac42aed,
  0x53380d139d95b3df, 0x650a73548baf63de, 0x766a0abb3c77b2a8, 0x81c2c92e47edaee6, 0x92722c851482353b,
  0xa2bfe8a14cf10364, 0xa81a664bbc423001, 0xc24b8b70d0f89791, 0xc76c51a30654be30, 0xd192e819d6ef5218,
  0xd69906245565a910, 0xf40e35855771202a, 0x106aa07032bbd1b8, 0x19a4c116b8d2d0c8, 0x1e376c085141ab53,
  0x2748774cdf8eeb99, 0x34b0bcb5e19b48a8, 0x391c0cb3c5c95a63, 0x4ed8aa4ae3418acb, 0x5b9cca4f7763e373,
  0x682e6ff3d6b2b8a3, 0x748f82ee5defb2fc, 0x78a5636f43172f60, 0x84c87814a1f0ab72, 0x8cc702081a6439ec,
  0x90befffa23631e28, 0xa4506cebde82bde9, 0xbef9a3f7b2c67915, 0xc67178f2e372532b, 0xca273eceea26619c,
  0xd186b8c721c0c207, 0xeada7dd6cde0eb1e, 0xf57d4f7fee6ed178, 0x06f067aa72176fba, 0x0a637dc5a2c898a6,
  0x113f9804bef90dae, 0x1b710b35131c471b, 0x28db77f523047d84, 0x32caab7b40c72493, 0x3c9ebe0a15c9bebc,
  0x431d67c49c100d4c, 0x4cc5d4becb3e42b6, 0x597f299cfc657e2a, 0x5fcb6fab3ad6faec, 0x6c44198c4a475817]

/-- `Sha512::round1` (sha2.hpp:443-464). -/
def round1_512 : Round1 64 := fun i0 i1 i2 i3 i4 i5 i6 i7 S w i => do
  let a ← at? S i0
  let b ← at? S i1
  let c ← at? S i2
  let d ← at? S i3
  let e ← at? S i4
  let f ← at? S i5
  let g ← at? S i6
  let h ← at? S i7
  let k ← at? k512 i
  let wi ← at? w i
  let s1 := rot64 e 14 ^^^ rot64 e 18 ^^^ rot64 e 41
  let ch := g ^^^ (e &&& (f ^^^ g))
  let t0 := h + s1 + ch + k + wi
  let s0 := rot64 a 28 ^^^ rot64 a 34 ^^^ rot64 a 39
  let maj := ((a ||| b) &&& c) ||| (a &&& b)
  let t1 := s0 + maj
  let S ← put S i3 (d + t0)
  put S i7 (t0 + t1)

/-- The first 16 words (sha2.hpp:472-474). -/
def loadW512 (buf : List UInt8) : Nat → List (BitVec 64) → Res (List (BitVec 64))
  | 0, w => .ok w
  | cnt + 1, w => do
    let x ← get64BEMem buf (w.length * 8)
    loadW512 buf cnt (w ++ [BitVec.ofNat 64 x])

/-- The message schedule (sha2.hpp:475-481). -/
def extW512 : Nat → List (BitVec 64) → Res (List (BitVec 64))
  | 0, w => .ok w
  | cnt + 1, w => do
    let i := w.length
    let t ← at? w (i - 15)
    let s0 := rot64 t 1 ^^^ rot64 t 8 ^^^ (t >>> 7)
    let t ← at? w (i - 2)
    let s1 := rot64 t 19 ^^^ rot64 t 61 ^^^ (t >>> 6)
    let w16 ← at? w (i - 16)
    let w7 ← at? w (i - 7)
    extW512 cnt (w ++ [w16 + s0 + w7 + s1])

/-- `Sha512::round` (sha2.hpp:468-500), effect on `h_`. -/
def comp512 (h : List (BitVec 64)) (buf : List UInt8) : Res (List (BitVec 64)) := do
  let w ← loadW512 buf 16 []
  let w ← extW512 64 w
  let s ← rounds round1_512 w 10 0 h
  return addRegs h s

/-- `Sha512::clear` (sha2.hpp:506-537). -/
def clear512 (rb : List UInt8) : St (List (BitVec 64)) where
  totalSize := 0
  roundBufSize := 0
  roundBuf := rb
  h := [0x6a09e667f3bcc908, 0xbb67ae8584caa73b, 0x3c6ef372fe94f82b, 0xa54ff53a5f1d36f1,
    0x510e527fade682d1, 0x9b05688c2b3e6c1f, 0x1f83d9abfb41bd6b, 0x5be0cd19137e2179]

/-- `Sha512::update` (sha2.hpp:538-541). -/
def update512 (s : St (List (BitVec 64))) (buf : List UInt8) := update 128 comp512 s buf

/-- `Set64bitAsBE(&p[i * 8], h_[i])` for every `i` from `i` on (sha2.hpp:548-550). -/
def out512 : List (BitVec 64) → Nat → List UInt8 → Res (List UInt8)
  | [], _, md => .ok md
  | x :: xs, i, md => do
    let md ← set64BEMem md (i * 8) x.toNat
    out512 xs (i + 1) md

/-- `Sha512::digest` (sha2.hpp:542-552). -/
def digest512 (s : St (List (BitVec 64))) (md : List UInt8) (mdSize : Nat) (buf : List UInt8) :
    Res (Nat × List UInt8 × St (List (BitVec 64))) :=
  if mdSize < 64 then .ok (0, md, s)
  else do
    let s ← update512 s buf
    let s ← term 128 16 comp512 s
    let md ← out512 s.h 0 md
    return (64, md, s)

/-! ## HMAC -/

/-- `k[i] = k[i] ^ x` for `i < n` (sha2.hpp:594-596, 601-603). -/
def xorLoop (x : UInt8) : Nat → Nat → List UInt8 → Res (List UInt8)
  | 0, _, k => .ok k
  | cnt + 1, i, k => do
    let v ← at? k i
    let k ← put k i (v ^^^ x)
    xorLoop x cnt (i + 1) k

/-- The key, shortened by the hash when it is longer than a block (sha2.hpp:587-593): `k`, the new
`keySize`, the hash object. -/
def hmacKey (hash : St (List (BitVec 32))) (k key : List UInt8) :
    Res (List UInt8 × Nat × St (List (BitVec 32))) :=
  if 64 < key.length then do
    let (_, k, hash) ← digest256 hash k 32 key
    return (k, 32, clear256 hash.roundBuf)
  else do
    let k ← store k 0 key
    return (k, key.length, hash)

/-- `hmac256` (sha2.hpp:581-606); `k0` and `rb0` are the indeterminate contents of the local array
and of the object's buffer, `hmac` the caller's buffer. -/
def hmac256 (k0 rb0 hmac key msg : List UInt8) : Res (List UInt8) := do
  let ipad : UInt8 := 0x36
  let opad : UInt8 := 0x5c
  let (k, keySize, hash) ← hmacKey (clear256 rb0) k0 key
  let k ← xorLoop ipad keySize 0 k
  let k ← store k keySize (List.replicate (64 - keySize) ipad)
  let hash ← update256 hash k
  let (_, hmac, hash) ← digest256 hash hmac 32 msg
  let hash := clear256 hash.roundBuf
  let k ← xorLoop (ipad ^^^ opad) 64 0 k
  let hash ← update256 hash k
  let (_, hmac, _) ← digest256 hash hmac 32 (hmac.take 32)
  return hmac

/-! ## SHA-1 -/

/-- `Sha1::S` (sha1.hpp:29-36). -/
def rotl1 (x : BitVec 32) (s : Nat) : BitVec 32 := (x <<< s) ||| (x >>> (32 - s))
/-- `Sha1::f0` (sha1.hpp:38). -/
def f0 (b c d : BitVec 32) : BitVec 32 := (b &&& c) ||| (~~~b &&& d)
/-- `Sha1::f1` (sha1.hpp:39). -/
def f1 (b c d : BitVec 32) : BitVec 32 := b ^^^ c ^^^ d
/-- `Sha1::f2` (sha1.hpp:40). -/
def f2 (b c d : BitVec 32) : BitVec 32 := (b &&& c) ||| (b &&& d) ||| (c &&& d)
/-- `Sha1::f` (sha1.hpp:41-54). -/
def f1of (t : Nat) (b c d : BitVec 32) : BitVec 32 :=
  if t < 20 then f0 b c d
  else if t < 40 then f1 b c d
  else if t < 60 then f2 b c d
  else f1 b c d

/-- The members of `Sha1` (sha1.hpp:21-27); `digest` is the bytes of `digest_`. -/
structure St1 where
  base : St (List (BitVec 32))
  K : List (BitVec 32)
  digest : List UInt8
  done : Bool

/-- `Sha1::reset` (sha1.hpp:56-74): the table `K_` and the members; `roundBuf_` and `digest_` keep
their contents. -/
def reset1 (rb digest : List UInt8) : St1 where
  base :=
    { totalSize := 0
      roundBufSize := 0
      roundBuf := rb
      h := [0x67452301, 0xefcdab89, 0x98badcfe, 0x10325476, 0xc3d2e1f0] }
  K := ([0x5a827999, 0x6ed9eba1, 0x8f1bbcdc, 0xca62c1d6] : List (BitVec 32)).flatMap fun x =>
    List.replicate 20 x
  digest := digest
  done := false

/-- The first 16 words (sha1.hpp:81-83). -/
def loadW1 (buf : List UInt8) : Nat → List (BitVec 32) → Res (List (BitVec 32))
  | 0, w => .ok w
  | cnt + 1, w => do
    let x ← get32BEMem buf (w.length * 4)
    loadW1 buf cnt (w ++ [BitVec.ofNat 32 x])

/-- The message schedule (sha1.hpp:84-86). -/
def extW1 : Nat → List (BitVec 32) → Res (List (BitVec 32))
  | 0, w => .ok w
  | cnt + 1, w => do
    let i := w.length
    let w3 ← at? w (i - 3)
    let w8 ← at? w (i - 8)
    let w14 ← at? w (i - 14)
    let w16 ← at? w (i - 16)
    extW1 cnt (w ++ [rotl1 (w3 ^^^ w8 ^^^ w14 ^^^ w16) 1])

/-- The 80 rounds (sha1.hpp:92-99). -/
def rounds1 (K w : List (BitVec 32)) :
    Nat → Nat → BitVec 32 → BitVec 32 → BitVec 32 → BitVec 32 → BitVec 32 →
      Res (BitVec 32 × BitVec 32 × BitVec 32 × BitVec 32 × BitVec 32)
  | 0, _, a, b, c, d, e => .ok (a, b, c, d, e)
  | cnt + 1, i, a, b, c, d, e => do
    let wi ← at? w i
    let k ← at? K i
    let tmp := rotl1 a 5 + f1of i b c d + e + wi + k
    rounds1 K w cnt (i + 1) tmp a (rotl1 b 30) c d

/-- `Sha1::round` (sha1.hpp:78-106), effect on `H_`. -/
def comp1 (K h : List (BitVec 32)) (buf : List UInt8) : Res (List (BitVec 32)) := do
  let w ← loadW1 buf 16 []
  let w ← extW1 64 w
  let h0 ← at? h 0
  let h1 ← at? h 1
  let h2 ← at? h 2
  let h3 ← at? h 3
  let h4 ← at? h 4
  let (a, b, c, d, e) ← rounds1 K w 80 0 h0 h1 h2 h3 h4
  return [h0 + a, h1 + b, h2 + c, h3 + d, h4 + e]

/-- The extra block (sha1.hpp:120-123). -/
def term1Extra (K : List (BitVec 32)) (s : St (List (BitVec 32))) (bufSize : Nat)
    (last : List UInt8) : Res (St (List (BitVec 32)) × List UInt8) :=
  if 56 ≤ bufSize then do
    let s ← round 64 (comp1 K) s last
    return (s, List.replicate 64 0)
  else .ok (s, last)

/-- `Sha1::term(roundBuf_, roundBufSize_)` (sha1.hpp:111-132); `last0` is the indeterminate content
of the local array. -/
def term1 (last0 : List UInt8) (o : St1) : Res St1 := do
  let s := o.base
  let bufSize := s.roundBufSize
  assert (bufSize < 64)
  let totalSize := s.totalSize + BitVec.ofNat 64 bufSize
  let last ← store last0 0 (s.roundBuf.take bufSize)
  let last ← store last bufSize (List.replicate (64 - bufSize) 0)
  let last ← wr last bufSize 0x80
  let (s, last) ← term1Extra o.K s bufSize last
  let last ← set32BEMem last 56 (totalSize >>> 29).toNat
  let last ← set32BEMem last 60 ((totalSize * 8).toNat % 2 ^ 32)
  let s ← round 64 (comp1 o.K) s last
  let dg ← out256 s.h 0 o.digest
  return { o with base := s, digest := dg, done := true }

/-- `Sha1::update` (sha1.hpp:138-166). -/
def update1 (o : St1) (buf : List UInt8) : Res St1 :=
  if buf.length = 0 then .ok o
  else do
    assert (!o.done)
    let s ← update 64 (comp1 o.K) o.base buf
    return { o with base := s }

/-- `Sha1::digest` (sha1.hpp:171-179): the 20 bytes of `digest_` and the object after `reset`. -/
def digest1 (last0 : List UInt8) (o : St1) (buf : List UInt8) : Res (List UInt8 × St1) := do
  assert (!o.done)
  let o ← update1 o buf
  let o ← term1 last0 o
  return (o.digest, reset1 o.base.roundBuf o.digest)

end Verif.Sha
