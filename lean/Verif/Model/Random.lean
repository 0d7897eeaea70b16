import Verif.Model.Endian

/-!
# Model of `include/cybozu/xorshift.hpp`, `pcg.hpp` and `shuffle` of `random_generator.hpp`

`RandomGenerator` itself (the operating system's generator) is in `Model/RandGen`.
-/
namespace Verif.Random
open Verif.Endian

/-- `XorShift::x_, y_, z_, w_` (xorshift.hpp:52). -/
structure Xs where
  (x y z w : BitVec 32)
deriving DecidableEq

/-- `XorShift::init` (xorshift.hpp:58-64). -/
def Xs.init (x y z w : BitVec 32) : Xs where
  x := if x ≠ 0 then x else 123456789
  y := if y ≠ 0 then y else 362436069
  z := if z ≠ 0 then z else 521288629
  w := if w ≠ 0 then w else 88675123

/-- `XorShift::get32` (xorshift.hpp:65-70): the result and the new state. -/
def Xs.get32 (s : Xs) : BitVec 32 × Xs :=
  let t := s.x ^^^ (s.x <<< 11)
  let w := (s.w ^^^ (s.w >>> 19)) ^^^ (t ^^^ (t >>> 8))
  (w, { x := s.y, y := s.z, z := s.w, w := w })

/-- `XorShift::get64` (xorshift.hpp:72-77). -/
def Xs.get64 (s : Xs) : BitVec 64 × Xs :=
  let (a, s) := s.get32
  let (b, s) := s.get32
  ((a.setWidth 64 <<< 32) ||| b.setWidth 64, s)

/-- `s_[0], s_[1]` of `XorShift128Plus` (xorshift.hpp:96) and `Xoroshiro128Plus` (xorshift.hpp:141). -/
structure S2 where
  (s0 s1 : BitVec 64)
deriving DecidableEq

/-- `XorShift128Plus::init` (xorshift.hpp:104-108) and `Xoroshiro128Plus::init`
(xorshift.hpp:153-157). -/
def S2.init (s0 s1 : BitVec 64) : S2 := { s0 := s0, s1 := s1 }

/-- `XorShift128Plus::get64` (xorshift.hpp:114-122). -/
def plusGet64 (s : S2) : BitVec 64 × S2 :=
  let s1 := s.s0
  let s0 := s.s1
  let s1 := s1 ^^^ (s1 <<< 23)
  let n1 := s1 ^^^ s0 ^^^ (s1 >>> 18) ^^^ (s0 >>> 5)
  (n1 + s0, { s0 := s0, s1 := n1 })

/-- `Xoroshiro128Plus::rotl` (xorshift.hpp:144-147). -/
def rotl (x : BitVec 64) (k : Nat) : BitVec 64 := (x <<< k) ||| (x >>> (64 - k))

/-- `Xoroshiro128Plus::get64` (xorshift.hpp:163-172). -/
def xoroGet64 (s : S2) : BitVec 64 × S2 :=
  let s0 := s.s0
  let s1 := s.s1
  let result := s0 + s1
  let s1 := s1 ^^^ s0
  (result, { s0 := rotl s0 55 ^^^ s1 ^^^ (s1 <<< 14), s1 := rotl s1 36 })

/-- The copy of a whole word (xorshift.hpp:33-35) or of its first `cnt` bytes (43-45) to `dst + off`,
byte by byte; `a` are the bytes of the union. -/
def copyBytes (a : List UInt8) : Nat → Nat → Nat → List UInt8 → Res (List UInt8)
  | 0, _, _, buf => .ok buf
  | cnt + 1, i, off, buf => do
    let x ← at? a i
    let buf ← wr buf (off + i) x.toNat
    copyBytes a cnt (i + 1) off buf

/-- `read_local` (xorshift.hpp:19-47) on a little-endian machine: fills `n` bytes of `buf` from
`off` on.  `gen` is `(gen.*f)()`, `u` is `sizeof(U)`.  `fuel` bounds the rounds of the loop. -/
def readLocal {σ : Type} {w : Nat} (u : Nat) (gen : σ → BitVec w × σ) :
    Nat → σ → Nat → Nat → List UInt8 → Res (List UInt8 × σ)
  | 0, _, _, _, _ => .ub
  | fuel + 1, s, off, n, buf =>
    if u ≤ n then do
      let (x, s) := gen s
      let buf ← copyBytes (memBytes u x.toNat) u 0 off buf
      readLocal u gen fuel s (off + u) (n - u) buf
    else if 0 < n then do
      let (x, s) := gen s
      let buf ← copyBytes (memBytes u x.toNat) n 0 off buf
      return (buf, s)
    else .ok (buf, s)

/-- `Pcg32::get32`, the state (pcg.hpp:36-37). -/
def pcgStep (old : BitVec 64) : BitVec 64 := old * 6364136223846793005 + 0x6d

/-- `Pcg32::rotr`, portable version (pcg.hpp:26). -/
def rotr (x : BitVec 32) (r : BitVec 32) : BitVec 32 :=
  (x >>> r.toNat) ||| (x <<< ((-r) &&& 31).toNat)

/-- `Pcg32::get32` (pcg.hpp:34-41): the result and the new state. -/
def pcgGet32 (old : BitVec 64) : BitVec 32 × BitVec 64 :=
  let x := (((old >>> 18) ^^^ old) >>> 27).setWidth 32
  let r := (old >>> 59).setWidth 32
  (rotr x r, pcgStep old)

/-- `Pcg32::get64` (pcg.hpp:43-48). -/
def pcgGet64 (s : BitVec 64) : BitVec 64 × BitVec 64 :=
  let (a, s) := pcgGet32 s
  let (b, s) := pcgGet32 s
  ((a.setWidth 64 <<< 32) ||| b.setWidth 64, s)

/-- `v[i] = x`. -/
def putAt {α : Type} (v : List α) (i : Nat) (x : α) : Res (List α) :=
  if i < v.length then .ok (v.set i x) else .ub

/-- The loops of `Pcg32::read` (pcg.hpp:55-57, 61-63, 67-69): `x[i] = get()`, `cnt` rounds left. -/
def pcgFill {α : Type} (get : BitVec 64 → α × BitVec 64) : (cnt i : Nat) → BitVec 64 → List α → Res (List α × BitVec 64)
  | 0, _, s, x => .ok (x, s)
  | cnt + 1, i, s, x => do
    let r := get s
    let x ← putAt x i r.1
    pcgFill get cnt (i + 1) r.2 x

/-- `static_cast<uint8_t>(get32())` (pcg.hpp:56). -/
def pcgGet8 (s : BitVec 64) : BitVec 8 × BitVec 64 := ((pcgGet32 s).1.setWidth 8, (pcgGet32 s).2)

/-- `Pcg32::read(T*, n)` (pcg.hpp:50-58); the `static_cast` of the pointer is accepted by the compiler for `T = uint8_t` only. -/
def pcgRead8 (s : BitVec 64) (x : List (BitVec 8)) (n : Nat) : Res (List (BitVec 8) × BitVec 64) := pcgFill pcgGet8 n 0 s x

/-- `Pcg32::read(uint32_t*, n)` (pcg.hpp:59-64). -/
def pcgRead32 (s : BitVec 64) (x : List (BitVec 32)) (n : Nat) : Res (List (BitVec 32) × BitVec 64) := pcgFill pcgGet32 n 0 s x

/-- `Pcg32::read(uint64_t*, n)` (pcg.hpp:65-70). -/
def pcgRead64 (s : BitVec 64) (x : List (BitVec 64)) (n : Nat) : Res (List (BitVec 64) × BitVec 64) := pcgFill pcgGet64 n 0 s x

/-- `swap(v[i], v[r])` (random_generator.hpp:135). -/
def swapAt {α : Type} (v : List α) (i r : Nat) : Res (List α) := do
  let a ← at? v i
  let b ← at? v r
  let v ← putAt v i b
  putAt v r a

/-- The loop of `shuffle` (random_generator.hpp:132-136); `g` is the stream of results of
`rg.get64()` (64-bit values), `cnt` the number of rounds left. -/
def shuffleLoop {α : Type} (n : Nat) : Nat → Nat → (Nat → BitVec 64) → List α → Res (List α)
  | 0, _, _, v => .ok v
  | cnt + 1, i, g, v => do
    let r := i + (g i).toNat % (n - i)
    let v ← swapAt v i r
    shuffleLoop n cnt (i + 1) g v

/-- `shuffle` (random_generator.hpp:128-137); the `i`-th call of `rg.get64()` gives `g i`. -/
def shuffle {α : Type} (v : List α) (g : Nat → BitVec 64) : Res (List α) :=
  if v.length ≤ 1 then .ok v else shuffleLoop v.length (v.length - 1) 0 g v

end Verif.Random
