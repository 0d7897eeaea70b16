import Verif.Model.Endian

/-!
# Model of `include/cybozu/siphash.hpp` and `include/cybozu/hash.hpp`

`uint32_t`/`uint64_t` values are `BitVec 32`/`BitVec 64`; the message is a list of bytes.
-/
namespace Verif.Hash
open Verif.Endian

/-- `siphash_local::rotate` (siphash.hpp:15-18). -/
def rotate (x : BitVec 64) (b : Nat) : BitVec 64 := (x <<< b) ||| (x >>> (64 - b))

/-- `siphash_local::halfRound` (siphash.hpp:20-26): the new values of `a, b, c, d`. -/
def halfRound (a b c d : BitVec 64) (s t : Nat) : BitVec 64 × BitVec 64 × BitVec 64 × BitVec 64 :=
  let a := a + b
  let c := c + d
  let b := rotate b s ^^^ a
  let d := rotate d t ^^^ c
  let a := rotate a 32
  (a, b, c, d)

/-- The four variables `v0, v1, v2, v3` (siphash.hpp:40-43). -/
structure V where
  (v0 v1 v2 v3 : BitVec 64)

/-- `halfRound(v0, v1, v2, v3, 13, 16)` (siphash.hpp:30, 32). -/
def half1 (v : V) : V :=
  let (a, b, c, d) := halfRound v.v0 v.v1 v.v2 v.v3 13 16
  { v0 := a, v1 := b, v2 := c, v3 := d }

/-- `halfRound(v2, v1, v0, v3, 17, 21)` (siphash.hpp:31, 33). -/
def half2 (v : V) : V :=
  let (a, b, c, d) := halfRound v.v2 v.v1 v.v0 v.v3 17 21
  { v2 := a, v1 := b, v0 := c, v3 := d }

/-- `siphash_local::doubleRound` (siphash.hpp:28-34). -/
def doubleRound (v : V) : V := half2 (half1 (half2 (half1 v)))

/-- The loop over whole words (siphash.hpp:48-54): the variables and the rest of the input.  The
first argument bounds the number of rounds; running out of it is `.ub`. -/
def sipLoop : Nat → V → List UInt8 → Res (V × List UInt8)
  | 0, _, _ => .ub
  | fuel + 1, v, inp =>
    if 8 ≤ inp.length then do
      let x ← get64LEMem inp 0
      let mi := BitVec.ofNat 64 x
      let v := { v with v3 := v.v3 ^^^ mi }
      let v := doubleRound v
      let v := { v with v0 := v.v0 ^^^ mi }
      sipLoop fuel v (inp.drop 8)
    else .ok (v, inp)

/-- The cases of the `switch` from `case n` down, all falling through (siphash.hpp:57-63):
`case n: b |= uint64_t(in[n - 1]) << (8 * (n - 1))`. -/
def sipTail (inp : List UInt8) : Nat → BitVec 64 → Res (BitVec 64)
  | 0, b => .ok b
  | n + 1, b => do
    let x ← at? inp n
    sipTail inp n (b ||| (BitVec.ofNat 64 x.toNat <<< (8 * n)))

/-- The `switch` (siphash.hpp:56-64); there is no case above 7. -/
def sipSwitch (inp : List UInt8) (b : BitVec 64) : Res (BitVec 64) :=
  if inp.length ≤ 7 then sipTail inp inp.length b else .ok b

/-- `siphash24` (siphash.hpp:38-72). -/
def siphash24 (src : List UInt8) (k0 k1 : BitVec 64) : Res (BitVec 64) := do
  let v : V :=
    { v0 := k0 ^^^ 0x736f6d6570736575
      v1 := k1 ^^^ 0x646f72616e646f6d
      v2 := k0 ^^^ 0x6c7967656e657261
      v3 := k1 ^^^ 0x7465646279746573 }
  let b := BitVec.ofNat 64 src.length <<< 56
  let (v, inp) ← sipLoop (src.length + 1) v src
  let b ← sipSwitch inp b
  let v := { v with v3 := v.v3 ^^^ b }
  let v := doubleRound v
  let v := { v with v0 := v.v0 ^^^ b, v2 := v.v2 ^^^ 0xff }
  let v := doubleRound v
  let v := doubleRound v
  return (v.v0 ^^^ v.v1) ^^^ (v.v2 ^^^ v.v3)

/-- `while (begin != end) { v = body(v, *begin++); }` (hash.hpp:10-13, 20-23). -/
def iter {α β : Type} (body : β → α → β) : List α → β → β
  | [], v => v
  | x :: xs, v => iter body xs (body v x)

/-- `v ^= *begin++; v *= 16777619` (hash.hpp:11-12). -/
def step32 (v c : BitVec 32) : BitVec 32 := (v ^^^ c) * 16777619

/-- The loop of `hash32` (hash.hpp:10-13); `conv` is the conversion of the element type to
`uint32_t`. -/
def loop32 {α : Type} (conv : α → BitVec 32) (l : List α) (v : BitVec 32) : BitVec 32 :=
  iter (fun v x => step32 v (conv x)) l v

/-- `hash32` (hash.hpp:6-15; 27-31 forwards). -/
def hash32 {α : Type} (conv : α → BitVec 32) (l : List α) (v : BitVec 32) : BitVec 32 :=
  let v := if v = 0 then 2166136261 else v
  loop32 conv l v

/-- `v ^= *begin++; v *= 1099511628211ULL` (hash.hpp:21-22). -/
def step64 (v c : BitVec 64) : BitVec 64 := (v ^^^ c) * 1099511628211

/-- The loop of `hash64` (hash.hpp:20-23). -/
def loop64 {α : Type} (conv : α → BitVec 64) (l : List α) (v : BitVec 64) : BitVec 64 :=
  iter (fun v x => step64 v (conv x)) l v

/-- `hash64` (hash.hpp:16-26; 32-36 forwards). -/
def hash64 {α : Type} (conv : α → BitVec 64) (l : List α) (v : BitVec 64) : BitVec 64 :=
  let v := if v = 0 then 14695981039346656037 else v
  let v := loop64 conv l v
  v ^^^ (v >>> 32)

/-- Conversion of `uint8_t` to an unsigned type of `n` bits. -/
def ofU8 (n : Nat) (x : UInt8) : BitVec n := BitVec.ofNat n x.toNat

/-- Conversion of `char` (signed, as on x86) to an unsigned type of `n` bits: sign extension. -/
def ofChar (n : Nat) (x : UInt8) : BitVec n := x.toBitVec.signExtend n

end Verif.Hash
