import Verif.Spec.Endian

/-!
# Streams of random words
-/
namespace Verif.Spec.Random
open Verif.Spec.Endian

/-- The state after `k` calls of a generator. -/
def after {σ ω : Type} (gen : σ → ω × σ) (s : σ) (k : Nat) : σ := Nat.repeat (fun s => (gen s).2) k s

/-- The first `k` results. -/
def outputs {σ ω : Type} (gen : σ → ω × σ) (s : σ) (k : Nat) : List ω :=
  (List.range k).map fun i => (gen (after gen s i)).1

/-- The bytes of the first `k` results, each with its least significant byte first. -/
def outputBytes {σ : Type} {w : Nat} (u : Nat) (gen : σ → BitVec w × σ) (s : σ) (k : Nat) : List UInt8 :=
  (outputs gen s k).flatMap fun x => bytesLE u x.toNat

/-- Marsaglia's sequence (Xorshift RNGs, 2003, section 4): four seeds, then each term from the first and the last of the four before it. -/
def marsaglia (x y z w : BitVec 32) : Nat → BitVec 32
  | 0 => x
  | 1 => y
  | 2 => z
  | 3 => w
  | n + 4 =>
    let a := marsaglia x y z w n
    let b := marsaglia x y z w (n + 3)
    a ^^^ (a <<< 11) ^^^ ((a ^^^ (a <<< 11)) >>> 8) ^^^ b ^^^ (b >>> 19)

/-- A seed, or the default in the place of 0. -/
def seedOr (v d : BitVec 32) : BitVec 32 := if v = 0 then d else v

/-- The words of the reference xorshift128+ with the shifts 23, 18, 5. -/
def plusWord (a b : BitVec 64) : Nat → BitVec 64
  | 0 => a
  | 1 => b
  | n + 2 =>
    let c := plusWord a b n
    let d := plusWord a b (n + 1)
    c ^^^ (c <<< 23) ^^^ ((c ^^^ (c <<< 23)) >>> 18) ^^^ d ^^^ (d >>> 5)

/-- The two words of the reference xoroshiro128+ with the numbers 55, 14, 36. -/
def xoroWords (a b : BitVec 64) : Nat → BitVec 64 × BitVec 64
  | 0 => (a, b)
  | n + 1 =>
    let (c, d) := xoroWords a b n
    (c.rotateLeft 55 ^^^ c ^^^ d ^^^ ((c ^^^ d) <<< 14), (c ^^^ d).rotateLeft 36)

end Verif.Spec.Random
