import Verif.Model.BitVector
import Verif.Model.IndexIO

/-!
# Model of `sample/csucvector_smpl.cpp`

The program maps a file, compresses its bits, saves and loads the compressed vector, copies it bit by bit into a plain vector and
compares that with the file.  Left out: the line with the sizes.
-/
namespace Verif.CSucSmpl
open Verif.Stream Verif.IndexIO
open Verif.CSuc (CV)
open Verif.BitVector (BV)

/-- Byte `i` of the mapping: the system fills the last page with zeros. -/
def byteAt (f : List UInt8) (i : Nat) : BitVec 8 := (f.getD i 0).toBitVec

/-- A word of the mapping, lowest byte first (csucvector_smpl.cpp:8). -/
def wordAt (f : List UInt8) (i : Nat) : BitVec 64 :=
  byteAt f (8 * i + 7) ++ byteAt f (8 * i + 6) ++ byteAt f (8 * i + 5) ++ byteAt f (8 * i + 4) ++
    byteAt f (8 * i + 3) ++ byteAt f (8 * i + 2) ++ byteAt f (8 * i + 1) ++ byteAt f (8 * i)

/-- All words of the mapping: whole pages of 4096 bytes. -/
def blk (f : List UInt8) : List (BitVec 64) := (List.range ((f.length + 4095) / 4096 * 512)).map (wordAt f)

/-- Line 22. -/
def copyBit (b : Bool) (bv : BV 64) (i : Nat) : Res (BV 64) := if b then BitVector.set1 bv i else .ok bv

/-- The loop of lines 21-23; `cnt` rounds are left. -/
def fill (cv : CV) : (cnt i : Nat) → BV 64 → Res (BV 64)
  | 0, _, bv => .ok bv
  | cnt + 1, i, bv => do
    let b ← cv.get i
    let bv ← copyBit b bv i
    fill cv cnt (i + 1) bv

/-- The loop of lines 25-30: the `i` of the message, if one is printed. -/
def diff (p q : List (BitVec 64)) : (cnt i : Nat) → Res (Option Nat)
  | 0, _ => .ok none
  | cnt + 1, i => do
    let x ← at? p i
    let y ← at? q i
    if x ≠ y then return some i else diff p q cnt (i + 1)

/-- Lines 19-30 for any vector `cv`. -/
def check (cv : CV) (f : List UInt8) : Res (Option Nat) := do
  let bv ← BitVector.resize BitVector.empty (f.length * 8)
  let bv ← fill cv bv.bitLen 0 bv
  diff bv.v (blk f) bv.v.length 0

/-- `test` (csucvector_smpl.cpp:5-31); `frag` is how the `stringstream` splits its reads. -/
def test (f : List UInt8) (frag : Nat → Nat) : Res (Option Nat) := do
  let cv2 ← CSuc.init .empty (blk f) (f.length * 8)
  let (cv, _) ← loadCV ⟨saveCV cv2, frag, 0⟩
  check cv f

/-- `main` (csucvector_smpl.cpp:33-42): the exit status; an exception is not caught. `mapped` is what `Mmap` gives. -/
def main (args : List (List UInt8)) (mapped : List UInt8 → Option (List UInt8)) (frag : Nat → Nat) : Res Nat :=
  match args with
  | [_, name] =>
    match mapped name with
    | none => .throw
    | some f => do
      let r ← test f frag
      return if r.isSome then 1 else 0
  | _ => .ok 1

end Verif.CSucSmpl
