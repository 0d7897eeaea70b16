import Verif.Model.BitVector

/-!
# A `BitVectorT` as its own argument (`include/cybozu/bitvector.hpp:256-323`)

The same functions as in `Verif/Model/BitVector.lean` with source and destination in the same storage.  The storage of a `std::vector` has
a capacity; `resize` to more words than that moves them and frees the old storage, to at most that many it does not (this is what the
standard says).  Reading freed storage is undefined.
-/
namespace Verif.BitVectorOwn
open Verif.BitVector

/-- The loop of `CopyBit` (bitvector.hpp:61) with `dst` at word `off` and `src` at word `k` of the same storage. -/
def copyLoop {w : Nat} (off k : Nat) : (cnt i : Nat) → List (BitVec w) → Res (List (BitVec w))
  | 0, _, v => .ok v
  | cnt + 1, i, v => do
    let x ← at? v (k + i)
    let v ← setAt? v (off + i) x
    copyLoop off k cnt (i + 1) v

/-- `CopyBit` (bitvector.hpp:55-64) in one storage. -/
def copyBit {w : Nat} (v : List (BitVec w)) (off k bitLen : Nat) : Res (List (BitVec w)) := do
  let q := bitLen / w
  let r := bitLen % w
  let v ← copyLoop off k q 0 v
  if r = 0 then return v
  let x ← at? v (k + q)
  setAt? v (off + q) (x &&& getMaskBit w r)

/-- The loop of `shiftLeftBit` (bitvector.hpp:137-141) in one storage. -/
def shiftLeftLoop {w : Nat} (off k shift : Nat) : (i : Nat) → List (BitVec w) → BitVec w → Res (List (BitVec w) × BitVec w)
  | 0, v, prev => .ok (v, prev)
  | i + 1, v, prev => do
    let x ← at? v (k + i)
    let v ← setAt? v (off + (i + 1)) ((prev <<< shift) ||| (x >>> (w - shift)))
    shiftLeftLoop off k shift i v x

/-- `shiftLeftBit` (bitvector.hpp:119-144) in one storage. -/
def shiftLeftBit {w : Nat} (v : List (BitVec w)) (off k bitLen shift : Nat) : Res (List (BitVec w)) :=
  if bitLen = 0 ∨ shift = 0 ∨ w ≤ shift then .ub else do
  let dstN := roundupBit w (bitLen + shift)
  let srcN := roundupBit w bitLen
  let mask := lastMask w (bitLen % w)
  let x ← at? v (k + (srcN - 1))
  let prev := x &&& mask
  let v ← putExtra v off dstN srcN (prev >>> (w - shift))
  let (v, prev) ← shiftLeftLoop off k shift (srcN - 1) v prev
  let d0 ← at? v off
  let ext := d0 &&& getMaskBit w shift
  setAt? v off ((prev <<< shift) ||| ext)

/-- `append(getBlock() + k, bitLen)` (bitvector.hpp:256-267): the source is a part of the vector itself, from word `k` on; `cap` is the
capacity of the storage before the call. -/
def appendOwn {w : Nat} (st : BV w) (cap k bitLen : Nat) : Res (BV w) :=
  if bitLen = 0 then .ok st else do
  let q := st.bitLen / w
  let r := st.bitLen % w
  let st ← resize st ((st.bitLen + bitLen) % 2 ^ 64)
  if cap < st.v.length then .ub      -- the source was freed by `resize`
  else if r = 0 then
    let v ← copyBit st.v q k bitLen
    return ⟨st.bitLen, v⟩
  else
    let v ← shiftLeftBit st.v q k bitLen r
    return ⟨st.bitLen, v⟩

/-- `v.append(v)` (bitvector.hpp:295-298). -/
def appendSelf {w : Nat} (st : BV w) (cap : Nat) : Res (BV w) := appendOwn st cap 0 st.bitLen

/-- The loop of `shiftRightBit` (bitvector.hpp:173-177) in one storage, `dst` at its beginning. -/
def shiftRightLoop {w : Nat} (soff shift : Nat) : (cnt i : Nat) → List (BitVec w) → BitVec w → Res (List (BitVec w) × BitVec w)
  | 0, _, v, prev => .ok (v, prev)
  | cnt + 1, i, v, prev => do
    let x ← at? v (soff + (i + 1))
    let v ← setAt? v i ((prev >>> shift) ||| (x <<< (w - shift)))
    shiftRightLoop soff shift cnt (i + 1) v x

/-- `shiftRightBit` (bitvector.hpp:155-184) in one storage. -/
def shiftRightBit {w : Nat} (v : List (BitVec w)) (soff bitLen shift : Nat) : Res (List (BitVec w)) :=
  if bitLen = 0 ∨ shift = 0 ∨ w ≤ shift then .ub else do
  let dstN := roundupBit w bitLen
  let srcN := roundupBit w (bitLen + shift)
  let mask := lastMask w ((bitLen + shift) % w)
  if srcN = 1 then
    let x ← at? v soff
    setAt? v 0 ((x &&& mask) >>> shift)
  else
    let prev ← at? v soff
    let (v, prev) ← shiftRightLoop soff shift (srcN - 2) 0 v prev
    let x ← at? v (soff + (srcN - 1))
    let y := x &&& mask
    let v ← setAt? v (srcN - 2) ((prev >>> shift) ||| (y <<< (w - shift)))
    if srcN = dstN then setAt? v (srcN - 1) (y >>> shift) else return v

/-- `v.extract(v.getBlock(), pos, bitLen)` (bitvector.hpp:302-315): the words of the vector afterwards; its size stays. -/
def extractOwn {w : Nat} (st : BV w) (pos bitLen : Nat) : Res (BV w) :=
  if bitLen = 0 then .ok st
  else if (pos + bitLen) % 2 ^ 64 > st.bitLen then .throw
  else
    let q := pos / w
    let r := pos % w
    if r = 0 then do
      let v ← copyBit st.v 0 q bitLen
      return ⟨st.bitLen, v⟩
    else do
      let v ← shiftRightBit st.v q bitLen r
      return ⟨st.bitLen, v⟩

/-- `v.extract(v, pos, bitLen)` (bitvector.hpp:319-323): whether it returned, and the vector.  `resize` comes first, also when the call
throws. -/
def extractSelf {w : Nat} (st : BV w) (pos bitLen : Nat) : Res (Bool × BV w) := do
  let st ← resize st bitLen
  match extractOwn st pos bitLen with
  | .ok st => return (true, st)
  | .throw => return (false, st)
  | .ub => .ub

end Verif.BitVectorOwn
