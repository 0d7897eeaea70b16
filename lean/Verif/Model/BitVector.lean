import Verif.Model.Common

/-!
# Model of `include/cybozu/bitvector.hpp`

`T` is an unsigned integer type of `w` bits, modelled as `BitVec w`.  `size_t` arithmetic is modulo
`2^64`.  Arrays and `std::vector` are lists; an access outside is `ub`.  Not modelled: `reserve`
and allocation failure.  A vector as its own argument is in `Verif/Model/BitVectorOwn.lean`.
-/
namespace Verif.BitVector

/-- `buf[i] = x`. -/
def setAt? {α : Type} (l : List α) (i : Nat) (x : α) : Res (List α) :=
  if i < l.length then .ok (l.set i x) else .ub

/-- `RoundupBit` (bitvector.hpp:16-21), `size_t` arithmetic. -/
def roundupBit (w bitLen : Nat) : Nat := ((bitLen + w - 1) % 2 ^ 64) / w

/-- `GetMaskBit` (bitvector.hpp:23-28).  Callers keep `bitLen < w`. -/
def getMaskBit (w bitLen : Nat) : BitVec w := ((1 : BitVec w) <<< bitLen) - 1

/-- `SetBlockBit` (bitvector.hpp:30-37). -/
def setBlockBit {w : Nat} (buf : List (BitVec w)) (pos : Nat) : Res (List (BitVec w)) := do
  let q := pos / w
  let r := pos % w
  let x ← at? buf q
  setAt? buf q (x ||| ((1 : BitVec w) <<< r))

/-- `ResetBlockBit` (bitvector.hpp:38-45). -/
def resetBlockBit {w : Nat} (buf : List (BitVec w)) (pos : Nat) : Res (List (BitVec w)) := do
  let q := pos / w
  let r := pos % w
  let x ← at? buf q
  setAt? buf q (x &&& ~~~((1 : BitVec w) <<< r))

/-- `GetBlockBit` (bitvector.hpp:46-53). -/
def getBlockBit {w : Nat} (buf : List (BitVec w)) (pos : Nat) : Res Bool := do
  let q := pos / w
  let r := pos % w
  let x ← at? buf q
  return (x &&& ((1 : BitVec w) <<< r)) ≠ 0

/-- The loop `for (i = 0; i < q; i++) dst[i] = src[i]` of `CopyBit` (bitvector.hpp:61); `dst` starts at
word `off` of the list; `i` is the next index, `cnt` the number of iterations left. -/
def copyLoop {w : Nat} (off : Nat) (src : List (BitVec w)) :
    (cnt i : Nat) → List (BitVec w) → Res (List (BitVec w))
  | 0, _, dst => .ok dst
  | cnt + 1, i, dst => do
    let x ← at? src i
    let dst ← setAt? dst (off + i) x
    copyLoop off src cnt (i + 1) dst

/-- `CopyBit` (bitvector.hpp:55-64); `dst` starts at word `off` of the list. -/
def copyBit {w : Nat} (dst : List (BitVec w)) (off : Nat) (src : List (BitVec w)) (bitLen : Nat) :
    Res (List (BitVec w)) := do
  let q := bitLen / w
  let r := bitLen % w
  let dst ← copyLoop off src q 0 dst
  if r = 0 then return dst
  let x ← at? src q
  setAt? dst (off + q) (x &&& getMaskBit w r)

/-- The mask of the last word: `r ? GetMaskBit<T>(r) : T(-1)` (bitvector.hpp:83, 130, 166). -/
def lastMask (w r : Nat) : BitVec w := if r ≠ 0 then getMaskBit w r else BitVec.allOnes w

/-- The loop of `shiftLeftBit` (bitvector.hpp:137-141), `i` counting down to 0; returns `dst` and
`prev`. -/
def shiftLeftLoop {w : Nat} (off : Nat) (src : List (BitVec w)) (shift : Nat) :
    (i : Nat) → List (BitVec w) → BitVec w → Res (List (BitVec w) × BitVec w)
  | 0, dst, prev => .ok (dst, prev)
  | i + 1, dst, prev => do
    let v ← at? src i
    let dst ← setAt? dst (off + (i + 1)) ((prev <<< shift) ||| (v >>> (w - shift)))
    shiftLeftLoop off src shift i dst v

/-- `if (dstN > srcN) dst[dstN - 1] = prev >> revShift;` (bitvector.hpp:134-136). -/
def putExtra {w : Nat} (dst : List (BitVec w)) (off dstN srcN : Nat) (x : BitVec w) :
    Res (List (BitVec w)) :=
  if dstN > srcN then setAt? dst (off + (dstN - 1)) x else .ok dst

/-- `bitvector_local::shiftLeftBit` (bitvector.hpp:119-144).  The two assertions are `ub` here. -/
def shiftLeftBit {w : Nat} (dst : List (BitVec w)) (off : Nat) (src : List (BitVec w))
    (bitLen shift : Nat) : Res (List (BitVec w)) :=
  if bitLen = 0 ∨ shift = 0 ∨ w ≤ shift then .ub else do
  let dstN := roundupBit w (bitLen + shift)
  let srcN := roundupBit w bitLen
  let mask := lastMask w (bitLen % w)
  let x ← at? src (srcN - 1)
  let prev := x &&& mask
  let dst ← putExtra dst off dstN srcN (prev >>> (w - shift))
  let (dst, prev) ← shiftLeftLoop off src shift (srcN - 1) dst prev
  let d0 ← at? dst off
  let ext := d0 &&& getMaskBit w shift
  setAt? dst off ((prev <<< shift) ||| ext)

/-- The loop of `shiftRightBit` (bitvector.hpp:173-177). -/
def shiftRightLoop {w : Nat} (src : List (BitVec w)) (soff shift : Nat) :
    (cnt i : Nat) → List (BitVec w) → BitVec w → Res (List (BitVec w) × BitVec w)
  | 0, _, dst, prev => .ok (dst, prev)
  | cnt + 1, i, dst, prev => do
    let v ← at? src (soff + (i + 1))
    let dst ← setAt? dst i ((prev >>> shift) ||| (v <<< (w - shift)))
    shiftRightLoop src soff shift cnt (i + 1) dst v

/-- `bitvector_local::shiftRightBit` (bitvector.hpp:155-184); `src` starts at word `soff`. -/
def shiftRightBit {w : Nat} (dst : List (BitVec w)) (src : List (BitVec w)) (soff : Nat)
    (bitLen shift : Nat) : Res (List (BitVec w)) :=
  if bitLen = 0 ∨ shift = 0 ∨ w ≤ shift then .ub else do
  let dstN := roundupBit w bitLen
  let srcN := roundupBit w (bitLen + shift)
  let mask := lastMask w ((bitLen + shift) % w)
  if srcN = 1 then
    let x ← at? src soff
    setAt? dst 0 ((x &&& mask) >>> shift)
  else
    let prev ← at? src soff
    let (dst, prev) ← shiftRightLoop src soff shift (srcN - 2) 0 dst prev
    let x ← at? src (soff + (srcN - 1))
    let v := x &&& mask
    let dst ← setAt? dst (srcN - 2) ((prev >>> shift) ||| (v <<< (w - shift)))
    if srcN = dstN then setAt? dst (srcN - 1) (v >>> shift) else return dst

/-- Data members of `BitVectorT` (bitvector.hpp:189-192). -/
structure BV (w : Nat) where
  bitLen : Nat
  v : List (BitVec w)
  deriving DecidableEq, Repr

/-- Default constructor (bitvector.hpp:195). -/
def empty {w : Nat} : BV w := ⟨0, []⟩

/-- `std::vector::resize(n)`: truncates or appends zeros. -/
def vresize {w : Nat} (v : List (BitVec w)) (n : Nat) : List (BitVec w) :=
  v.take n ++ List.replicate (n - v.length) 0

/-- `resize` (bitvector.hpp:205-214). -/
def resize {w : Nat} (st : BV w) (bitLen : Nat) : Res (BV w) := do
  let n := roundupBit w bitLen
  let r := bitLen % w
  let v := vresize st.v n
  if r ≠ 0 then
    if n = 0 then .ub else
    let x ← at? v (n - 1)
    let v ← setAt? v (n - 1) (x &&& getMaskBit w r)
    return ⟨bitLen, v⟩
  else return ⟨bitLen, v⟩

/-- `init` (bitvector.hpp:200-204): resize, then overwrite all words by `buf`. -/
def init {w : Nat} (st : BV w) (buf : List (BitVec w)) (bitLen : Nat) : Res (BV w) := do
  let st ← resize st bitLen
  if st.v.length ≤ buf.length then return ⟨st.bitLen, buf.take st.v.length⟩ else .ub

/-- `get` (bitvector.hpp:219-223). -/
def get {w : Nat} (st : BV w) (idx : Nat) : Res Bool :=
  if idx ≥ st.bitLen then .throw else getBlockBit st.v idx

/-- `clear` (bitvector.hpp:224-228). -/
def clear {w : Nat} (_ : BV w) : BV w := ⟨0, []⟩

/-- `set(idx)` (bitvector.hpp:238-242). -/
def set1 {w : Nat} (st : BV w) (idx : Nat) : Res (BV w) :=
  if idx ≥ st.bitLen then .throw else do
  let v ← setBlockBit st.v idx
  return ⟨st.bitLen, v⟩

/-- `reset(idx)` (bitvector.hpp:244-248). -/
def reset {w : Nat} (st : BV w) (idx : Nat) : Res (BV w) :=
  if idx ≥ st.bitLen then .throw else do
  let v ← resetBlockBit st.v idx
  return ⟨st.bitLen, v⟩

/-- `set(idx, b)` (bitvector.hpp:229-236). -/
def set {w : Nat} (st : BV w) (idx : Nat) (b : Bool) : Res (BV w) :=
  if b then set1 st idx else reset st idx

/-- `append(const T*, bitLen)` (bitvector.hpp:256-267).  `&v_[q]` with `q == v_.size()` cannot occur
because `bitLen > 0`. -/
def appendPtr {w : Nat} (st : BV w) (src : List (BitVec w)) (bitLen : Nat) : Res (BV w) :=
  if bitLen = 0 then .ok st else do
  let q := st.bitLen / w
  let r := st.bitLen % w
  let st ← resize st ((st.bitLen + bitLen) % 2 ^ 64)
  if r = 0 then
    let v ← copyBit st.v q src bitLen
    return ⟨st.bitLen, v⟩
  else
    let v ← shiftLeftBit st.v q src bitLen r
    return ⟨st.bitLen, v⟩

/-- `append(uint64_t, bitLen)` (bitvector.hpp:271-291).  `src` is 64 bits wide whatever `w` is;
`src &= GetMaskBit<T>(bitLen)` zero-extends the mask. -/
def appendWord {w : Nat} (st : BV w) (src : BitVec 64) (bitLen : Nat) : Res (BV w) :=
  if bitLen = 0 then .ok st
  else if bitLen > w then .throw
  else do
  let src := if bitLen < w then src &&& (getMaskBit w bitLen).setWidth 64 else src
  let q := st.bitLen / w
  let r := st.bitLen % w
  let st ← resize st ((st.bitLen + bitLen) % 2 ^ 64)
  if r = 0 then
    let v ← setAt? st.v q (src.setWidth w)
    return ⟨st.bitLen, v⟩
  else
    let x ← at? st.v q
    let v ← setAt? st.v q (x ||| (src <<< r).setWidth w)
    if r + bitLen > w then
      let v ← setAt? v (q + 1) ((src >>> (w - r)).setWidth w)
      return ⟨st.bitLen, v⟩
    else return ⟨st.bitLen, v⟩

/-- `append(const BitVectorT&)` (bitvector.hpp:295-298) of another vector. -/
def appendVec {w : Nat} (st : BV w) (o : BV w) : Res (BV w) := appendPtr st o.v o.bitLen

/-- `extract(T*, pos, bitLen)` (bitvector.hpp:302-315). -/
def extractPtr {w : Nat} (st : BV w) (dst : List (BitVec w)) (pos bitLen : Nat) :
    Res (List (BitVec w)) :=
  if bitLen = 0 then .ok dst
  else if (pos + bitLen) % 2 ^ 64 > st.bitLen then .throw
  else
    let q := pos / w
    let r := pos % w
    if r = 0 then copyBit dst 0 (st.v.drop q) bitLen
    else shiftRightBit dst st.v q bitLen r

/-- `extract(BitVectorT&, pos, bitLen)` (bitvector.hpp:319-323). -/
def extractVec {w : Nat} (st : BV w) (dst : BV w) (pos bitLen : Nat) : Res (BV w) := do
  let d ← resize dst bitLen
  let v ← extractPtr st d.v pos bitLen
  return ⟨d.bitLen, v⟩

/-- `T extract(pos, bitLen)` (bitvector.hpp:327-347). -/
def extractWord {w : Nat} (st : BV w) (pos bitLen : Nat) : Res (BitVec w) :=
  if bitLen = 0 then .ok 0
  else if bitLen > w ∨ (pos + bitLen) % 2 ^ 64 > st.bitLen then .throw
  else do
    let q := pos / w
    let r := pos % w
    let x ← at? st.v q
    let v ←
      if r = 0 then pure x
      else if q = st.v.length - 1 then pure (x >>> r)
      else do
        let y ← at? st.v (q + 1)
        pure ((x >>> r) ||| (y <<< (w - r)))
    if bitLen < w then return v &&& getMaskBit w bitLen else return v

/-- `operator==` (bitvector.hpp:348). -/
def eq {w : Nat} (a b : BV w) : Bool := a.v == b.v

end Verif.BitVector

namespace Verif.BitVector

/-- `src[i]` where `src` may be the same array as `dst` (`same`). -/
def rdSrc {w : Nat} (same : Bool) (src dst : List (BitVec w)) (i : Nat) : Res (BitVec w) :=
  at? (if same then dst else src) i

/-- The copy loop of `ShiftLeftBit` for shift 0 (bitvector.hpp:89-91), `i` counting down to 1. -/
def shiftLeftPubCopy {w : Nat} (same : Bool) (src : List (BitVec w)) :
    (i : Nat) → List (BitVec w) → Res (List (BitVec w))
  | 0, dst => .ok dst
  | i + 1, dst => do
    let x ← rdSrc same src dst (i + 1)
    let dst ← setAt? dst (i + 1) x
    shiftLeftPubCopy same src i dst

/-- The shift loop of `ShiftLeftBit` (bitvector.hpp:99-103). -/
def shiftLeftPubLoop {w : Nat} (same : Bool) (src : List (BitVec w)) (shift : Nat) :
    (i : Nat) → List (BitVec w) → BitVec w → Res (List (BitVec w) × BitVec w)
  | 0, dst, prev => .ok (dst, prev)
  | i + 1, dst, prev => do
    let v ← rdSrc same src dst i
    let dst ← setAt? dst (i + 1) ((prev <<< shift) ||| (v >>> (w - shift)))
    shiftLeftPubLoop same src shift i dst v

/-- `ShiftLeftBit` (bitvector.hpp:73-106); returns the array and the bits shifted out.  `same` says
that `dst` and `src` are the same array (then `src` is ignored). -/
def shiftLeftPub {w : Nat} (same : Bool) (dst src : List (BitVec w)) (bitLen shift : Nat)
    (ext : BitVec w) : Res (List (BitVec w) × BitVec w) :=
  if bitLen = 0 then .ok (dst, 0)
  else if shift ≥ w then .throw
  else
    let n := roundupBit w bitLen
    let mask := lastMask w (bitLen % w)
    if shift = 0 then
      if n = 1 then do
        let x ← rdSrc same src dst 0
        let dst ← setAt? dst 0 ((x &&& mask) ||| ext)
        return (dst, 0)
      else do
        let x ← rdSrc same src dst (n - 1)
        let dst ← setAt? dst (n - 1) (x &&& mask)
        let dst ← shiftLeftPubCopy same src (n - 2) dst
        let x ← rdSrc same src dst 0
        let dst ← setAt? dst 0 (x ||| ext)
        return (dst, 0)
    else do
      let x ← rdSrc same src dst (n - 1)
      let prev := x &&& mask
      let ret := prev >>> (w - shift)
      let (dst, prev) ← shiftLeftPubLoop same src shift (n - 1) dst prev
      let dst ← setAt? dst 0 ((prev <<< shift) ||| ext)
      return (dst, ret)

end Verif.BitVector
