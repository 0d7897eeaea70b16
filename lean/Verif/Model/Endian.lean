import Verif.Model.Common

/-!
# Model of `include/cybozu/endian.hpp`

A buffer is a list of bytes, an integer is its value as a natural number.  Each function has two
implementations chosen by `CYBOZU_ENDIAN`; both are modelled: `...Mem` for the `memcpy` branch on a
little-endian machine and `...Byte` for the byte-wise branch.
-/
namespace Verif.Endian

/-- `memcpy(&x, src, n)` into an integer on a little-endian machine: byte `i` has weight `256^i`. -/
def memLoad : List UInt8 → Nat
  | [] => 0
  | b :: bs => b.toNat + 256 * memLoad bs

/-- The `n` bytes of an integer in the memory of a little-endian machine. -/
def memBytes : Nat → Nat → List UInt8
  | 0, _ => []
  | n + 1, x => UInt8.ofNat x :: memBytes n (x / 256)

/-- `memcpy(&x, src + off, n)`; reading outside the buffer is undefined. -/
def load (src : List UInt8) (off n : Nat) : Res Nat :=
  if off + n ≤ src.length then .ok (memLoad ((src.drop off).take n)) else .ub

/-- `memcpy(src + off, bytes, n)`; writing outside the buffer is undefined. -/
def store (dst : List UInt8) (off : Nat) (bs : List UInt8) : Res (List UInt8) :=
  if off + bs.length ≤ dst.length then
    .ok (dst.take off ++ bs ++ dst.drop (off + bs.length))
  else .ub

/-- `p[i]` as an integer. -/
def rd (p : List UInt8) (i : Nat) : Res Nat := do
  let b ← at? p i
  return b.toNat

/-- `byteSwap` for `n`-byte integers by the builtin (endian.hpp:20, 24, 25): reverses the bytes. -/
def bswap (n x : Nat) : Nat := memLoad (memBytes n x).reverse

/-- `byteSwap(uint16_t)` without the builtin (endian.hpp:22); the `int` result is converted back to
`uint16_t`. -/
def byteSwap16Shift (x : Nat) : Nat := ((x >>> 8) ||| (x <<< 8)) % 2 ^ 16

/-- `Get16bitAsLE`, memcpy branch (endian.hpp:35-37). -/
def get16LEMem (src : List UInt8) (off : Nat) : Res Nat := load src off 2
/-- `Get32bitAsLE`, memcpy branch (endian.hpp:51-53). -/
def get32LEMem (src : List UInt8) (off : Nat) : Res Nat := load src off 4
/-- `Get64bitAsLE`, memcpy branch (endian.hpp:67-69). -/
def get64LEMem (src : List UInt8) (off : Nat) : Res Nat := load src off 8
/-- `Get16bitAsBE`, memcpy branch (endian.hpp:83-85). -/
def get16BEMem (src : List UInt8) (off : Nat) : Res Nat := do return bswap 2 (← load src off 2)
/-- `Get32bitAsBE`, memcpy branch (endian.hpp:99-101). -/
def get32BEMem (src : List UInt8) (off : Nat) : Res Nat := do return bswap 4 (← load src off 4)
/-- `Get64bitAsBE`, memcpy branch (endian.hpp:115-117). -/
def get64BEMem (src : List UInt8) (off : Nat) : Res Nat := do return bswap 8 (← load src off 8)

/-- `Get16bitAsLE`, byte-wise branch (endian.hpp:39-40). -/
def get16LEByte (src : List UInt8) (off : Nat) : Res Nat := do
  let p0 ← rd src off
  let p1 ← rd src (off + 1)
  return (p0 ||| (p1 <<< 8)) % 2 ^ 16
/-- `Get32bitAsLE`, byte-wise branch (endian.hpp:55-56). -/
def get32LEByte (src : List UInt8) (off : Nat) : Res Nat := do
  let a ← get16LEByte src off
  let b ← get16LEByte src (off + 2)
  return a ||| ((b <<< 16) % 2 ^ 32)
/-- `Get64bitAsLE`, byte-wise branch (endian.hpp:71-72). -/
def get64LEByte (src : List UInt8) (off : Nat) : Res Nat := do
  let a ← get32LEByte src off
  let b ← get32LEByte src (off + 4)
  return a ||| ((b <<< 32) % 2 ^ 64)
/-- `Get16bitAsBE`, byte-wise branch (endian.hpp:87-88). -/
def get16BEByte (src : List UInt8) (off : Nat) : Res Nat := do
  let p1 ← rd src (off + 1)
  let p0 ← rd src off
  return (p1 ||| (p0 <<< 8)) % 2 ^ 16
/-- `Get32bitAsBE`, byte-wise branch (endian.hpp:103-104). -/
def get32BEByte (src : List UInt8) (off : Nat) : Res Nat := do
  let a ← get16BEByte src (off + 2)
  let b ← get16BEByte src off
  return a ||| ((b <<< 16) % 2 ^ 32)
/-- `Get64bitAsBE`, byte-wise branch (endian.hpp:119-120). -/
def get64BEByte (src : List UInt8) (off : Nat) : Res Nat := do
  let a ← get32BEByte src (off + 4)
  let b ← get32BEByte src off
  return a ||| ((b <<< 32) % 2 ^ 64)

/-- `Set16bitAsLE`, memcpy branch (endian.hpp:132). -/
def set16LEMem (dst : List UInt8) (off x : Nat) : Res (List UInt8) := store dst off (memBytes 2 x)
/-- `Set32bitAsLE`, memcpy branch (endian.hpp:147). -/
def set32LEMem (dst : List UInt8) (off x : Nat) : Res (List UInt8) := store dst off (memBytes 4 x)
/-- `Set64bitAsLE`, memcpy branch (endian.hpp:164). -/
def set64LEMem (dst : List UInt8) (off x : Nat) : Res (List UInt8) := store dst off (memBytes 8 x)
/-- `Set16bitAsBE`, memcpy branch (endian.hpp:179-180). -/
def set16BEMem (dst : List UInt8) (off x : Nat) : Res (List UInt8) :=
  store dst off (memBytes 2 (bswap 2 x))
/-- `Set32bitAsBE`, memcpy branch (endian.hpp:195-196). -/
def set32BEMem (dst : List UInt8) (off x : Nat) : Res (List UInt8) :=
  store dst off (memBytes 4 (bswap 4 x))
/-- `Set64bitAsBE`, memcpy branch (endian.hpp:213-214). -/
def set64BEMem (dst : List UInt8) (off x : Nat) : Res (List UInt8) :=
  store dst off (memBytes 8 (bswap 8 x))

/-- `p[i] = static_cast<uint8_t>(v)`. -/
def wr (p : List UInt8) (i v : Nat) : Res (List UInt8) :=
  if i < p.length then .ok (p.set i (UInt8.ofNat v)) else .ub

/-- `Set16bitAsLE`, byte-wise branch (endian.hpp:134-136). -/
def set16LEByte (dst : List UInt8) (off x : Nat) : Res (List UInt8) := do
  let p ← wr dst off x
  wr p (off + 1) (x >>> 8)
/-- `Set32bitAsLE`, byte-wise branch (endian.hpp:149-153). -/
def set32LEByte (dst : List UInt8) (off x : Nat) : Res (List UInt8) := do
  let p ← wr dst off x
  let p ← wr p (off + 1) (x >>> 8)
  let p ← wr p (off + 2) (x >>> 16)
  wr p (off + 3) (x >>> 24)
/-- `Set64bitAsLE`, byte-wise branch (endian.hpp:166-168). -/
def set64LEByte (dst : List UInt8) (off x : Nat) : Res (List UInt8) := do
  let p ← set32LEByte dst off (x % 2 ^ 32)
  set32LEByte p (off + 4) ((x >>> 32) % 2 ^ 32)
/-- `Set16bitAsBE`, byte-wise branch (endian.hpp:182-184). -/
def set16BEByte (dst : List UInt8) (off x : Nat) : Res (List UInt8) := do
  let p ← wr dst off (x >>> 8)
  wr p (off + 1) x
/-- `Set32bitAsBE`, byte-wise branch (endian.hpp:198-202). -/
def set32BEByte (dst : List UInt8) (off x : Nat) : Res (List UInt8) := do
  let p ← wr dst off (x >>> 24)
  let p ← wr p (off + 1) (x >>> 16)
  let p ← wr p (off + 2) (x >>> 8)
  wr p (off + 3) x
/-- `Set64bitAsBE`, byte-wise branch (endian.hpp:216-218). -/
def set64BEByte (dst : List UInt8) (off x : Nat) : Res (List UInt8) := do
  let p ← set32BEByte dst off ((x >>> 32) % 2 ^ 32)
  set32BEByte p (off + 4) (x % 2 ^ 32)

end Verif.Endian
