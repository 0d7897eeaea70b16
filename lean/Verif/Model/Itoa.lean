import Verif.Model.Common

/-!
# Model of `include/cybozu/itoa.hpp`

A `char buf[bufSize]` is a list of `bufSize` bytes; every store of the modelled loops is
`List.set` at the C++ index.  `x` is a value of an unsigned type, modelled by `Nat` (the code only
divides it, so its width does not matter).
-/
namespace Verif.Itoa

/-- Common shape of the three loops `itoa.hpp:72-77`, `95-100`, `113-118`: at most `bufSize` rounds,
each storing `dig x` at `buf[bufSize - 1 - i]` and replacing `x` by `next x`.  The first argument is
the number of rounds left, `bufSize - i`; so the store goes to index `left - 1` and the returned
`i + 1` is `bufSize - (left - 1)`. -/
def loop (bufSize : Nat) (dig : Nat → UInt8) (next : Nat → Nat) :
    (left : Nat) → (buf : List UInt8) → (x : Nat) → List UInt8 × Nat
  | 0, buf, _ => (buf, 0)
  | left + 1, buf, x =>
    let buf := buf.set left (dig x)
    let x := next x
    if x = 0 then (buf, bufSize - left) else loop bufSize dig next left buf x

/-- `itoa.hpp:69-78`  `uintToDec`: new buffer and returned size. -/
def uintToDec (buf : List UInt8) (x : Nat) : List UInt8 × Nat :=
  loop buf.length (fun x => UInt8.ofNat (48 + x % 10)) (fun x => x / 10) buf.length buf x

/-- `itoa.hpp:90-94`, `36-40`  the two hexadecimal tables. -/
def hexTbl (upCase : Bool) : List UInt8 :=
  if upCase then "0123456789ABCDEF".toUTF8.data.toList else "0123456789abcdef".toUTF8.data.toList

/-- `tbl[x % 16]` (index always inside the table). -/
def hexChar (upCase : Bool) (x : Nat) : UInt8 := (hexTbl upCase)[x % 16]?.getD 0

/-- `itoa.hpp:87-101`  `uintToHex`. -/
def uintToHex (buf : List UInt8) (x : Nat) (upCase : Bool) : List UInt8 × Nat :=
  loop buf.length (hexChar upCase) (fun x => x / 16) buf.length buf x

/-- `itoa.hpp:110-119`  `uintToBin`. -/
def uintToBin (buf : List UInt8) (x : Nat) : List UInt8 × Nat :=
  loop buf.length (fun x => UInt8.ofNat (48 + (x &&& 1))) (fun x => x >>> 1) buf.length buf x

/-- `itoa.hpp:125`  the literal `"-9223372036854775808"`. -/
def minStr : List UInt8 := "-9223372036854775808".toUTF8.data.toList

/-- `itoa.hpp:121-144`  `intToDec<T>`.  `promLo` is the minimum of the promoted type of `T`
(`int` or `long long`): negating it overflows, which is UB. -/
def intToDec (promLo : Int) (buf : List UInt8) (x : Int) : Res (List UInt8 × Nat) :=
  if x = -9223372036854775808 then
    if buf.length < minStr.length then .ok (buf, 0)
    else .ok (buf.take (buf.length - minStr.length) ++ minStr, minStr.length)
  else if x < 0 ∧ x = promLo then .ub
  else
    let negative := x < 0
    let absX := if negative then (-x).toNat else x.toNat
    let (buf, n) := uintToDec buf absX
    if n = 0 then .ok (buf, 0)
    else if negative then
      if buf.length = n then .ok (buf, 0)
      else .ok (buf.set (buf.length - (n + 1)) 45, n + 1)
    else .ok (buf, n)

/-- `itoa.hpp:147-154`  `convertFromUint` (also `itoa(unsigned ...)`, 209-222): 40-byte buffer.
The initial contents of `buf` are arbitrary. -/
def convertFromUint (buf : List UInt8) (x : Nat) : Res (List UInt8) :=
  let (buf, n) := uintToDec buf x
  if n > 0 then .ok (buf.drop (buf.length - n)) else .ub

/-- `itoa.hpp:156-162`  `convertFromInt` (also `itoa(int)`, `itoa(long long)`, 189-202). -/
def convertFromInt (buf : List UInt8) (x : Int) : Res (List UInt8) := do
  let (buf, n) ← intToDec (-9223372036854775808) buf x
  if n > 0 then .ok (buf.drop (buf.length - n)) else .ub

/-- `itoa.hpp:224-230`  `itoa(unsigned long)` where `long` has `w` bits: cast to `unsigned long long` if `w` is 64, else to
`int`. -/
def itoaULong (w : Nat) (buf : List UInt8) (x : BitVec w) : Res (List UInt8) :=
  if w = 64 then convertFromUint buf x.toNat else convertFromInt buf (x.setWidth 32).toInt

/-- `itoa.hpp:224-230`  `itoa(long)`. -/
def itoaLong (w : Nat) (buf : List UInt8) (x : BitVec w) : Res (List UInt8) :=
  if w = 64 then convertFromInt buf x.toInt else convertFromInt buf (x.setWidth 32).toInt

/-- `bit_operation.hpp:96-99`  `bsr` by its documented meaning: index of the highest set bit
(`x ≠ 0`).  See also `Verif.Model.BitOp`. -/
def bsr (x : Nat) : Nat := Nat.log2 x

/-- `itoa.hpp:17-21`  `getHexLength`. -/
def getHexLength (x : Nat) : Nat := if x = 0 then 1 else bsr x / 4 + 1

/-- `itoa.hpp:23-27`  `getBinLength`. -/
def getBinLength (x : Nat) : Nat := if x = 0 then 1 else bsr x + 1

/-- `itoa.hpp:41-44`  loop of `itohex`; the first argument is `len - i`. -/
def itohexLoop (upCase : Bool) : Nat → List UInt8 → Nat → List UInt8
  | 0, out, _ => out
  | left + 1, out, x => itohexLoop upCase left (out.set left (hexChar upCase x)) (x / 16)

/-- `itoa.hpp:164-170`  `itohexLocal` with `itohex` (33-45); `size` is `sizeof(T)`. -/
def itohex (size : Nat) (x : Nat) (upCase withZero : Bool) : List UInt8 :=
  let n := if withZero then size * 2 else getHexLength x
  itohexLoop upCase n (List.replicate n 0) x

/-- `itoa.hpp:54-57`  loop of `itobin`. -/
def itobinLoop : Nat → List UInt8 → Nat → List UInt8
  | 0, out, _ => out
  | left + 1, out, x => itobinLoop left (out.set left (UInt8.ofNat (48 + (x &&& 1)))) (x >>> 1)

/-- `itoa.hpp:172-178`  `itobinLocal` with `itobin` (51-58). -/
def itobin (size : Nat) (x : Nat) (withZero : Bool) : List UInt8 :=
  let n := if withZero then size * 8 else getBinLength x
  itobinLoop n (List.replicate n 0) x

/-- `itoa.hpp:54-57`  loop of `itobin` for a signed type: `x >>= 1` keeps the sign. -/
def itobinLoopS : Nat → List UInt8 → Int → List UInt8
  | 0, out, _ => out
  | left + 1, out, x => itobinLoopS left (out.set left (UInt8.ofNat (48 + (x % 2).toNat))) (x / 2)

/-- `itoa.hpp:23-27`  `getBinLength` for a signed type of `w` bits: `bsr` (bit_operation.hpp:96-99) takes 64 bits if `sizeof(T)` is 8, else
32 bits, with the sign extended. -/
def getBinLengthS {w : Nat} (x : BitVec w) : Nat :=
  if x = 0 then 1 else bsr (if w = 64 then x.toNat else (x.signExtend 32).toNat) + 1

/-- `itoa.hpp:267-273`  `itobin(T x, bool)` for a signed type of `w` bits, with `itobinLocal` (172-178). -/
def itobinS {w : Nat} (x : BitVec w) (withZero : Bool) : List UInt8 :=
  let n := if withZero then w else getBinLengthS x
  itobinLoopS n (List.replicate n 0) x.toInt

/-- `itoa.hpp:41-44`  loop of `itohex(char*, size_t, T, bool)` for a signed type: `x % 16` is negative for negative `x`. -/
def itohexLoopS (upCase : Bool) : Nat → List UInt8 → Int → Res (List UInt8)
  | 0, out, _ => .ok out
  | left + 1, out, x =>
    if x.tmod 16 < 0 then .ub
    else itohexLoopS upCase left (out.set left (hexChar upCase (x.tmod 16).toNat)) (x.tdiv 16)

/-- `itoa.hpp:319-333`  `itoaWithZero` for signed `T`. -/
def itoaWithZero (buf : List UInt8) (x : Int) (len : Nat) (c : UInt8) : Res (List UInt8) := do
  let ret ← convertFromInt buf x
  if ret.length < len then
    let zero := List.replicate (len - ret.length) c
    if x ≥ 0 then .ok (zero ++ ret) else .ok ([45] ++ zero ++ ret.drop 1)
  else .ok ret

end Verif.Itoa
