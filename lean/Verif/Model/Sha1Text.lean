import Verif.Model.Sha

/-!
# Model of `Sha1::toString` and `Sha1::get` (`include/cybozu/sha1.hpp:187-205`)

The member array `digest_` of five `uint32_t` is its 20 bytes (as in `Model/Sha`).  `CYBOZU_SNPRINTF` with `"%08x"` is modelled from
the C standard.
-/
namespace Verif.Sha1Text
open Verif.Endian Verif.Sha

/-- A hexadecimal digit as `printf` writes it for `%x`. -/
def digitX (d : Nat) : UInt8 := UInt8.ofNat (if d < 10 then 48 + d else 87 + d)

/-- The digits of a number, without leading zeros, as `%x` writes them; the fuel is a bound for their number. -/
def digitsX : Nat → Nat → List UInt8
  | 0, _ => []
  | fuel + 1, x => if x < 16 then [digitX x] else digitsX fuel (x / 16) ++ [digitX (x % 16)]

/-- `snprintf(buf, 32, "%08x", v)` (sha1.hpp:193): at least eight characters, filled up with zeros. -/
def snprintf08x (v : Nat) : List UInt8 :=
  let s := digitsX 8 v
  List.replicate (8 - s.length) 48 ++ s

/-- The loop of `toString` (sha1.hpp:191-195): `i` words are done, `n` are left. -/
def textLoop (digest : List UInt8) : (n i : Nat) → List UInt8 → Res (List UInt8)
  | 0, _, str => .ok str
  | n + 1, i, str => do
    let v ← get32BEMem digest (4 * i)
    textLoop digest n (i + 1) (str ++ snprintf08x v)

/-- `toString` (sha1.hpp:187-197). -/
def text1 (o : St1) : Res (List UInt8) := textLoop o.digest 5 0 []

/-- `get` (sha1.hpp:198-205): the bytes of `digest_`. -/
def get1 (o : St1) : List UInt8 := o.digest

/-- What a user does with an object. -/
inductive Op where
  | update (b : List UInt8)
  | digest (b : List UInt8)
  | text
  | bytes

/-- A program using one object: what the calls return.  `last0` is the indeterminate content of a local array (see `term1`). -/
def run (last0 : List UInt8) : St1 → List Op → Res (List (List UInt8))
  | _, [] => .ok []
  | o, .update b :: l => do
    let o ← update1 o b
    run last0 o l
  | o, .digest b :: l => do
    let r ← digest1 last0 o b
    let t ← run last0 r.2 l
    return r.1 :: t
  | o, .text :: l => do
    let s ← text1 o
    let t ← run last0 o l
    return s :: t
  | o, .bytes :: l => do
    let t ← run last0 o l
    return get1 o :: t

end Verif.Sha1Text
