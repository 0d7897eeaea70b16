import Verif.Model.Common

/-!
# Model of `RandomGenerator` of `include/cybozu/random_generator.hpp` (lines 31-126)

The operating system is a device that delivers bytes one after another, `Dev`.  Memory is a list of
bytes behind the pointer `buf`; a store behind its end is undefined behaviour.  `size_t` has 64 bits,
`int` and `DWORD` 32, integers are stored little-endian (x86).
-/
namespace Verif.RandGen

/-- What is behind `FILE *fp_` (random_generator.hpp:98) or `HCRYPTPROV prov_` (random_generator.hpp:70): the bytes the device delivers, how
many it can deliver before it fails (`none`: it never fails) and how many it has delivered. -/
structure Dev where
  (bytes : Nat → UInt8) (limit : Option Nat) (pos : Nat)

/-- How many of `n` bytes the device can deliver. -/
def Dev.amount (d : Dev) (n : Nat) : Nat :=
  match d.limit with
  | none => n
  | some l => min n (l - d.pos)

/-- The next `k` bytes stored at the beginning of `buf`. -/
def Dev.store (d : Dev) (k : Nat) (buf : List UInt8) : Res (List UInt8 × Dev) :=
  if k ≤ buf.length then
    .ok ((List.range k).map (fun i => d.bytes (d.pos + i)) ++ buf.drop k, { d with pos := d.pos + k })
  else .ub

/-- `fread(buf, 1, n, fp)` of the C library, called in random_generator.hpp:95: as many bytes as the
device can deliver are stored, their number is returned. -/
def Dev.fread (d : Dev) (n : Nat) (buf : List UInt8) : Res (Nat × List UInt8 × Dev) := do
  let (buf, d') ← d.store (d.amount n) buf
  return (d.amount n, buf, d')

/-- `CryptGenRandom(prov, n, buf)` of Windows, called in random_generator.hpp:51: all or nothing. -/
def Dev.genRandom (d : Dev) (n : Nat) (buf : List UInt8) : Res (Bool × List UInt8 × Dev) :=
  if d.amount n = n then do
    let (buf, d') ← d.store n buf
    return (true, buf, d')
  else .ok (false, buf, d)

/-- `sizeof(T) * bufNum` in `size_t` (random_generator.hpp:66, 94). -/
def byteSize (sizeofT bufNum : Nat) : Nat := sizeofT * bufNum % 2 ^ 64

/-- `(int)byteSize`, converted back to `size_t` for `fread` (random_generator.hpp:95). -/
def freadCount (n : Nat) : Nat := ((n : Int).bmod (2 ^ 32) % 2 ^ 64).toNat

/-- The constructor (random_generator.hpp:72-78); `opened` is the result of `fopen`. -/
def construct (opened : Option Dev) : Res (Option Dev) :=
  match opened with
  | none => .throw
  | some d => .ok (some d)

/-- `read(bool *pb, T *buf, size_t bufNum)` (random_generator.hpp:87-96): `*pb`, the buffer, `fp_`.
`fp_` can be 0 only with `CYBOZU_DONT_USE_EXCEPTION`. -/
def read (sizeofT : Nat) (fp : Option Dev) (buf : List UInt8) (bufNum : Nat) :
    Res (Bool × List UInt8 × Option Dev) :=
  match fp with
  | none => .ok (false, buf, none)
  | some d => do
    let (k, buf, d) ← d.fread (freadCount (byteSize sizeofT bufNum)) buf
    return (decide (k = byteSize sizeofT bufNum), buf, some d)

/-- `read_inner` and `read(bool*, T*, size_t)` for Windows (random_generator.hpp:48-52, 63-68); `prov`
is `prov_`, `none` for 0. -/
def winRead (sizeofT : Nat) (prov : Option Dev) (buf : List UInt8) (bufNum : Nat) :
    Res (Bool × List UInt8 × Option Dev) :=
  match prov with
  | none => .ok (false, buf, none)
  | some d => do
    let (b, buf, d) ← d.genRandom (byteSize sizeofT bufNum % 2 ^ 32) buf
    return (b, buf, some d)

/-- `read(T *buf, size_t bufNum)` (random_generator.hpp:102-108). -/
def readThrow (sizeofT : Nat) (fp : Option Dev) (buf : List UInt8) (bufNum : Nat) : Res (List UInt8 × Option Dev) := do
  let (b, buf, fp) ← read sizeofT fp buf bufNum
  if b then return (buf, fp) else .throw

/-- The number whose little-endian bytes are `bs`. -/
def le (bs : List UInt8) : Nat := bs.foldr (fun b x => b.toNat + 256 * x) 0

/-- `get32` and `operator()` (random_generator.hpp:109-114, 121-124); `junk` is what the uninitialized
variable `ret` contains. -/
def get32 (junk : BitVec 32) (fp : Option Dev) : Res (BitVec 32 × Option Dev) := do
  let (ret, fp) ← readThrow 4 fp ((List.range 4).map fun i => UInt8.ofNat (junk.toNat / 256 ^ i)) 1
  return (BitVec.ofNat 32 (le ret), fp)

/-- `get64` (random_generator.hpp:115-120). -/
def get64 (junk : BitVec 64) (fp : Option Dev) : Res (BitVec 64 × Option Dev) := do
  let (ret, fp) ← readThrow 8 fp ((List.range 8).map fun i => UInt8.ofNat (junk.toNat / 256 ^ i)) 1
  return (BitVec.ofNat 64 (le ret), fp)

/-- A user's loop: `n` calls of `get64`. -/
def get64s (junk : BitVec 64) : Nat → Option Dev → Res (List (BitVec 64) × Option Dev)
  | 0, fp => .ok ([], fp)
  | n + 1, fp => do
    let (x, fp) ← get64 junk fp
    let (xs, fp) ← get64s junk n fp
    return (x :: xs, fp)

end Verif.RandGen
