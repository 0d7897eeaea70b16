import Verif.Model.Common
/-!
# Model of the wrapper of OpenSSL's digests, HMAC and ciphers (include/cybozu/crypto.hpp)

OpenSSL is a parameter: `Evp` for digests, `Mac` for `HMAC`, `Ciph` for ciphers.  An `enum` is its value, any number.  Memory is a
list of bytes; touching what is outside is `ub`.  The branch for `CYBOZU_USE_OPENSSL_NEW_HASH == 1` is modelled; calls of OpenSSL whose value the
wrapper does not look at are taken to succeed.  Not modelled: the other branch of `Hash` and the Apple one.
-/
namespace Verif.Crypto

/-- A string of bytes. -/
abbrev Bytes := List UInt8

/-- The digests of OpenSSL with contexts `C`: `EVP_get_digestbyname` and `EVP_DigestInit_ex`, `EVP_DigestUpdate`,
`EVP_DigestFinal_ex`. -/
structure Evp (C : Type) where
  init : String → Option C
  update : C → Bytes → C
  final : C → Bytes

/-- The members of `Hash` (crypto.hpp:53-56). -/
structure Hash (C : Type) where
  name : Nat
  hashSize : Nat
  ctx : C

/-- `Hash::getSize` (crypto.hpp:75-86). -/
def getSize : Nat → Res Nat
  | 0 => .ok (160 / 8)
  | 1 => .ok (224 / 8)
  | 2 => .ok (256 / 8)
  | 3 => .ok (384 / 8)
  | 4 => .ok (512 / 8)
  | _ => .throw

/-- `Hash::getName(Name)` (crypto.hpp:87-98). -/
def getNameStr : Nat → Res String
  | 0 => .ok "sha1"
  | 1 => .ok "sha224"
  | 2 => .ok "sha256"
  | 3 => .ok "sha384"
  | 4 => .ok "sha512"
  | _ => .throw

/-- The table of `Hash::getName(const std::string&)` (crypto.hpp:101-110). -/
def nameTbl : List (String × Nat) := [("sha1", 0), ("sha224", 1), ("sha256", 2), ("sha384", 3), ("sha512", 4)]

/-- `Hash::getName(const std::string&)` (crypto.hpp:99-115). -/
def getName (s : String) : Res Nat :=
  match nameTbl.find? (fun e => s == e.1) with
  | some e => .ok e.2
  | none => .throw

/-- `setCTX` (crypto.hpp:57-65). -/
def setCTX {C : Type} (e : Evp C) (name : String) : Res C :=
  match e.init name with
  | some c => .ok c
  | none => .throw

/-- `Hash::reset` (crypto.hpp:149-168): the new context. -/
def resetCtx {C : Type} (e : Evp C) : Nat → Res C
  | 0 => setCTX e "sha1"
  | 1 => setCTX e "sha224"
  | 2 => setCTX e "sha256"
  | 3 => setCTX e "sha384"
  | 4 => setCTX e "sha512"
  | _ => .throw

/-- `Hash::Hash` (crypto.hpp:116-124). -/
def Hash.new {C : Type} (e : Evp C) (name : Nat) : Res (Hash C) := do
  let hashSize ← getSize name
  let ctx ← resetCtx e name
  return ⟨name, hashSize, ctx⟩

/-- `Hash::reset` (crypto.hpp:149-168). -/
def Hash.reset {C : Type} (e : Evp C) (h : Hash C) : Res (Hash C) := do
  let ctx ← resetCtx e h.name
  return { h with ctx := ctx }

/-- `Hash::update` (crypto.hpp:131-148). -/
def Hash.update {C : Type} (e : Evp C) (h : Hash C) (buf : Bytes) : Hash C := { h with ctx := e.update h.ctx buf }

/-- Writing to the beginning of memory. -/
def poke (mem bytes : Bytes) : Res Bytes :=
  if bytes.length ≤ mem.length then .ok (bytes ++ mem.drop bytes.length) else .ub

/-- `Hash::digest(out, buf, bufSize)` (crypto.hpp:173-192): what is at `out`, and the object. -/
def Hash.digestTo {C : Type} (e : Evp C) (h : Hash C) (out buf : Bytes) : Res (Bytes × Hash C) := do
  let h := h.update e buf
  let out ← poke out (e.final h.ctx)
  let h ← h.reset e
  return (out, h)

/-- `Hash::digest(buf, bufSize)` and `Hash::digest(buf)` (crypto.hpp:193-203). -/
def Hash.digest {C : Type} (e : Evp C) (h : Hash C) (buf : Bytes) : Res (Bytes × Hash C) :=
  h.digestTo e (List.replicate h.hashSize 0) buf

/-- The static `Hash::digest(out, name, buf, bufSize)` (crypto.hpp:208-227): the written size and what is at `out`. -/
def digestStaticTo {C : Type} (e : Evp C) (out : Bytes) (name : Nat) (buf : Bytes) : Res (Nat × Bytes) := do
  let h ← Hash.new e name
  let r ← h.digestTo e out buf
  let size ← getSize name
  return (size, r.1)

/-- The static `Hash::digest(name, buf, bufSize)` (crypto.hpp:228-238); `md` is what is in the array at first. -/
def digestStatic {C : Type} (e : Evp C) (md : Bytes) (name : Nat) (buf : Bytes) : Res Bytes := do
  let r ← digestStaticTo e md name buf
  if r.1 = 0 then .throw
  else if r.1 ≤ r.2.length then .ok (r.2.take r.1) else .ub

/-- A call of a user. -/
inductive Op where
  | update (buf : Bytes)
  | reset
  | digest (buf : Bytes)

/-- Several calls: the digests. -/
def run {C : Type} (e : Evp C) : Hash C → List Op → Res (List Bytes × Hash C)
  | h, [] => .ok ([], h)
  | h, .update b :: l => run e (h.update e b) l
  | h, .reset :: l => do
    let h ← h.reset e
    run e h l
  | h, .digest b :: l => do
    let r ← h.digest e b
    let q ← run e r.2 l
    return (r.1 :: q.1, q.2)

/-! ## HMAC -/

/-- A value stored in an `int`. -/
def toInt (n : Nat) : Int := (n : Int).bmod (2 ^ 32)

/-- `HMAC` of OpenSSL for a digest: the memory at the key, the length, the data; `none` is failure. -/
structure Mac where
  mdSize : Nat → Nat
  hmac : Nat → Bytes → Int → Bytes → Option Bytes

/-- `Hmac::Hmac` (crypto.hpp:244-255). -/
def Hmac.new : Nat → Res Nat
  | 0 => .ok 0
  | 1 => .ok 1
  | 2 => .ok 2
  | 3 => .ok 3
  | 4 => .ok 4
  | _ => .throw

/-- `Hmac::eval` (crypto.hpp:256-266). -/
def Hmac.eval (m : Mac) (evp : Nat) (key data : Bytes) : Res Bytes :=
  let out := List.replicate (m.mdSize evp + 1) (0 : UInt8)
  match m.hmac evp key (toInt key.length) data with
  | some md => do
    let out ← poke out md
    return out.take md.length
  | none => .throw

/-! ## Ciphers -/

/-- The ciphers of OpenSSL: key and vector length in bytes; `EVP_CipherInit_ex`, given the memory it reads; the answer of
`EVP_CIPHER_CTX_set_padding`. -/
structure Ciph (C : Type) where
  keyLen : Nat → Nat
  ivLen : Nat → Nat
  init : Nat → Bytes → Bytes → Bool → Option C
  padding : C → Bool → Option C
  update : C → Bytes → Option (Bytes × C)
  final : C → Option (Bytes × C)

/-- `Cipher::getSize` (crypto.hpp:281-293), in bits. -/
def cipherSize : Nat → Res Nat
  | 0 => .ok 128
  | 1 => .ok 192
  | 2 => .ok 256
  | 3 => .ok 128
  | 4 => .ok 192
  | 5 => .ok 256
  | _ => .throw

/-- The cipher chosen by `Cipher::Cipher` (crypto.hpp:298-314): `Except` with the contexts that are lost. -/
def Cipher.new (newOk : Bool) (name : Nat) : Except String Nat × Nat :=
  if !newOk then (.error "crypto:Cipher:EVP_CIPHER_CTX_new", 0)
  else if name < 6 then (.ok name, 0)
  else (.error "crypto:Cipher:Cipher:name", 1)

/-- Reading `n` bytes at `c_str()` of a string: the bytes and the terminating zero are readable. -/
def readStr (s : Bytes) (n : Nat) : Res Bytes :=
  if n ≤ s.length + 1 then .ok ((s ++ [0]).take n) else .ub

/-- `Cipher::setup` (crypto.hpp:322-345). -/
def Cipher.setup {C : Type} (o : Ciph C) (cipher : Nat) (encode : Bool) (key iv : Bytes) (padding : Bool) : Res C := do
  if toInt key.length ≠ o.keyLen cipher then .throw
  else
    let k ← readStr key (o.keyLen cipher)
    let v ← readStr iv (o.ivLen cipher)
    match o.init cipher k v encode with
    | none => .throw
    | some c =>
      match o.padding c padding with
      | none => .throw
      | some c => .ok c

/-- `Cipher::update` (crypto.hpp:351-357): the value, what is at `outBuf`, the context. -/
def Cipher.update {C : Type} (o : Ciph C) (c : C) (outBuf inBuf : Bytes) : Res (Int × Bytes × C) :=
  match o.update c inBuf with
  | none => .ok (-1, outBuf, c)
  | some (b, c') => do
    let outBuf ← poke outBuf b
    return (b.length, outBuf, c')

/-- `Cipher::finalize` (crypto.hpp:362-368). -/
def Cipher.finalize {C : Type} (o : Ciph C) (c : C) (outBuf : Bytes) : Res (Int × Bytes × C) :=
  match o.final c with
  | none => .ok (-1, outBuf, c)
  | some (b, c') => do
    let outBuf ← poke outBuf b
    return (b.length, outBuf, c')

/-! ## Who frees the context -/

/-- Contexts made and freed by objects that are constructed, copied (the members are copied, as no copy constructor is declared,
crypto.hpp:43-239, 269-369) and destroyed; `objs` are the contexts of the living objects. -/
structure Own where
  objs : List Nat
  next : Nat
  freed : List Nat

/-- What happens to objects. -/
inductive Life where
  | make
  /-- copy of the `i`-th object -/
  | copy (i : Nat)
  /-- destructor of the `i`-th object -/
  | destroy (i : Nat)

/-- One event. -/
def Own.step (s : Own) : Life → Own
  | .make => ⟨s.objs ++ [s.next], s.next + 1, s.freed⟩
  | .copy i => ⟨s.objs ++ (s.objs[i]?).toList, s.next, s.freed⟩
  | .destroy i => ⟨s.objs.eraseIdx i, s.next, s.freed ++ (s.objs[i]?).toList⟩

/-- Several events. -/
def Own.run (s : Own) (l : List Life) : Own := l.foldl Own.step s

end Verif.Crypto
