import Verif.Model.Crypto
/-!
# What the manual of OpenSSL promises, and what digests a user expects
-/
namespace Verif.CryptoSpec
open Verif.Crypto

/-- The length of the SHA digests in bytes (FIPS 180-4). -/
def shaLength : String → Option Nat
  | "sha1" => some 20
  | "sha224" => some 28
  | "sha256" => some 32
  | "sha384" => some 48
  | "sha512" => some 64
  | _ => none

/-- OpenSSL computes the digests `H`: the digest of several updates is that of the bytes joined. -/
structure Computes {C : Type} (e : Evp C) (H : String → Bytes → Bytes) : Prop where
  known : ∀ n k, shaLength n = some k → ∃ c, e.init n = some c
  digest : ∀ n c, e.init n = some c → ∀ chunks : List Bytes, e.final (chunks.foldl e.update c) = H n chunks.flatten
  length : ∀ n k, shaLength n = some k → ∀ m, (H n m).length = k

/-- The digests expected from a sequence of calls; `acc` are the bytes since the last digest or reset. -/
def expected (h : Bytes → Bytes) : Bytes → List Op → List Bytes
  | _, [] => []
  | acc, .update b :: l => expected h (acc ++ b) l
  | _, .reset :: l => expected h [] l
  | acc, .digest b :: l => h (acc ++ b) :: expected h [] l

/-- OpenSSL computes the codes `M`: exactly `len` bytes at the key are used. -/
structure ComputesMac (m : Mac) (M : Nat → Bytes → Bytes → Bytes) : Prop where
  eval : ∀ a key (len : Nat) data, len ≤ key.length → m.hmac a key len data = some (M a (key.take len) data)
  length : ∀ a key data, (M a key data).length = m.mdSize a

end Verif.CryptoSpec
