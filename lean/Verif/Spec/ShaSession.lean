import Verif.Spec.Sha

/-! # Specification of a hash object used for any sequence of calls -/

namespace Verif.ShaSessionSpec
open Verif.Spec.Sha

/-- A call on the object.  `digest md n d` has the buffer `md`, its size as told `n`, and the last part `d` of the message. -/
inductive Op
  | update (d : List UInt8)
  | digest (md : List UInt8) (n : Nat) (d : List UInt8)
  | clear

/-- What a finished message leaves in the buffer: as many bytes as its last block had, taken from the last padding block. -/
def carry (B L : Nat) (m : List UInt8) : List UInt8 := ((pad B L m).drop ((pad B L m).length - B)).take (m.length % B)

/-- The answers: `v` is the message the object seems to have, `hash` is the hash function with `out` bytes. -/
def answers (B L out : Nat) (hash : List UInt8 → List UInt8) : List UInt8 → List Op → List (Nat × List UInt8)
  | _, [] => []
  | v, .update d :: ops => answers B L out hash (v ++ d) ops
  | v, .digest md n d :: ops =>
    if n < out then (0, md) :: answers B L out hash v ops
    else (out, hash (v ++ d) ++ md.drop out) :: answers B L out hash (pad B L (v ++ d) ++ carry B L (v ++ d)) ops
  | _, .clear :: ops => answers B L out hash [] ops

/-- Every buffer is as large as told, and no message reaches 2^61 bytes. -/
def Fits (B L out : Nat) : List UInt8 → List Op → Prop
  | _, [] => True
  | v, .update d :: ops => Fits B L out (v ++ d) ops
  | v, .digest md n d :: ops =>
    if n < out then Fits B L out v ops
    else n ≤ md.length ∧ (v ++ d).length < 2 ^ 61 ∧ Fits B L out (pad B L (v ++ d) ++ carry B L (v ++ d)) ops
  | _, .clear :: ops => Fits B L out [] ops

end Verif.ShaSessionSpec
