import Verif.Spec.Sha
import Verif.Model.Sha1Text

/-!
# Specification for `Sha1::toString` and `get`
-/
namespace Verif.Sha1TextSpec
open Verif.Sha1Text Verif.Spec.Sha

/-- The sixteen digits. -/
def hexDigits : List UInt8 := "0123456789abcdef".toList.map fun c => UInt8.ofNat c.toNat

/-- Two digits for each byte, the higher half first. -/
def hexText (l : List UInt8) : List UInt8 :=
  l.flatMap fun b => [hexDigits.getD (b.toNat / 16) 0, hexDigits.getD (b.toNat % 16) 0]

/-- What the calls should return: `cur` is what was given of the current message, `last` is the hash of the last complete one. -/
def expected (cur last : List UInt8) : List Op → List (List UInt8)
  | [] => []
  | .update b :: l => expected (cur ++ b) last l
  | .digest b :: l => sha1 (cur ++ b) :: expected [] (sha1 (cur ++ b)) l
  | .text :: l => hexText last :: expected cur last l
  | .bytes :: l => last :: expected cur last l

/-- No message is longer than the size counter can tell. -/
def Short (cur : List UInt8) : List Op → Prop
  | [] => True
  | .update b :: l => Short (cur ++ b) l
  | .digest b :: l => (cur ++ b).length < 2 ^ 61 ∧ Short [] l
  | .text :: l => Short cur l
  | .bytes :: l => Short cur l

end Verif.Sha1TextSpec
