import Verif.Spec.SucVector

/-!
# The bit string given to the compressed vector
-/
namespace Verif.Spec.CSucVector

/-- Bit `i` of a buffer of 64-bit words, least significant bit first. -/
def bufBit (buf : List (BitVec 64)) (i : Nat) : Bool := (buf.getD (i / 64) 0).getLsbD (i % 64)

/-- The first `n` bits. -/
def bufBits (buf : List (BitVec 64)) (n : Nat) : List Bool := (List.range n).map (bufBit buf)

end Verif.Spec.CSucVector
