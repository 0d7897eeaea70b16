/-! The bits of a file. -/
namespace Verif.Spec.CSucSmpl

/-- Bit `i` of a file, lowest bit of each byte first. -/
def fileBit (f : List UInt8) (i : Nat) : Bool := (f.getD (i / 8) 0).toBitVec.getLsbD (i % 8)

end Verif.Spec.CSucSmpl
