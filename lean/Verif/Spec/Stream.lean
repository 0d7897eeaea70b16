/-! What a buffer looks like after bytes were written into it. -/
namespace Verif.Spec.Stream

/-- `buf` with `a` written at position `p`. -/
def splice (buf : List UInt8) (p : Nat) (a : List UInt8) : List UInt8 := buf.take p ++ a ++ buf.drop (p + a.length)

/-- Of a history of writes into `room` bytes, those that fit (each is taken completely or not at all). -/
def fitting : (room : Nat) → List (List UInt8) → List (List UInt8)
  | _, [] => []
  | room, w :: ws => if w.length ≤ room then w :: fitting (room - w.length) ws else fitting room ws

end Verif.Spec.Stream
