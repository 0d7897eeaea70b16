/-! Positional meaning of byte strings. -/
namespace Verif.Spec.Endian

/-- Big-endian value: most significant byte first. -/
def valueBE (bs : List UInt8) : Nat := bs.foldl (fun a b => a * 256 + b.toNat) 0

/-- Little-endian value: least significant byte first. -/
def valueLE (bs : List UInt8) : Nat := valueBE bs.reverse

/-- The big-endian byte string of length `n` for `x`. -/
def bytesBE (n x : Nat) : List UInt8 := (List.range n).map fun i : Nat => UInt8.ofNat (x / 256 ^ (n - 1 - i) % 256)

/-- The little-endian byte string of length `n` for `x`. -/
def bytesLE (n x : Nat) : List UInt8 := (List.range n).map fun i : Nat => UInt8.ofNat (x / 256 ^ i % 256)

/-- `dst` with the bytes at `[off, off + bs.length)` replaced. -/
def overwrite (dst : List UInt8) (off : Nat) (bs : List UInt8) : List UInt8 :=
  dst.take off ++ bs ++ dst.drop (off + bs.length)

end Verif.Spec.Endian
