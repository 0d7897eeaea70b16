/-! A bit vector is a list of booleans. -/
namespace Verif.Spec.BitVector

/-- The bits of one word, lowest first. -/
def bitsOfWord {w : Nat} (x : BitVec w) : List Bool := (List.range w).map fun i : Nat => x.getLsbD i

/-- The bits of an array of words. -/
def bitsOf {w : Nat} (v : List (BitVec w)) : List Bool := v.flatMap bitsOfWord

/-- `resize`: truncate or extend by zero bits. -/
def resize (l : List Bool) (n : Nat) : List Bool := l.take n ++ List.replicate (n - l.length) false

/-- The range `[pos, pos + n)`. -/
def range (l : List Bool) (pos n : Nat) : List Bool := (l.drop pos).take n

end Verif.Spec.BitVector

namespace Verif.Spec.BitVector

/-- The number written by an array of words, lowest word first. -/
def value {w : Nat} (v : List (BitVec w)) : Nat := v.foldr (fun x a => x.toNat + 2 ^ w * a) 0

end Verif.Spec.BitVector
