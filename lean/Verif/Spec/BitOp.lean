/-! Specification of bit scans: positions of set bits. -/
namespace Verif.Spec.BitOp

/-- `i` is the lowest set bit of `x`. -/
def IsLowest {w : Nat} (x : BitVec w) (i : Nat) : Prop :=
  x.getLsbD i = true ∧ ∀ j < i, x.getLsbD j = false

/-- `i` is the highest set bit of `x`. -/
def IsHighest {w : Nat} (x : BitVec w) (i : Nat) : Prop :=
  x.getLsbD i = true ∧ ∀ j, i < j → x.getLsbD j = false

/-- Sum of the binary digits of a number. -/
def digitSum : Nat → Nat
  | 0 => 0
  | n + 1 => (n + 1) % 2 + digitSum ((n + 1) / 2)

end Verif.Spec.BitOp
