/-! Rank and select on a list of bits. -/
namespace Verif.Spec.SucVector

/-- Occurrences of `b` among the first `pos` bits. -/
def rankOf (l : List Bool) (b : Bool) (pos : Nat) : Nat := (l.take pos).count b

/-- `p` is the position of occurrence number `r` (0-based) of `b`. -/
def IsSelect (l : List Bool) (b : Bool) (r p : Nat) : Prop := l[p]? = some b ∧ rankOf l b p = r

end Verif.Spec.SucVector
