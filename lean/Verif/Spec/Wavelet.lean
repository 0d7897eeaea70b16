/-! Counting and finding values in a list of numbers. -/
namespace Verif.Spec.Wavelet

/-- Occurrences of `v` among the first `pos` elements. -/
def countOf (l : List Nat) (v pos : Nat) : Nat := (l.take pos).count v

/-- Elements smaller than `v` among the first `pos`. -/
def countLt (l : List Nat) (v pos : Nat) : Nat := (l.take pos).countP fun x => decide (x < v)

/-- `p` is the position of occurrence number `r` (0-based) of `v`. -/
def IsNth (l : List Nat) (v r p : Nat) : Prop := l[p]? = some v ∧ countOf l v p = r

end Verif.Spec.Wavelet
