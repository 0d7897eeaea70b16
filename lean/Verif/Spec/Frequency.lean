import Verif.Model.Common

/-! What a frequency table of the sequence `l` has to answer. -/
namespace Verif.Spec.Frequency

/-- `size` ranks, numbered by `index` and `elem`, ordered by falling number of occurrences in `l`;
`freq` counts.  `dom` is the range of elements that may be asked for. -/
structure Ranks (l : List Nat) (dom : Nat → Prop) (size : Nat) (freq index elem : Nat → Res Nat) : Prop where
  freq : ∀ e, dom e → freq e = .ok (l.count e)
  index_elem : ∀ e ∈ l, ∃ i, i < size ∧ index e = .ok i ∧ elem i = .ok e
  elem_index : ∀ i, i < size → ∃ e ∈ l, elem i = .ok e ∧ index e = .ok i
  sorted : ∀ i j e f, i ≤ j → j < size → elem i = .ok e → elem j = .ok f → l.count f ≤ l.count e

end Verif.Spec.Frequency
