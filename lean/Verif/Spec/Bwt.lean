import Verif.Spec.FMindex

/-! The Burrows-Wheeler transform of a text. -/
namespace Verif.Spec.Bwt
open Verif.Spec.FMindex

/-- `rows` lists the positions `0 .. n` in the order of the suffixes starting there; position `n` is the empty suffix. -/
structure IsRows (v rows : List Nat) : Prop where
  perm : rows.Perm (List.range (v.length + 1))
  sorted : rows.Pairwise fun a b => lexLt (v.drop a) (v.drop b) = true

/-- The characters before the suffixes, in their order; the whole text has none. -/
def lastColumn (v rows : List Nat) : List Nat := rows.filterMap fun p => if p = 0 then none else v[p - 1]?

/-- `col` with the row `idx` of the whole text is the transform of `v`. -/
def IsBwt (v : List Nat) (idx : Nat) (col : List Nat) : Prop :=
  ∃ rows, IsRows v rows ∧ col = lastColumn v rows ∧ rows[idx]? = some 0

end Verif.Spec.Bwt
