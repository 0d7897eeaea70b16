import Verif.Model.TfIdf
import Verif.Model.SparseIO
import Mathlib.Analysis.SpecialFunctions.Log.Basic

/-!
# Model of the weights of `include/cybozu/nlp/tfidf.hpp`

`double` is idealised: a finite value is a real number (no rounding), `none` is a value that is not finite (`log(0)`, or a
difference or product with it).
-/
namespace Verif.TfIdf

open Verif.Sparse

/-- The order in which `Int2Int` (tfidf.hpp:25, a `std::map`) is gone through: ascending ids. -/
def iterMap (m : List (Nat × Nat)) : List (Nat × Nat) := m.mergeSort (fun a b => decide (a.1 ≤ b.1))

/-- `logN - log(double(df))` (tfidf.hpp:185, 188) for `n` documents. -/
noncomputable def idfOf (n df : Nat) : Option ℝ :=
  if n = 0 ∨ df = 0 then none else some (Real.log n - Real.log df)

/-- The first loop of `TfIdf::term` (tfidf.hpp:185-189): `idf_`.  `n` is `tf_.size()`. -/
noncomputable def TfIdf.idf (t : TfIdf) : List (Option ℝ) := t.df.map (idfOf t.tf.length)

/-- The values that the loop over a document hands to `push_back` (tfidf.hpp:193-195), in the order of the map. -/
noncomputable def weigh (idf : List (Option ℝ)) : List (Nat × Nat) → Res (List (Nat × Option ℝ))
  | [] => .ok []
  | j :: iv => do
    let x ← at? idf j.1
    let r ← weigh idf iv
    return (j.1, x.map (fun y => (j.2 : ℝ) * y)) :: r

/-- One document (tfidf.hpp:192-195).  Simplified: all values are computed before the first `push_back`, which makes no
difference since neither depends on the other. -/
noncomputable def docVec (idf : List (Option ℝ)) (iv : List (Nat × Nat)) : Res (SVec PTbl (Option ℝ)) := do
  let l ← weigh idf (iterMap iv)
  let r ← SVec.setLoop l SVec.empty
  if r.1 then .throw else return r.2

/-- The second loop of `TfIdf::term` (tfidf.hpp:190-197), from `i` with `n` rounds left; `sv` is `sv_`. -/
noncomputable def termVecs (idf : List (Option ℝ)) (tf : List (List (Nat × Nat))) :
    (n i : Nat) → List (SVec PTbl (Option ℝ)) → Res (List (SVec PTbl (Option ℝ)))
  | 0, _, sv => .ok sv
  | n + 1, i, sv => do
    let iv ← at? tf i
    let v ← docVec idf iv
    termVecs idf tf n (i + 1) (sv ++ [v])

/-- `TfIdf::term` (tfidf.hpp:183-198) on an object whose `sv_` is `sv`; the result is `sv_` afterwards. -/
noncomputable def TfIdf.term (t : TfIdf) (sv : List (SVec PTbl (Option ℝ))) : Res (List (SVec PTbl (Option ℝ))) :=
  termVecs t.idf t.tf t.df.length 0 sv

end Verif.TfIdf
