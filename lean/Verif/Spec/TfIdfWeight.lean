import Verif.Spec.TfIdf
import Mathlib.Analysis.SpecialFunctions.Log.Basic

/-!
# Specification of tf-idf weights
-/
namespace Verif.Spec.TfIdf

open Verif.TfIdf (Ev Word lower)

/-- How often a document has a spelling of the lower case word `w`. -/
def termFreq (d : List Word) (w : Word) : Nat := d.countP (fun x => lower x = w)

/-- The documents that have a keyword. -/
def withKeyword (keys : List Word) (ds : List (List Word)) : List (List Word) :=
  ds.filter (fun d => d.any (fun x => decide (lower x ∈ keys)))

/-- The tf-idf weight of `w` in the document `d` of the collection `ds`. -/
noncomputable def weight (ds : List (List Word)) (d : List Word) (w : Word) : ℝ :=
  termFreq d w * Real.log ((ds.length : ℝ) / docFreq ds w)

end Verif.Spec.TfIdf
