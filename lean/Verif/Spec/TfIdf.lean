import Verif.Model.TfIdf
import Mathlib.Data.Finset.Card

/-!
# Documents of a history

Of the model only the calls (`Ev`) and the lower case function are used.
-/
namespace Verif.Spec.TfIdf

open Verif.TfIdf (Ev Word lower)

/-- The documents of a history; the last one has not ended yet. -/
def docs : List Ev → List (List Word)
  | [] => [[]]
  | .append w :: es =>
    match docs es with
    | [] => [[w]]
    | d :: ds => (w :: d) :: ds
  | .endDoc :: es => [] :: docs es

/-- The number of documents that contain a spelling of the lower case word `w`. -/
def docFreq (ds : List (List Word)) (w : Word) : Nat := ds.countP (fun d => d.any (fun x => lower x = w))

/-- The number of different spellings of `w` in a document. -/
def spellings (w : Word) (d : List Word) : Nat := (d.toFinset.filter (fun x => lower x = w)).card

end Verif.Spec.TfIdf
