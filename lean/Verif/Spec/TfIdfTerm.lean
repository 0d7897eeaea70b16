import Verif.Spec.TfIdf

/-!
# Which words are kept

`freq w` is what is recorded for the word `w` (C57 says what that is).  Of the model only the calls and the lower case function occur.
-/
namespace Verif.Spec.TfIdf

open Verif.TfIdf (Ev Word lower)

/-- The number recorded for a word: the sum over the documents of the number of its spellings. -/
def freq (es : List Ev) (w : Word) : Nat := ((docs es).map (spellings w)).sum

/-- The words that occur more often than `lim`. -/
def frequent (es : List Ev) (lim : Nat) : Finset Word := ((docs es).flatten.map lower).toFinset.filter fun w => lim < freq es w

/-- `ws` are `k` different words that occur more than `lim` times, the rarest first, and no word that was left out is rarer. -/
structure Rarest (es : List Ev) (lim k : Nat) (ws : List Word) : Prop where
  length : ws.length = k
  nodup : ws.Nodup
  mem : ∀ w ∈ ws, w ∈ frequent es lim
  sorted : ws.Pairwise fun v w => freq es v ≤ freq es w
  rest : ∀ v ∈ ws, ∀ w ∈ frequent es lim, w ∉ ws → freq es v ≤ freq es w

end Verif.Spec.TfIdf
