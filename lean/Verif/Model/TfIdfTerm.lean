import Verif.Model.TfIdf

/-!
# Model of `Df::term`, the output of `Df` and the reading of keyword files (`include/cybozu/nlp/tfidf.hpp`)

`Model/TfIdf` has the counting.  The product `pv_.size() * upperRateLimit` of a `double`, rounded to `int`, is a parameter `cut`; so are
the texts of the numbers that are printed.  `std::partial_sort` is not stable: a relation says which results are possible.
The messages on stderr are not modelled.
-/
namespace Verif.TfIdf

/-- `Df::Pair` (tfidf.hpp:50-55) -/
structure Pair where
  id : Nat
  freq : Nat
  deriving DecidableEq, Repr

/-- The loop of `Df::term` (tfidf.hpp:90-94), `n` rounds left, from `i`: what is put into `pv_`. -/
def termPairs (df : List Nat) (lowerLimit : Int) : (n i : Nat) → Res (List Pair)
  | 0, _ => .ok []
  | n + 1, i => do
    let freq ← at? df i
    let r ← termPairs df lowerLimit n (i + 1)
    if (freq : Int) ≤ lowerLimit then return r else return ⟨i, freq⟩ :: r

/-- `std::partial_sort(v.begin(), v.begin() + k, v.end())` may leave `out`; the order is `Pair::operator<` (tfidf.hpp:54). -/
def PartialSort (k : Nat) (v out : List Pair) : Prop :=
  out.Perm v ∧ (out.take k).Pairwise (fun a b => ¬ b.freq < a.freq) ∧ ∀ a ∈ out.take k, ∀ b ∈ out.drop k, ¬ b.freq < a.freq

/-- `Df::term` (tfidf.hpp:87-99): `pv_` before and what it may be afterwards.  A middle outside of the vector is undefined behaviour. -/
inductive Df.Term (d : Df) (lowerLimit : Int) (cut : Nat → Int) (pv : List Pair) : Res (List Pair) → Prop where
  | fail {r : Res (List Pair)} (h : termPairs d.df lowerLimit d.id2word.length 0 = r) (h2 : ∀ l, r ≠ .ok l) : Df.Term d lowerLimit cut pv r
  | middle {l : List Pair} (h : termPairs d.df lowerLimit d.id2word.length 0 = .ok l)
      (h2 : cut (pv ++ l).length < 0 ∨ ((pv ++ l).length : Int) < cut (pv ++ l).length) : Df.Term d lowerLimit cut pv .ub
  | done {l out : List Pair} {k : Nat} (h : termPairs d.df lowerLimit d.id2word.length 0 = .ok l) (h2 : cut (pv ++ l).length = k)
      (h3 : k ≤ (pv ++ l).length) (h4 : PartialSort k (pv ++ l) out) : Df.Term d lowerLimit cut pv (.ok (out.take k))

/-- `operator<<` of `Df` (tfidf.hpp:102-111); `num` gives the texts of the frequency and of the logarithm. -/
def Df.put (num : Pair → List Int × List Int) (d : Df) : List Pair → Res (List Int)
  | [] => .ok []
  | p :: pv => do
    let w ← at? d.id2word p.id
    let r ← Df.put num d pv
    return w ++ 9 :: (num p).1 ++ 9 :: (num p).2 ++ 10 :: r

/-- The keywords that `loadKeywordFile` finds in a file (tfidf.hpp:134-138): the loop ends at the first line without a tab. -/
def keywords (s : List Int) : List Word :=
  if h : s = [] then []
  else
    if 9 ∈ s.takeWhile (· ≠ 10) then (s.takeWhile (· ≠ 10)).takeWhile (· ≠ 9) :: keywords ((s.dropWhile (· ≠ 10)).drop 1) else []
termination_by s.length
decreasing_by
  have h1 := (List.dropWhile_suffix (l := s) (· ≠ (10 : Int))).length_le
  cases hs : s with
  | nil => exact absurd hs h
  | cons x t =>
    by_cases hx : x = 10
    · simp [hx]
    · have h2 := (List.dropWhile_suffix (l := t) (· ≠ (10 : Int))).length_le
      simp [hx] at h2 ⊢
      omega

/-- A new `TfIdf` after `loadKeywordFile` (tfidf.hpp:130-149); `none` is a file that cannot be opened. -/
def TfIdf.loadFile : Option (List Int) → TfIdf × Bool
  | none => (⟨[], [], [], [], false, []⟩, false)
  | some s => (TfIdf.load (keywords s), true)

end Verif.TfIdf
