import Verif.Model.SvdSmpl
import Verif.Spec.Numeral

/-!
# Specification: the arguments and the files of `svd_smpl`
-/
namespace Verif.Spec.SvdSmpl
open Verif.Spec.Numeral
open Verif.SvdSmpl (Factors)

/-- A word that is a number without a sign, `0 ≤ n < 2^31`. -/
def IsRank (v : List UInt8) (n : Nat) : Prop := 0 ∉ v ∧ v ≠ [] ∧ value? 10 v = some n ∧ n < 2 ^ 31

/-- A command line is a mixture of pairs `-r n` and other words; `ws` are the words, `r` is the last `n`, or `r0` if there is none.  (A word `-r` at
the end is a word like any other.) -/
inductive Reads : (args : List (List UInt8)) → (r0 : Nat) → (ws : List (List UInt8)) → (r : Nat) → Prop
  | nil {r : Nat} : Reads [] r [] r
  | opt {v : List UInt8} {n r0 r : Nat} {rest ws : List (List UInt8)} (hv : IsRank v n) (h : Reads rest n ws r) :
      Reads ([45, 114] :: v :: rest) r0 ws r
  | word {x : List UInt8} {r0 r : Nat} {rest ws : List (List UInt8)} (hx : x ≠ [45, 114] ∨ rest = []) (h : Reads rest r0 ws r) :
      Reads (x :: rest) r0 (x :: ws) r

/-- The factors of an `m × n` matrix to the rank `r` have the right sizes. -/
def Sizes {V : Type} (m n r : Nat) (f : Factors V) : Prop :=
  f.U.length = m ∧ (∀ x ∈ f.U, x.length = r) ∧ f.S.length = r ∧ f.V'.length = n ∧ ∀ x ∈ f.V', x.length = r

end Verif.Spec.SvdSmpl
