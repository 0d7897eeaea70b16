import Verif.Model.SvdText
import Verif.Spec.Numeral

/-!
# Specification: text files of matrices
-/
namespace Verif.Spec.SvdText
open Verif.Spec.Numeral
open Verif.SvdText (NumIO Str)

/-- A white space character. -/
def Space (c : UInt8) : Prop := c = 32 ∨ c = 9 ∨ c = 10 ∨ c = 11 ∨ c = 12 ∨ c = 13

/-- Integers are written as decimal numerals. -/
def WritesNat {V : Type} (io : NumIO V) : Prop := ∀ n, Canonical 10 (io.nat n) n

/-- A number is written without spaces, and when a space or the end follows, `x'` is read back, up to that space.  (`x'` is `x` rounded
to eight digits.) -/
def Readable {V : Type} (io : NumIO V) (x x' : V) : Prop :=
  io.print x ≠ [] ∧ (∀ c ∈ io.print x, ¬ Space c) ∧
  ∀ rest : Str, (∀ c, rest.head? = some c → Space c) → io.scan (io.print x ++ rest) = some (x', rest)

/-- A scanner only moves forward. -/
def Forward {V : Type} (io : NumIO V) : Prop := ∀ s v r, io.scan s = some (v, r) → r.length ≤ s.length

/-- The entries of a row as a dense row: the value at a position that is listed, zero elsewhere. -/
def DenseRow {V : Type} (zero : V) (cols : Nat) (es : List (Nat × V)) (row : List V) : Prop :=
  row.length = cols ∧ (∀ e ∈ es, row[e.1]? = some e.2) ∧ ∀ j, j < cols → (∀ e ∈ es, e.1 ≠ j) → row[j]? = some zero

/-- The positions of a row are ascending and exist. -/
def Ascending {V : Type} (cols : Nat) (es : List (Nat × V)) : Prop := (es.map (·.1)).Pairwise (· < ·) ∧ ∀ e ∈ es, e.1 < cols

end Verif.Spec.SvdText
