import Verif.Model.Common

/-! What a search of a text for the words of a file has to give. -/
namespace Verif.Spec.FmSample

/-- The positions at which `key` stands in `text`, ascending. -/
def positions (text key : List Nat) : List Int :=
  ((List.range text.length).filter fun p => key.isPrefixOf (text.drop p)).map Int.ofNat

/-- White space: tab, line feed, vertical tab, form feed, carriage return, space. -/
def Blank (c : Nat) : Prop := c ∈ [9, 10, 11, 12, 13, 32]

/-- A query file: blanks, then words, each followed by blanks, the last one perhaps by the end of the file. -/
inductive File : List (List Nat) → List Nat → Prop
  | none (s : List Nat) (h : ∀ c ∈ s, Blank c) : File [] s
  | last (s w : List Nat) (h : ∀ c ∈ s, Blank c) (hw : w ≠ []) (hb : ∀ c ∈ w, ¬ Blank c) : File [w] (s ++ w)
  | more (s w : List Nat) (x : Nat) (ws : List (List Nat)) (rest : List Nat) (h : ∀ c ∈ s, Blank c) (hw : w ≠ [])
      (hb : ∀ c ∈ w, ¬ Blank c) (hx : Blank x) (hr : File ws rest) : File (w :: ws) (s ++ w ++ x :: rest)

end Verif.Spec.FmSample
