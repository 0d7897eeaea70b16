import Verif.Spec.Utf

/-! # Specification: the lines and the words of a text -/
namespace Verif.Spec.UStream

/-- `b` is made of these lines: each is ended by the delimiter, only the last one need not be, if it is not empty. -/
def IsLines (delim : Nat) (b : List Nat) (ls : List (List Nat)) : Prop :=
  (∀ l ∈ ls, delim ∉ l) ∧
  (b = ls.flatMap (· ++ [delim]) ∨ ∃ init last, ls = init ++ [last] ∧ last ≠ [] ∧ b = init.flatMap (· ++ [delim]) ++ last)

/-- The white space of ASCII: tab, line feed, vertical tab, form feed, carriage return, blank. -/
def Blank (b : Nat) : Prop := b ∈ [9, 10, 11, 12, 13, 32]

/-- `b` is made of these words with white space around them. -/
inductive IsWords : List Nat → List (List Nat) → Prop
  | nil (sp) : (∀ b ∈ sp, Blank b) → IsWords sp []
  | last (sp w) : (∀ b ∈ sp, Blank b) → w ≠ [] → (∀ b ∈ w, ¬ Blank b) → IsWords (sp ++ w) [w]
  | cons (sp w c rest ws) : (∀ b ∈ sp, Blank b) → w ≠ [] → (∀ b ∈ w, ¬ Blank b) → Blank c → IsWords (c :: rest) ws →
      IsWords (sp ++ w ++ c :: rest) (w :: ws)

end Verif.Spec.UStream
