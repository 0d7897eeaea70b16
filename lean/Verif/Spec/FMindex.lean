import Verif.Model.Common

/-! Sorted suffixes and occurrences of a word in a text. -/
namespace Verif.Spec.FMindex

/-- Lexicographic order; a proper prefix comes first. -/
def lexLt : List Nat → List Nat → Bool
  | [], [] => false
  | [], _ :: _ => true
  | _ :: _, [] => false
  | a :: as, b :: bs => decide (a < b) || (a == b && lexLt as bs)

/-- `sa` lists the positions of `v` in the order of the suffixes starting there. -/
structure IsSuffixArray (v sa : List Nat) : Prop where
  perm : sa.Perm (List.range v.length)
  sorted : sa.Pairwise fun a b => lexLt (v.drop a) (v.drop b) = true

/-- `key` stands in `text` at position `p`. -/
def OccursAt (text key : List Nat) (p : Nat) : Prop := p < text.length ∧ key <+: text.drop p

/-- The number of positions at which `key` stands, overlapping included. -/
def occurrences (text key : List Nat) : Nat :=
  (List.range text.length).countP fun p => key.isPrefixOf (text.drop p)

/-- The answer to a search for `key` counts its occurrences: no range if there is none, otherwise a range
of as many rows. -/
def Counts (text key : List Nat) (answer : Res (Option (Nat × Nat))) : Prop :=
  (occurrences text key = 0 → answer = .ok none) ∧
  (0 < occurrences text key → ∃ b, answer = .ok (some (b, b + occurrences text key)))

/-- The rows `b .. e-1` are the occurrences of `key`, each once.  `pos row` is the position of a row,
`prev row len` the text of at most `len` characters before it. -/
structure Locates (text key : List Nat) (b e : Nat) (pos : Nat → Res Nat) (prev : Nat → Nat → Res (List Nat)) :
    Prop where
  row : ∀ i, b ≤ i → i < e → ∃ p, OccursAt text key p ∧ pos i = .ok p ∧
    ∀ len, prev i len = .ok ((text.take p).drop (p - len))
  occ : ∀ p, OccursAt text key p → ∃ i, b ≤ i ∧ i < e ∧ pos i = .ok p
  once : ∀ i j p, b ≤ i → i < e → b ≤ j → j < e → pos i = .ok p → pos j = .ok p → i = j

end Verif.Spec.FMindex
