/-!
# A text that arrives in pieces
-/
namespace Verif.Spec.SslSmpl

/-- `text` arrives in pieces of at most `n` bytes, none empty. -/
inductive Pieces (n : Nat) : (ps : List (List UInt8)) → (text : List UInt8) → Prop
  | nil : Pieces n [] []
  | cons {p text : List UInt8} {ps : List (List UInt8)} (h0 : p ≠ []) (hn : p.length ≤ n) (h : Pieces n ps text) : Pieces n (p :: ps) (p ++ text)

/-- The bytes before the first NUL. -/
def BeforeNul (p s : List UInt8) : Prop := 0 ∉ s ∧ (s = p ∨ ∃ r, p = s ++ 0 :: r)

/-- Each piece is shown up to its first NUL. -/
inductive Shows : (ps : List (List UInt8)) → (text : List UInt8) → Prop
  | nil : Shows [] []
  | cons {p s text : List UInt8} {ps : List (List UInt8)} (hs : BeforeNul p s) (h : Shows ps text) : Shows (p :: ps) (s ++ text)

end Verif.Spec.SslSmpl
