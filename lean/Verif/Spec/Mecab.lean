/-!
# Words in a text
-/
namespace Verif.Spec.Mecab

/-- Blank, line feed, carriage return, tab. -/
def White (b : UInt8) : Prop := b = 32 ∨ b = 10 ∨ b = 13 ∨ b = 9
instance : DecidablePred White := fun _ => by unfold White; infer_instance

/-- The pieces joined by blanks. -/
def joined : List (List UInt8) → List UInt8
  | [] => []
  | [w] => w
  | w :: ws => w ++ 32 :: joined ws

/-- A piece without the white space before it. -/
def trimmed (w : List UInt8) : List UInt8 := w.dropWhile fun b => decide (White b)

end Verif.Spec.Mecab
