import Verif.Spec.Utf

/-! What reading and comparing text has to mean. -/
namespace Verif.Spec.UString
open Verif.Spec.Utf

/-- A UTF-8 character starts `s`. -/
def StartsWell (s : List Nat) : Prop := ∃ n r, Scalar n ∧ s = utf8 n ++ r

/-- `s` falls into the characters `cs` with pieces of one to four bytes between them, each of which starts where no
character starts. -/
inductive Pieces : List Nat → List Nat → Prop
  | nil : Pieces [] []
  | good (n : Nat) (s cs : List Nat) : Scalar n → Pieces s cs → Pieces (utf8 n ++ s) (n :: cs)
  | skip (p s cs : List Nat) : 1 ≤ p.length → p.length ≤ 4 → ¬ StartsWell (p ++ s) → Pieces s cs → Pieces (p ++ s) cs

/-- Dictionary order. -/
inductive Before {α : Type} (lt : α → α → Prop) : List α → List α → Prop
  | nil (b : α) (bs : List α) : Before lt [] (b :: bs)
  | head (a b : α) (as bs : List α) : lt a b → Before lt (a :: as) (b :: bs)
  | tail (a : α) (as bs : List α) : Before lt as bs → Before lt (a :: as) (a :: bs)

end Verif.Spec.UString
