import Verif.Spec.Numeral
/-!
# What a file of item and user numbers says

Each row has an item and its users.
-/
namespace Verif.Spec.PlsiSmpl

/-- A text is the numeral of an `int`. -/
def IsInt (f : List UInt8) (v : Int) : Prop := Numeral.parseInt (2 ^ 31) (2 ^ 31 - 1) (Numeral.upToNul f) = some v

instance (f : List UInt8) (v : Int) : Decidable (IsInt f v) := inferInstanceAs (Decidable (_ = _))

/-- Texts are the numerals of numbers. -/
inductive AreInts : List (List UInt8) → List Int → Prop
  | nil : AreInts [] []
  | cons {f : List UInt8} {v : Int} {fs : List (List UInt8)} {vs : List Int} (h : IsInt f v) (t : AreInts fs vs) :
      AreInts (f :: fs) (v :: vs)

/-- The rows of the file in numbers; rows with an item alone say nothing. -/
inductive Says : List (List (List UInt8)) → List (Int × List Int) → Prop
  | nil : Says [] []
  | alone {f : List UInt8} {i : Int} {rest : List (List (List UInt8))} {rows : List (Int × List Int)} (h : IsInt f i)
      (t : Says rest rows) : Says ([f] :: rest) rows
  | row {f g : List UInt8} {fs : List (List UInt8)} {i u : Int} {us : List Int} {rest : List (List (List UInt8))}
      {rows : List (Int × List Int)} (h : IsInt f i) (hu : AreInts (g :: fs) (u :: us)) (t : Says rest rows) :
      Says ((f :: g :: fs) :: rest) ((i, u :: us) :: rows)

/-- Some row of the item has the user. -/
def Observed (rows : List (Int × List Int)) (item user : Int) : Prop := ∃ r ∈ rows, r.1 = item ∧ user ∈ r.2

/-- Some row has the user. -/
def HasUser (rows : List (Int × List Int)) (user : Int) : Prop := ∃ r ∈ rows, user ∈ r.2

/-- Some row is about the item. -/
def HasItem (rows : List (Int × List Int)) (item : Int) : Prop := ∃ r ∈ rows, r.1 = item

end Verif.Spec.PlsiSmpl
