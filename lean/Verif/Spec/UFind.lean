import Verif.Spec.Utf

/-! What a search in a sequence has to give. -/
namespace Verif.Spec.UFind

/-- `key` stands in `s` at `p`. -/
def Occurs (key s : List Nat) (p : Nat) : Prop := ∃ a b, s = a ++ key ++ b ∧ a.length = p

/-- `r` is the first position at or behind `off` with `P`, or says that there is none. -/
def IsFirst (P : Nat → Prop) (off : Nat) : Option Nat → Prop
  | none => ∀ p, off ≤ p → ¬ P p
  | some q => off ≤ q ∧ P q ∧ ∀ p, off ≤ p → p < q → ¬ P p

/-- `r` is the last position at or before `off` with `P`, or says that there is none. -/
def IsLast (P : Nat → Prop) (off : Nat) : Option Nat → Prop
  | none => ∀ p, p ≤ off → ¬ P p
  | some q => q ≤ off ∧ P q ∧ ∀ p, p ≤ off → q < p → ¬ P p

/-- The character at `p` is one of `set`. -/
def OneOf (s set : List Nat) (p : Nat) : Prop := ∃ c, s[p]? = some c ∧ c ∈ set

/-- There is a character at `p`, and it is none of `set`. -/
def NoneOf (s set : List Nat) (p : Nat) : Prop := ∃ c, s[p]? = some c ∧ c ∉ set

/-- Where character `i` starts in the UTF-8 form. -/
def bytePos (cs : List Nat) (i : Nat) : Nat := (Verif.Spec.Utf.utf8s (cs.take i)).length

end Verif.Spec.UFind
