/-! What trimming, splitting and case-insensitive comparison mean. -/
namespace Verif.Spec.StringOp

/-- `m` is what remains of `s` without the blanks at both ends. -/
def IsTrimmed {α : Type} (blank : α → Bool) (s m : List α) : Prop :=
  ∃ a c, s = a ++ m ++ c ∧ (∀ x ∈ a, blank x = true) ∧ (∀ x ∈ c, blank x = true) ∧
    (∀ x ∈ m.head?, blank x = false) ∧ (∀ x ∈ m.getLast?, blank x = false)

/-- `m` is what remains of `s` without the blanks at the end. -/
def IsStripped {α : Type} (blank : α → Bool) (s m : List α) : Prop :=
  ∃ c, s = m ++ c ∧ (∀ x ∈ c, blank x = true) ∧ (∀ x ∈ m.getLast?, blank x = false)

/-- The pieces with the separator between them. -/
def join {α : Type} (sep : α) : List (List α) → List α
  | [] => []
  | [p] => p
  | p :: ps => p ++ sep :: join sep ps

/-- Lower case of an ASCII letter; other characters are unchanged. -/
def lower (c : Int) : Int := if 'A'.toNat ≤ c ∧ c ≤ 'Z'.toNat then c + 32 else c

/-- Upper case of an ASCII letter; other characters are unchanged. -/
def upper (c : Int) : Int := if 'a'.toNat ≤ c ∧ c ≤ 'z'.toNat then c - 32 else c

/-- Unicode white space and the byte order mark. -/
def whiteSpace : List Nat :=
  [0x09, 0x0a, 0x0b, 0x0c, 0x0d, 0x20, 0x85, 0xa0, 0x1680, 0x180e, 0x2000, 0x2001, 0x2002, 0x2003, 0x2004, 0x2005,
    0x2006, 0x2007, 0x2008, 0x2009, 0x200a, 0x2028, 0x2029, 0x202f, 0x205f, 0x3000, 0xfeff]

/-- The target stands at position `p` of `s`, case ignored. -/
def MatchesAt (s t : List Int) (p : Nat) : Prop := p ≤ s.length ∧ t.map lower <+: (s.drop p).map lower

end Verif.Spec.StringOp
