import Verif.Model.StrAlias
/-!
# What copying a range into a string is meant to do
-/
namespace Verif.Spec.StrAlias
open Verif.StrAlias

/-- The string in buffer `s` has these characters. -/
def Has (h : Heap) (s : Nat) (v : List Int) : Prop := ∃ b, h.buf s = some b ∧ b.data = v

/-- No buffer beyond `fresh` is in use, and no string is longer than its memory. -/
def Good (h : Heap) : Prop := (∀ n, h.fresh ≤ n → h.buf n = none) ∧ ∀ n b, h.buf n = some b → b.data.length ≤ b.cap

/-- The string moved from `s` to `s'` at most: every other buffer is as before, and nothing is left behind. -/
def Only (h h' : Heap) (s s' : Nat) : Prop :=
  (∀ n, n ≠ s → n ≠ s' → h'.buf n = h.buf n) ∧ (s ≠ s' → h'.buf s = none ∧ h.buf s' = none)

end Verif.Spec.StrAlias
