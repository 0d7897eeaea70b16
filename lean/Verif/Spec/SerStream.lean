import Verif.Model.SerStream
import Verif.Spec.Serializer
import Verif.Spec.Stream

/-! # Specification: what a stream class owes the serializer -/
namespace Verif.Spec.SerStream
open Verif.SerStream
open Verif.Serializer (Ty Val)
open Verif.Spec.Serializer Verif.Spec.Stream

variable {σ : Type}

/-- `Rest s l`: the stream `s` is going to deliver `l`.  Asked for at least one byte while there are some, `readSome` delivers at least one
and at most as many as asked for, the next ones.  Asked for more than there are it may throw. -/
structure Serves (I : In σ) (Rest : σ → List UInt8 → Prop) : Prop where
  some : ∀ {s l buf off size}, Rest s l → l ≠ [] → 0 < size → off + size ≤ buf.length →
    (∃ n s', 0 < n ∧ n ≤ size ∧ n ≤ l.length ∧ I.readSome buf off size s = .ok (splice buf off (l.take n), n, s') ∧ Rest s' (l.drop n)) ∨
    (l.length < size ∧ I.readSome buf off size s = .throw)

/-- At the end `readSome` says 0 or throws. -/
structure Ends (I : In σ) (Rest : σ → List UInt8 → Prop) : Prop where
  none : ∀ {s buf off size}, Rest s [] → 0 < size → off + size ≤ buf.length →
    (∃ buf' s', I.readSome buf off size s = .ok (buf', 0, s')) ∨ I.readSome buf off size s = .throw

/-- `Got s l`: the stream has received `l`.  A `write` that fits is received completely. -/
structure Takes (O : Out σ) (Got : σ → List UInt8 → Prop) (Fit : List UInt8 → List UInt8 → Prop) : Prop where
  all : ∀ {s l b}, Got s l → Fit l b → ∃ s', O.write b s = .ok s' ∧ Got s' (l ++ b)

/-- The bytes of an object: those of its fields in order. -/
def bytes (x : Object) : List UInt8 := x.flatMap fun f => Serializer.save f.1 f.2

/-- The calls of `write` an object makes. -/
def calls (x : Object) : List (List UInt8) := x.flatMap fun f => pieces f.1 f.2

/-- Every call fits when it is made. -/
def AllFit (Fit : List UInt8 → List UInt8 → Prop) (l : List UInt8) (ws : List (List UInt8)) : Prop :=
  ∀ ws1 w ws2, ws = ws1 ++ w :: ws2 → Fit (l ++ ws1.flatten) w

/-- `x` can be loaded into `old`: same types, `x` can exist, and the sets and maps of `old` are empty. -/
inductive Ready (ord same : (t : Ty) → Val t → Val t → Bool) : (old x : Object) → Prop
  | nil : Ready ord same [] []
  | cons (t : Ty) (o x : Val t) (os xs : Object) (valid : Valid ord same t x) (clear : Clears t ∨ o = Serializer.default t)
      (h : Ready ord same os xs) : Ready ord same (⟨t, o⟩ :: os) (⟨t, x⟩ :: xs)

end Verif.Spec.SerStream
