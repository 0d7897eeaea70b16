import Verif.Model.RegexIter

/-! # What iterating over matches means -/
namespace Verif.Spec.RegexIter
open Verif.RegexIter (Finder Found)

variable {C R : Type}

/-- What is asked of the engine: what it finds lies behind the start and in the text; with `strict` it is not empty and stands at the start. -/
def Sound (F : Finder C R) : Prop :=
  ∀ e s st strict a b gs, F.find e s st strict = some (a, b, gs) → st ≤ a ∧ a ≤ b ∧ b ≤ s.length ∧ (strict = true → a = st ∧ a < b)

/-- The characters of a span. -/
def text (s : List C) (p : Nat × Nat) : List C := (s.drop p.1).take (p.2 - p.1)

/-- The matches `l` stand in this order from position `p` on, each with the text since the one before as the part before it. -/
inductive Cover (s : List C) : Nat → List Found → Prop where
  | nil {p : Nat} (h : p ≤ s.length) : Cover s p []
  | cons {m : Found} {l : List Found} (h1 : m.pre ≤ m.a) (h2 : m.a ≤ m.b) (h3 : Cover s m.b l) : Cover s m.pre (m :: l)

/-- The rule of the standard for what follows a match: behind a match that is not empty the search goes on at its end.  Behind an empty one, a
match at the same place that is not empty is tried first, and then the search goes on one character later. -/
inductive Walk (F : Finder C R) (e : R) (s : List C) : Found → List Found → Prop where
  | last {m : Found} (h1 : m.a < m.b) (h2 : F.find e s m.b false = none) : Walk F e s m []
  | lastEnd {m : Found} (h1 : m.a = m.b) (h2 : m.b = s.length) : Walk F e s m []
  | lastEmpty {m : Found} (h1 : m.a = m.b) (h2 : F.find e s m.b true = none) (h3 : F.find e s (m.b + 1) false = none) : Walk F e s m []
  | next {m x : Found} {l : List Found} (h1 : m.a < m.b) (h2 : F.find e s m.b false = some (x.a, x.b, x.groups)) (h3 : Walk F e s x l) :
    Walk F e s m (x :: l)
  | nextHere {m x : Found} {l : List Found} (h1 : m.a = m.b) (h0 : m.b < s.length) (h2 : F.find e s m.b true = some (x.a, x.b, x.groups))
    (h3 : Walk F e s x l) : Walk F e s m (x :: l)
  | nextBehind {m x : Found} {l : List Found} (h1 : m.a = m.b) (h0 : m.b < s.length) (h4 : F.find e s m.b true = none)
    (h2 : F.find e s (m.b + 1) false = some (x.a, x.b, x.groups)) (h3 : Walk F e s x l) : Walk F e s m (x :: l)

/-- All matches of the text. -/
def Listed (F : Finder C R) (e : R) (s : List C) : List Found → Prop
  | [] => F.find e s 0 false = none
  | m :: l => F.find e s 0 false = some (m.a, m.b, m.groups) ∧ Walk F e s m l

/-- Where the last match ends. -/
def lastEnd (l : List Found) : Nat := match l.getLast? with | some m => m.b | none => 0

end Verif.Spec.RegexIter
