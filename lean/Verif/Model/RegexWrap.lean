import Verif.Model.Common

/-!
# Model of the wrappers of `regex.hpp` for `cybozu::String`

The engine (Boost or the standard library) is a parameter.  Strings are objects with a lifetime; an iterator is an object and a position.
-/
namespace Verif.RegexWrap

/-- The engine: compiled patterns, and for a text the spans of the whole match and of the groups (`none`: the group did not take part). -/
structure Engine (C R : Type) where
  compile : List C → R
  search : R → List C → Option (Nat × Nat × List (Option (Nat × Nat)))
  full : R → List C → Option (Nat × Nat × List (Option (Nat × Nat)))
  replace : R → List C → List C → List C

/-- The strings that are alive. -/
abbrev Heap (C : Type) := Nat → Option (List C)

/-- `String::const_iterator`. -/
structure Iter where
  obj : Nat
  pos : Nat

/-- `sub_match`: two iterators and `matched`. -/
structure Sub where
  first : Iter
  second : Iter
  matched : Bool

/-- `smatch`: the whole match, the groups, and what is before and behind (`match_results`). -/
structure SMatch where
  whole : Sub
  groups : List Sub
  pre : Sub
  suf : Sub

variable {C R : Type} [DecidableEq C]

/-- The characters up to the terminator `z`. -/
def cstr (z : C) (s : List C) : List C := s.takeWhile (· ≠ z)

/-- `regex(const Char*)`, `regex(const Char16*)`, `regex(const String&)` (regex.hpp:319-324): all through `c_str()`. -/
def ofString (E : Engine C R) (z : C) (p : List C) : R := E.compile (cstr z p)

/-- `regex(p1, p2)` and `regex(p, len, f)` (regex.hpp:325-328). -/
def ofRange (E : Engine C R) (p : List C) : R := E.compile p

/-- The text between two iterators of one living string. -/
def readRange (h : Heap C) (a b : Iter) : Res (List C) :=
  if a.obj ≠ b.obj then .ub else
  match h a.obj with
  | none => .ub
  | some s => if a.pos ≤ b.pos ∧ b.pos ≤ s.length then .ok ((s.drop a.pos).take (b.pos - a.pos)) else .ub

/-- `sub_match::str` (regex.hpp:336-339). -/
def Sub.str (h : Heap C) (m : Sub) : Res (List C) := if m.matched then readRange h m.first m.second else .ok []

/-- The group of the engine as iterators of object `o`, relative to position `base`. -/
def mkSub (o base : Nat) (g : Option (Nat × Nat)) : Sub :=
  match g with
  | none => ⟨⟨o, base⟩, ⟨o, base⟩, false⟩
  | some (a, b) => ⟨⟨o, base + a⟩, ⟨o, base + b⟩, true⟩

/-- What the engine gives, as `smatch`. -/
def mkMatch (a b : Iter) (m : Nat × Nat × List (Option (Nat × Nat))) : SMatch :=
  ⟨mkSub a.obj a.pos (some (m.1, m.2.1)), m.2.2.map (mkSub a.obj a.pos),
   ⟨a, ⟨a.obj, a.pos + m.1⟩, true⟩, ⟨⟨a.obj, a.pos + m.2.1⟩, b, true⟩⟩

/-- `regex_search(begin, end, m, e)` (regex.hpp:388-391). -/
def search (E : Engine C R) (h : Heap C) (a b : Iter) (e : R) : Res (Option SMatch) := do
  let t ← readRange h a b
  pure ((E.search e t).map (mkMatch a b))

/-- `regex_match(begin, end, m, e)` (regex.hpp:422-425). -/
def fullMatch (E : Engine C R) (h : Heap C) (a b : Iter) (e : R) : Res (Option SMatch) := do
  let t ← readRange h a b
  pure ((E.full e t).map (mkMatch a b))

/-- `s.begin()`, `s.end()` of object `o`. -/
def rangeOf (h : Heap C) (o : Nat) : Res (Iter × Iter) :=
  match h o with
  | none => .ub
  | some s => .ok (⟨o, 0⟩, ⟨o, s.length⟩)

/-- `regex_search(const String&, m, e)` (regex.hpp:393-396). -/
def searchStr (E : Engine C R) (h : Heap C) (o : Nat) (e : R) : Res (Option SMatch) := do
  let r ← rangeOf h o
  search E h r.1 r.2 e

/-- `regex_match(const String&, m, e)` (regex.hpp:427-430). -/
def matchStr (E : Engine C R) (h : Heap C) (o : Nat) (e : R) : Res (Option SMatch) := do
  let r ← rangeOf h o
  fullMatch E h r.1 r.2 e

/-- `regex_search(const String&, e)` (regex.hpp:398-402). -/
def searchBool (E : Engine C R) (h : Heap C) (o : Nat) (e : R) : Res Bool := do
  let m ← searchStr E h o e
  pure m.isSome

/-- `regex_match(const String&, e)` (regex.hpp:438-442). -/
def matchBool (E : Engine C R) (h : Heap C) (o : Nat) (e : R) : Res Bool := do
  let m ← matchStr E h o e
  pure m.isSome

/-- `regex_replace(const String&, e, fmt)` (regex.hpp:410-415, 417-420): appended to an empty string. -/
def replaceStr (E : Engine C R) (h : Heap C) (o : Nat) (e : R) (fmt : List C) : Res (List C) := do
  let r ← rangeOf h o
  let t ← readRange h r.1 r.2
  pure ([] ++ E.replace e t fmt)

/-- A call with an argument that is converted to a `String`: the object `o` lives for the call only. -/
def withTemp {α : Type} (h : Heap C) (o : Nat) (s : List C) (f : Heap C → Res α) : Res (α × Heap C) := do
  let x ← f (fun i => if i = o then some s else h i)
  pure (x, fun i => if i = o then none else h i)

end Verif.RegexWrap
