import Verif.Model.RegexWrap

/-!
# Model of `sregex_iterator` and `sregex_token_iterator` of `regex.hpp`

The base classes are those of the standard library; what they do is taken from the standard ([re.regiter], [re.tokiter]).  The engine is a
parameter.  Strings, patterns and iterators are objects with a lifetime.  Positions are counted from the start of the string, and the
iterators run over whole strings.
-/
namespace Verif.RegexIter
open Verif.RegexWrap (Heap)

/-- A match: where the part before it starts, where it starts and ends, and its groups. -/
structure Found where
  pre : Nat
  a : Nat
  b : Nat
  groups : List (Option (Nat × Nat))

/-- The engine: `find e s start strict` looks from `start` on; `strict` stands for the flags `match_not_null | match_continuous`. -/
structure Finder (C R : Type) where
  find : R → List C → Nat → Bool → Option (Nat × Nat × List (Option (Nat × Nat)))

variable {C R : Type}

/-- What the engine finds, with the part before it starting at `pre`. -/
def found (pre : Nat) (r : Option (Nat × Nat × List (Option (Nat × Nat)))) : Option Found := r.map fun t => ⟨pre, t.1, t.2.1, t.2.2⟩

/-- `regex_iterator::operator++` on a match ([re.regiter.incr]), used by regex.hpp:351-363. -/
def step (F : Finder C R) (e : R) (s : List C) (m : Found) : Option Found :=
  if m.a = m.b then
    if m.b = s.length then none
    else match F.find e s m.b true with
      | some t => some ⟨m.b, t.1, t.2.1, t.2.2⟩
      | none => found m.b (F.find e s (m.b + 1) false)
  else found m.b (F.find e s m.b false)

/-- `sregex_iterator` (regex.hpp:351-363): it points to the string and to the pattern; `cur` is `none` at the end. -/
structure It where
  str : Nat
  re : Nat
  cur : Option Found

/-- `sregex_iterator(a, b, re, m)` (regex.hpp:355-356). -/
def It.start (F : Finder C R) (h : Heap C) (rh : Nat → Option R) (o r : Nat) : Res It :=
  match h o, rh r with
  | some s, some e => .ok ⟨o, r, found 0 (F.find e s 0 false)⟩
  | _, _ => .ub

/-- `++i`. -/
def It.next (F : Finder C R) (h : Heap C) (rh : Nat → Option R) (i : It) : Res It :=
  match i.cur with
  | none => .ub
  | some m =>
    match h i.str, rh i.re with
    | some s, some e => .ok { i with cur := step F e s m }
    | _, _ => .ub

/-- The match objects that are alive, by the iterator that holds them. -/
abbrev Held := Nat → Option (Option Found)

/-- `sregex_iterator::operator*` and `operator->` (regex.hpp:360-361): the copy `Base(*this)` is the object `tmp`, a reference into it is taken, and the
copy is gone when the function returns. -/
def deref (live : Held) (self tmp : Nat) : Res (Nat × Held) :=
  match live self with
  | none => .ub
  | some c =>
    let inner : Held := fun k => if k = tmp then some c else live k
    match inner tmp with
    | some (some _) => .ok (tmp, fun k => if k = tmp then none else inner k)
    | _ => .ub

/-- Using the reference to a match. -/
def readRef (live : Held) (k : Nat) : Res Found :=
  match live k with
  | some (some m) => .ok m
  | _ => .ub

/-- `sregex_token_iterator` (regex.hpp:365-386): the position, the wanted parts, the number of the current one, and the rest of the text if
it points to that. -/
structure Tok where
  pos : It
  subs : List Int
  n : Nat
  suf : Option (Nat × Nat)

/-- The constructors (regex.hpp:370-376, [re.tokiter.cnstr]). -/
def Tok.start (F : Finder C R) (h : Heap C) (rh : Nat → Option R) (o r : Nat) (subs : List Int) : Res Tok := do
  let i ← It.start F h rh o r
  match h o with
  | none => .ub
  | some s => pure ⟨i, subs, 0, if i.cur.isNone ∧ (-1) ∈ subs then some (0, s.length) else none⟩

/-- Equality with the default-constructed iterator. -/
def Tok.atEnd (t : Tok) : Bool := t.pos.cur.isNone && t.suf.isNone

/-- The part `k` of a match: −1 is the part before it, 0 the whole, else a group; `none`: a group that took no part. -/
def pick (m : Found) (k : Int) : Option (Nat × Nat) :=
  if k = -1 then some (m.pre, m.a)
  else if k = 0 then some (m.a, m.b)
  else (m.groups[k.toNat - 1]?).getD none

/-- `operator*` (regex.hpp:379): what the iterator points to; `.ub` at the end. -/
def Tok.deref (t : Tok) : Res (Option (Nat × Nat)) :=
  match t.suf with
  | some r => .ok (some r)
  | none =>
    match t.pos.cur with
    | none => .ub
    | some m => do
      let k ← at? t.subs t.n
      pure (pick m k)

/-- `operator++` (regex.hpp:380, [re.tokiter.incr]). -/
def Tok.next (F : Finder C R) (h : Heap C) (rh : Nat → Option R) (t : Tok) : Res Tok :=
  match t.suf with
  | some _ => .ok { t with pos := { t.pos with cur := none }, suf := none }
  | none =>
    match t.pos.cur with
    | none => .ub
    | some m =>
      if t.n + 1 < t.subs.length then .ok { t with n := t.n + 1 }
      else do
        let i ← It.next F h rh t.pos
        match h t.pos.str with
        | none => .ub
        | some s => pure ⟨i, t.subs, 0, if i.cur.isNone ∧ (-1) ∈ t.subs ∧ m.b ≠ s.length then some (m.b, s.length) else none⟩

/-- `operator++(int)` (regex.hpp:381-385): the iterator before, and the one that went on. -/
def Tok.post (F : Finder C R) (h : Heap C) (rh : Nat → Option R) (t : Tok) : Res (Tok × Tok) := do
  let prev := t
  let t ← t.next F h rh
  return (prev, t)

/-- The loop `for (; i != end; ++i) use(*i);` of a program (test/base/regex_test.cpp:42-47) with at most `fuel` rounds; `none`: not done by then. -/
def Tok.loop (F : Finder C R) (h : Heap C) (rh : Nat → Option R) : (fuel : Nat) → Tok → Res (Option (List (Option (Nat × Nat))))
  | 0, t => if t.atEnd then .ok (some []) else .ok none
  | fuel + 1, t =>
    if t.atEnd then .ok (some [])
    else do
      let x ← t.deref
      let t ← t.next F h rh
      let r ← loop F h rh fuel t
      pure (r.map (x :: ·))

/-- All matches of an `sregex_iterator`, as seen by the standard's own `operator*`. -/
def It.loop (F : Finder C R) (h : Heap C) (rh : Nat → Option R) : (fuel : Nat) → It → Res (Option (List Found))
  | 0, i => if i.cur.isNone then .ok (some []) else .ok none
  | fuel + 1, i =>
    match i.cur with
    | none => .ok (some [])
    | some m => do
      let i ← i.next F h rh
      let r ← loop F h rh fuel i
      pure (r.map (m :: ·))

end Verif.RegexIter
