import Verif.Model.Common

/-!
# Model of `include/cybozu/nlp/sparse.hpp`

`size_t` values are natural numbers below `2^64`; the sums of the code are reduced where the C++ type could wrap.
An operation that may throw after it changed the object returns a flag (`true`: it threw) together with the object.
`reserve` and memory allocation are not modelled.
-/
namespace Verif.Sparse

/-! ## `PositionTbl` -/

/-- `option::PositionTbl` (sparse.hpp:18-19): `std::vector<unsigned int> v_`. -/
structure PTbl where
  v : List Nat
  deriving DecidableEq, Repr

/-- `PositionTbl::Curr` (sparse.hpp:21-31). -/
structure PCurr where
  vecPos : Nat
  deriving DecidableEq, Repr

/-- `PositionTbl::set` (sparse.hpp:36-45). -/
def PTbl.set (t : PTbl) (pos : Nat) : Res (Bool × PTbl) := do
  let bad ← (if !t.v.isEmpty then do return decide (pos ≤ (← at? t.v (t.v.length - 1))) else .ok false)
  if bad then return (true, t)
  else if pos > 0xffffffff then return (true, t)
  else return (false, ⟨t.v ++ [pos % 2 ^ 32]⟩)

/-! ## `CompressedPositionTbl` -/

/-- `option::CompressedPositionTbl` (sparse.hpp:74-77). -/
structure CTbl where
  v : List Nat
  lastPos : Nat
  addDummy : Bool
  deriving DecidableEq, Repr

/-- `CompressedPositionTbl::Curr` (sparse.hpp:80-83). -/
structure CCurr where
  vecPos : Nat
  val : Nat
  pos : Nat
  deriving DecidableEq, Repr

/-- The constructor and `clear` (sparse.hpp:100-110). -/
def CTbl.empty : CTbl := ⟨[], 0, false⟩

/-- The bytes appended by `set` for a difference (sparse.hpp:129-144). -/
def CTbl.bytes (diff : Nat) : List Nat :=
  if diff < 1 <<< 6 then [diff % 256]
  else if diff < 1 <<< 14 then [((diff &&& 0x3f) % 256) ||| (1 <<< 6), (diff >>> 6) % 256]
  else if diff < 1 <<< 22 then [((diff &&& 0x3f) % 256) ||| (2 <<< 6), (diff >>> 6) % 256, (diff >>> 14) % 256]
  else [((diff &&& 0x3f) % 256) ||| (3 <<< 6), (diff >>> 6) % 256, (diff >>> 14) % 256, (diff >>> 22) % 256]

/-- `CompressedPositionTbl::set` (sparse.hpp:115-145). -/
def CTbl.set (t : CTbl) (pos : Nat) : Bool × CTbl :=
  let t := if t.addDummy then { t with v := t.v.take (t.v.length - 1), addDummy := false } else t
  if !t.v.isEmpty ∧ pos ≤ t.lastPos then (true, t)
  else if (pos + 2 ^ 64 - t.lastPos) % 2 ^ 64 ≥ 1 <<< 30 then (true, t)
  else
    let diff := ((pos + 2 ^ 64 - t.lastPos) % 2 ^ 64) % 2 ^ 32
    (false, { t with lastPos := pos, v := t.v ++ CTbl.bytes diff })

/-- `CompressedPositionTbl::setup` (sparse.hpp:159-176). -/
def CTbl.setup (t : CTbl) (curr : CCurr) : Res CCurr := do
  let diff ← at? t.v curr.pos
  let k := diff >>> 6
  let pos := curr.pos
  let diff ← (if k > 0 then do
      let diff := diff &&& ((1 <<< 6) - 1)
      if k = 1 then do
        return diff ||| ((← at? t.v ((pos + 1) % 2 ^ 32)) <<< 6)
      else if k = 2 then do
        return diff ||| (((← at? t.v ((pos + 1) % 2 ^ 32)) <<< 6) ||| ((← at? t.v ((pos + 2) % 2 ^ 32)) <<< 14))
      else do
        return diff ||| ((((← at? t.v ((pos + 1) % 2 ^ 32)) <<< 6) ||| ((← at? t.v ((pos + 2) % 2 ^ 32)) <<< 14)) |||
          ((← at? t.v ((pos + 3) % 2 ^ 32)) <<< 22))
    else .ok diff)
  return { curr with val := (curr.val + diff) % 2 ^ 64, pos := (curr.pos + k + 1) % 2 ^ 32 }

/-- The constructor `Curr(tbl)` (sparse.hpp:84-94): it appends the dummy to the table. -/
def CTbl.first (t : CTbl) : Res (CTbl × CCurr) := do
  let t := if !t.addDummy then { t with v := t.v ++ [0], addDummy := true } else t
  return (t, ← t.setup ⟨0, 0, 0⟩)

/-- `CompressedPositionTbl::next` (sparse.hpp:146-150). -/
def CTbl.next (t : CTbl) (curr : CCurr) : Res CCurr := do
  let curr ← t.setup curr
  return { curr with vecPos := (curr.vecPos + 1) % 2 ^ 64 }

/-! ## `SparseVector` over either table -/

/-- What `SparseVector` uses of its template argument `PosTbl`. -/
class PosTbl (P : Type) where
  Curr : Type
  empty : P
  set : P → Nat → Res (Bool × P)
  first : P → Res (P × Curr)
  next : P → Curr → Res Curr
  get : P → Curr → Res Nat
  vecPos : Curr → Nat

/-- `PositionTbl` (sparse.hpp:21-57). -/
instance : PosTbl PTbl where
  Curr := PCurr
  empty := ⟨[]⟩
  set := PTbl.set
  first t := .ok (t, ⟨0⟩)
  next _ c := .ok ⟨(c.vecPos + 1) % 2 ^ 64⟩
  get t c := at? t.v c.vecPos
  vecPos := PCurr.vecPos

/-- `CompressedPositionTbl` (sparse.hpp:80-151). -/
instance : PosTbl CTbl where
  Curr := CCurr
  empty := CTbl.empty
  set t pos := .ok (t.set pos)
  first := CTbl.first
  next := CTbl.next
  get _ c := .ok c.val
  vecPos := CCurr.vecPos

/-- `SparseVector<T, PosTbl>` (sparse.hpp:181-184). -/
structure SVec (P T : Type) where
  posTbl : P
  vec : List T

variable {P T : Type} [PosTbl P]

/-- The constructor and `clear` (sparse.hpp:217-219, 238-242). -/
def SVec.empty : SVec P T := ⟨PosTbl.empty, []⟩

/-- `push_back` (sparse.hpp:233-237). -/
def SVec.pushBack (s : SVec P T) (pos : Nat) (x : T) : Res (Bool × SVec P T) := do
  let (thrown, t) ← PosTbl.set s.posTbl pos
  if thrown then return (true, { s with posTbl := t })
  else return (false, ⟨t, s.vec ++ [x]⟩)

/-- `begin()` (sparse.hpp:192-196, 243): the iterator, and the vector with the dummy in its table. -/
def SVec.begin (s : SVec P T) : Res (SVec P T × PosTbl.Curr P) := do
  let (t, c) ← PosTbl.first s.posTbl
  return ({ s with posTbl := t }, c)

/-- `pos()` of an iterator of `s` (sparse.hpp:202). -/
def SVec.pos (s : SVec P T) (c : PosTbl.Curr P) : Res Nat := PosTbl.get s.posTbl c

/-- `val()` of an iterator of `s` (sparse.hpp:203). -/
def SVec.val (s : SVec P T) (c : PosTbl.Curr P) : Res T := at? s.vec (PosTbl.vecPos c)

/-- `operator++` of an iterator of `s` (sparse.hpp:207-210). -/
def SVec.next (s : SVec P T) (c : PosTbl.Curr P) : Res (PosTbl.Curr P) := PosTbl.next s.posTbl c

/-- The iterator is equal to `end()` (sparse.hpp:198-201, 211, 244): only `vecPos_` is compared. -/
def SVec.isEnd (s : SVec P T) (c : PosTbl.Curr P) : Bool := PosTbl.vecPos c == s.vec.length

/-- The loop of a user, `for (i = begin(), ie = end(); i != ie; ++i)`, collecting `(pos, val)`, at most `fuel` rounds. -/
def SVec.iterLoop : (fuel : Nat) → (s : SVec P T) → PosTbl.Curr P → Res (List (Nat × T))
  | 0, _, _ => .ub
  | fuel + 1, s, c =>
    if s.isEnd c then .ok []
    else do
      let p ← s.pos c
      let x ← s.val c
      let c ← s.next c
      let l ← SVec.iterLoop fuel s c
      return (p, x) :: l

/-- The whole loop of a user: the pairs and the vector afterwards. -/
def SVec.iterate (s : SVec P T) : Res (List (Nat × T) × SVec P T) := do
  let (s, c) ← s.begin
  let l ← SVec.iterLoop (s.vec.length + 1) s c
  return (l, s)

/-- The loop of `operator==` (sparse.hpp:250-254). -/
def SVec.eqLoop [DecidableEq T] : (fuel : Nat) → (s1 s2 : SVec P T) → (c1 c2 : PosTbl.Curr P) → Res Bool
  | 0, _, _, _, _ => .ub
  | fuel + 1, s1, s2, c1, c2 =>
    if s1.isEnd c1 then .ok true
    else do
      if (← s1.pos c1) ≠ (← s2.pos c2) then return false
      else if (← s1.val c1) ≠ (← s2.val c2) then return false
      else SVec.eqLoop fuel s1 s2 (← s1.next c1) (← s2.next c2)

/-- `operator==` (sparse.hpp:247-255), for two different objects. -/
def SVec.eq [DecidableEq T] (s1 s2 : SVec P T) : Res Bool :=
  if s1.vec.length ≠ s2.vec.length then .ok false
  else do
    let (s1, c1) ← s1.begin
    let (s2, c2) ← s2.begin
    SVec.eqLoop (s1.vec.length + 1) s1 s2 c1 c2

/-! ## `Intersection`

The vectors are those after `begin()`; iterators refer to them. -/

/-- `Intersection::ConstIterator` (sparse.hpp:306-312); the ends are those of the vectors. -/
structure IIter (P1 P2 : Type) [PosTbl P1] [PosTbl P2] where
  b1 : PosTbl.Curr P1
  b2 : PosTbl.Curr P2
  isEnd : Bool

variable {P1 P2 T1 T2 : Type} [PosTbl P1] [PosTbl P2]

/-- `while (begin1_->pos() < begin2_->pos())` (sparse.hpp:343-349). -/
def IIter.while1 (s1 : SVec P1 T1) (s2 : SVec P2 T2) : (fuel : Nat) → IIter P1 P2 → Res (IIter P1 P2)
  | 0, _ => .ub
  | fuel + 1, it => do
    if (← s1.pos it.b1) < (← s2.pos it.b2) then do
      let b1 ← s1.next it.b1
      if s1.isEnd b1 then return { it with b1, isEnd := true }
      else IIter.while1 s1 s2 fuel { it with b1 }
    else return it

/-- `while (begin1_->pos() > begin2_->pos())` (sparse.hpp:352-358). -/
def IIter.while2 (s1 : SVec P1 T1) (s2 : SVec P2 T2) : (fuel : Nat) → IIter P1 P2 → Res (IIter P1 P2)
  | 0, _ => .ub
  | fuel + 1, it => do
    if (← s1.pos it.b1) > (← s2.pos it.b2) then do
      let b2 ← s2.next it.b2
      if s2.isEnd b2 then return { it with b2, isEnd := true }
      else IIter.while2 s1 s2 fuel { it with b2 }
    else return it

/-- The rounds of an unbounded loop over both vectors; more than enough. -/
def rounds (s1 : SVec P1 T1) (s2 : SVec P2 T2) : Nat := s1.vec.length + s2.vec.length + 1

/-- `for (;;)` (sparse.hpp:342-360); a loop that reached an end returns from `operator++`. -/
def IIter.forever (s1 : SVec P1 T1) (s2 : SVec P2 T2) : (fuel : Nat) → IIter P1 P2 → Res (IIter P1 P2)
  | 0, _ => .ub
  | fuel + 1, it => do
    let it ← IIter.while1 s1 s2 (rounds s1 s2) it
    if it.isEnd then return it
    else if (← s1.pos it.b1) = (← s2.pos it.b2) then return it
    else do
      let it ← IIter.while2 s1 s2 (rounds s1 s2) it
      if it.isEnd then return it
      else if (← s1.pos it.b1) = (← s2.pos it.b2) then return it
      else IIter.forever s1 s2 fuel it

/-- `operator++` (sparse.hpp:334-361). -/
def IIter.next (s1 : SVec P1 T1) (s2 : SVec P2 T2) (it : IIter P1 P2) : Res (IIter P1 P2) :=
  if it.isEnd then .ok it
  else do
    if (← s1.pos it.b1) = (← s2.pos it.b2) then do
      let b1 ← s1.next it.b1
      if s1.isEnd b1 then return { it with b1, isEnd := true }
      else IIter.forever s1 s2 (rounds s1 s2) { it with b1 }
    else IIter.forever s1 s2 (rounds s1 s2) it

/-- The constructor with `isEnd = false` (sparse.hpp:314-327). -/
def IIter.first (s1 : SVec P1 T1) (s2 : SVec P2 T2) (b1 : PosTbl.Curr P1) (b2 : PosTbl.Curr P2) : Res (IIter P1 P2) :=
  if s1.isEnd b1 || s2.isEnd b2 then .ok ⟨b1, b2, true⟩
  else do
    if (← s1.pos b1) ≠ (← s2.pos b2) then IIter.next s1 s2 ⟨b1, b2, false⟩
    else return ⟨b1, b2, false⟩

/-- The loop of a user over an `Intersection`, collecting `(pos, val1, val2)` (sparse.hpp:328-330, 362). -/
def Intersection.loop (s1 : SVec P1 T1) (s2 : SVec P2 T2) : (fuel : Nat) → IIter P1 P2 → Res (List (Nat × T1 × T2))
  | 0, _ => .ub
  | fuel + 1, it =>
    if it.isEnd then .ok []
    else do
      let p ← s1.pos it.b1
      let x ← s1.val it.b1
      let y ← s2.val it.b2
      let l ← Intersection.loop s1 s2 fuel (← it.next s1 s2)
      return (p, x, y) :: l

/-- `Intersection(v1, v2)` iterated from `begin()` to `end()` (sparse.hpp:367-373). -/
def Intersection.iterate (s1 : SVec P1 T1) (s2 : SVec P2 T2) : Res (List (Nat × T1 × T2)) := do
  let (s1, b1) ← s1.begin
  let (s2, b2) ← s2.begin
  Intersection.loop s1 s2 (s1.vec.length + 1) (← IIter.first s1 s2 b1 b2)

/-! ## `Union` -/

/-- `Union::ConstIterator::Mode` (sparse.hpp:395-402). -/
inductive Mode where
  | «end» | only1 | only2 | small | equal | large
  deriving DecidableEq, Repr

/-- `Union::ConstIterator` (sparse.hpp:403-409). -/
structure UIter (P1 P2 : Type) [PosTbl P1] [PosTbl P2] where
  b1 : PosTbl.Curr P1
  b2 : PosTbl.Curr P2
  mode : Mode
  pos : Nat

/-- `detectMode` (sparse.hpp:411-439). -/
def UIter.detectMode (s1 : SVec P1 T1) (s2 : SVec P2 T2) (it : UIter P1 P2) : Res (UIter P1 P2) :=
  if !s1.isEnd it.b1 then do
    let pos1 ← s1.pos it.b1
    if !s2.isEnd it.b2 then do
      let pos2 ← s2.pos it.b2
      if pos1 < pos2 then return { it with mode := .small, pos := pos1 }
      else if pos1 = pos2 then return { it with mode := .equal, pos := pos1 }
      else return { it with mode := .large, pos := pos2 }
    else return { it with mode := .only1, pos := pos1 }
  else
    if !s2.isEnd it.b2 then do
      return { it with mode := .only2, pos := ← s2.pos it.b2 }
    else .ok { it with mode := .end }

/-- `hasVal1`, `hasVal2` (sparse.hpp:454-455). -/
def Mode.has1 (m : Mode) : Bool := m == .only1 || m == .small || m == .equal
@[inherit_doc Mode.has1]
def Mode.has2 (m : Mode) : Bool := m == .only2 || m == .equal || m == .large

/-- `operator++` (sparse.hpp:465-487). -/
def UIter.next (s1 : SVec P1 T1) (s2 : SVec P2 T2) (it : UIter P1 P2) : Res (UIter P1 P2) :=
  if it.mode = .end then .ok it
  else do
    let b1 ← (match it.mode with
      | .only1 | .small | .equal => s1.next it.b1
      | _ => .ok it.b1)
    let b2 ← (match it.mode with
      | .only2 | .equal | .large => s2.next it.b2
      | _ => .ok it.b2)
    UIter.detectMode s1 s2 { it with b1, b2 }

/-- The loop of a user over a `Union`, collecting `(pos, val1, val2)` (sparse.hpp:453-461, 488). -/
def Union.loop [Zero T1] [Zero T2] (s1 : SVec P1 T1) (s2 : SVec P2 T2) : (fuel : Nat) → UIter P1 P2 → Res (List (Nat × T1 × T2))
  | 0, _ => .ub
  | fuel + 1, it =>
    if it.mode = .end then .ok []
    else do
      let x ← (if it.mode.has1 then s1.val it.b1 else .ok 0)
      let y ← (if it.mode.has2 then s2.val it.b2 else .ok 0)
      let l ← Union.loop s1 s2 fuel (← it.next s1 s2)
      return (it.pos, x, y) :: l

/-- `Union(v1, v2)` iterated from `begin()` to `end()` (sparse.hpp:441-451, 493-499). -/
def Union.iterate [Zero T1] [Zero T2] (s1 : SVec P1 T1) (s2 : SVec P2 T2) : Res (List (Nat × T1 × T2)) := do
  let (s1, b1) ← s1.begin
  let (s2, b2) ← s2.begin
  Union.loop s1 s2 (s1.vec.length + s2.vec.length + 1) (← UIter.detectMode s1 s2 ⟨b1, b2, .end, 0⟩)

/-! ## `InnerProduct` -/

/-- The other branch of `InnerProduct` (sparse.hpp:517-523): `inj1`, `inj2` are the conversions to `Ret`. -/
def innerLoop {R : Type} [Add R] [Mul R] (inj1 : T1 → R) (inj2 : T2 → R) (s1 : SVec P1 T1) (s2 : SVec P2 T2) :
    (fuel : Nat) → IIter P1 P2 → R → Res R
  | 0, _, _ => .ub
  | fuel + 1, it, ret =>
    if it.isEnd then .ok ret
    else do
      let x ← s1.val it.b1
      let y ← s2.val it.b2
      innerLoop inj1 inj2 s1 s2 fuel (← it.next s1 s2) (ret + inj1 x * inj2 y)

/-- The branch for one object given twice (sparse.hpp:513-516). -/
def selfLoop {R : Type} [Add R] [Mul R] (inj : T → R) : (fuel : Nat) → (s : SVec P T) → PosTbl.Curr P → R → Res R
  | 0, _, _, _ => .ub
  | fuel + 1, s, c, ret =>
    if s.isEnd c then .ok ret
    else do
      let x ← s.val c
      let x' ← s.val c
      selfLoop inj fuel s (← s.next c) (ret + inj x * inj x')

/-- `InnerProduct(&ret, lhs, rhs)` for two objects (sparse.hpp:507-525). -/
def innerProduct {R : Type} [Zero R] [Add R] [Mul R] (inj1 : T1 → R) (inj2 : T2 → R) (s1 : SVec P1 T1) (s2 : SVec P2 T2) :
    Res R := do
  let (s1, b1) ← s1.begin
  let (s2, b2) ← s2.begin
  innerLoop inj1 inj2 s1 s2 (s1.vec.length + 1) (← IIter.first s1 s2 b1 b2) 0

/-- `InnerProduct(&ret, v, v)` (sparse.hpp:512-516). -/
def innerProductSelf {R : Type} [Zero R] [Add R] [Mul R] (inj : T → R) (s : SVec P T) : Res R := do
  let (s, b) ← s.begin
  selfLoop inj (s.vec.length + 1) s b 0

end Verif.Sparse
