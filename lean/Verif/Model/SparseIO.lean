import Verif.Model.Sparse
import Verif.Model.Serializer

/-!
# Model of `SparseVector::set`, `norm`, `save` and `load` (`include/cybozu/nlp/sparse.hpp`)

The values are those of a serializable type `t` (`Verif.Serializer`).  Of `reserve` only that it throws for sizes above a limit
`cap` (`std::length_error` or `std::bad_alloc`) is modelled.
-/
namespace Verif.Sparse
open Verif.Serializer Verif.Stream

variable {P T : Type} [PosTbl P]

/-- The loop of `set` (sparse.hpp:224-226). -/
def SVec.setLoop : (m : List (Nat × T)) → SVec P T → Res (Bool × SVec P T)
  | [], s => .ok (false, s)
  | e :: m, s => do
    let (thrown, s) ← s.pushBack e.1 e.2
    if thrown then return (true, s) else SVec.setLoop m s

/-- `set(m)` (sparse.hpp:220-227), `m` the pairs in the order of iteration: whether it threw, and the vector afterwards. -/
def SVec.setMap (cap : Nat) (m : List (Nat × T)) (s : SVec P T) : Res (Bool × SVec P T) :=
  if m.length > cap then .ok (true, s) else SVec.setLoop m s

/-- The loop of `norm` (sparse.hpp:265-268); `inj` is the conversion to `double`. -/
def SVec.normLoop {R : Type} [Add R] [Mul R] (inj : T → R) : (fuel : Nat) → (s : SVec P T) → PosTbl.Curr P → R → Res R
  | 0, _, _, _ => .ub
  | fuel + 1, s, c, ret =>
    if s.isEnd c then .ok ret
    else do
      let v ← s.val c
      SVec.normLoop inj fuel s (← s.next c) (ret + inj v * inj v)

/-- `norm()` (sparse.hpp:262-270), for any arithmetic in the place of `double`. -/
def SVec.norm {R : Type} [Zero R] [Add R] [Mul R] (inj : T → R) (s : SVec P T) : Res R := do
  let (s, c) ← s.begin
  SVec.normLoop inj (s.vec.length + 1) s c 0

/-- The loop of `save` (sparse.hpp:291-294): the bytes written. -/
def SVec.saveLoop (t : Ty) : (fuel : Nat) → (s : SVec P (Val t)) → PosTbl.Curr P → Res (List UInt8)
  | 0, _, _ => .ub
  | fuel + 1, s, c =>
    if s.isEnd c then .ok []
    else do
      let p ← s.pos c
      let x ← s.val c
      let rest ← SVec.saveLoop t fuel s (← s.next c)
      return saveSize p ++ save t x ++ rest

/-- `save(os)` (sparse.hpp:287-295): the bytes written, and the vector with the dummy in its table. -/
def SVec.save (t : Ty) (s : SVec P (Val t)) : Res (List UInt8 × SVec P (Val t)) := do
  let (s', c) ← s.begin
  let body ← SVec.saveLoop t (s'.vec.length + 1) s' c
  return (saveSize s.vec.length ++ body, s')

variable (ord same : (t : Ty) → Val t → Val t → Bool)

/-- One round of the loop of `load` (sparse.hpp:279-283). -/
def SVec.loadOne (t : Ty) (s : SVec P (Val t)) (src : Src) : Res (SVec P (Val t) × Src) := do
  let (p, src) ← loadSize src
  let (x, src) ← load ord same t (Serializer.default t) src
  let (thrown, s) ← s.pushBack p x
  if thrown then .throw else return (s, src)

/-- The loop of `load` (sparse.hpp:278-284). -/
def SVec.loadLoop (t : Ty) : (num : Nat) → SVec P (Val t) → Src → Res (SVec P (Val t) × Src)
  | 0, s, src => .ok (s, src)
  | num + 1, s, src => do
    let (s, src) ← SVec.loadOne ord same t s src
    SVec.loadLoop t num s src

/-- `load(is)` (sparse.hpp:272-285) into any vector `_dst`, which is cleared. -/
def SVec.load (cap : Nat) (t : Ty) (_dst : SVec P (Val t)) (src : Src) : Res (SVec P (Val t) × Src) := do
  let (size, src) ← loadSize src
  if size > cap then .throw
  else SVec.loadLoop ord same t size SVec.empty src

end Verif.Sparse
