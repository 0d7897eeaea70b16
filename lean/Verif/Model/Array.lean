import Verif.Model.Common

/-!
# Model of `AlignedArray` in `include/cybozu/array.hpp`

Memory is a list of buffers, one for each allocation made so far; `none` is a buffer that was freed.
Every access outside a buffer, through a null pointer or to a freed buffer is `ub`.  The contents of a
new buffer are arbitrary (`junk`).  `sz` is `sizeof(T)`.  Allocation never fails here (that is in
`Verif/Model/ArrayFail.lean`); alignment is not modelled.
-/
namespace Verif.Array

variable {α : Type}

/-- The allocated buffers. -/
abbrev Heap (α : Type) := List (Option (List α))

/-- `p_, size_, allocSize_` (array.hpp:75-77); a null pointer is `none`. -/
structure Arr where
  p : Option Nat
  size : Nat
  alloc : Nat
deriving DecidableEq, Repr

/-- `p[i]`. -/
def load (h : Heap α) (p : Option Nat) (i : Nat) : Res α :=
  match p with
  | none => .ub
  | some a =>
    match h[a]? with
    | some (some buf) => at? buf i
    | _ => .ub

/-- `p[i] = x`. -/
def store (h : Heap α) (p : Option Nat) (i : Nat) (x : α) : Res (Heap α) :=
  match p with
  | none => .ub
  | some a =>
    match h[a]? with
    | some (some buf) => if i < buf.length then .ok (h.set a (some (buf.set i x))) else .ub
    | _ => .ub

/-- `AlignedMalloc(size * sizeof(T), N)` (array.hpp:20-29, 78-83): the product is computed in 64 bits;
the new buffer has room for as many elements as fit. -/
def alloc (sz : Nat) (junk : Nat → Nat → α) (size : Nat) (h : Heap α) : Heap α × Option Nat :=
  (h ++ [some ((List.range ((size * sz) % 2 ^ 64 / sz)).map (junk h.length))], some h.length)

/-- `AlignedFree` (array.hpp:31-39). -/
def free (h : Heap α) (p : Option Nat) : Res (Heap α) :=
  match p with
  | none => .ok h
  | some a =>
    match h[a]? with
    | some (some _) => .ok (h.set a none)
    | _ => .ub

/-- `copy` (array.hpp:84-87): `cnt` rounds left, from `i`. -/
def copy (dst src : Option Nat) : Nat → Nat → Heap α → Res (Heap α)
  | 0, _, h => .ok h
  | cnt + 1, i, h => do
    let x ← load h src i
    let h ← store h dst i x
    copy dst src cnt (i + 1) h

/-- `setZero` (array.hpp:88-91) on `p + off`. -/
def setZero (zero : α) (p : Option Nat) : Nat → Nat → Heap α → Res (Heap α)
  | 0, _, h => .ok h
  | cnt + 1, off, h => do
    let h ← store h p off zero
    setZero zero p cnt (off + 1) h

/-- `allocCopy` (array.hpp:96-103). -/
def allocCopy (sz : Nat) (junk : Nat → Nat → α) (h : Heap α) (a : Arr) (allocN : Nat) (p : Option Nat) (copyN : Nat) :
    Res (Heap α × Arr) := do
  let (h, q) := alloc sz junk allocN h
  let h ← copy q p copyN 0 h
  let h ← free h a.p
  return (h, { a with p := q, alloc := allocN })

/-- `if (size > allocSize_) allocCopy(size, p_, size_)` (array.hpp:161-163). -/
def grow (sz : Nat) (junk : Nat → Nat → α) (h : Heap α) (a : Arr) (size : Nat) : Res (Heap α × Arr) :=
  if size > a.alloc then allocCopy sz junk h a size a.p a.size else .ok (h, a)

/-- `if (doClear) setZero(p_ + size_, size - size_)` (array.hpp:164). -/
def clearNew (zero : α) (h : Heap α) (a : Arr) (size : Nat) (doClear : Bool) : Res (Heap α) :=
  if doClear then setZero zero a.p (size - a.size) a.size h else .ok h

/-- `resize` (array.hpp:153-166). -/
def resize (sz : Nat) (junk : Nat → Nat → α) (zero : α) (h : Heap α) (a : Arr) (size : Nat) (doClear : Bool) :
    Res (Heap α × Arr) :=
  if size ≤ a.size then .ok (h, { a with size := size })
  else do
    let (h, a) ← grow sz junk h a size
    let h ← clearNew zero h a size doClear
    return (h, { a with size := size })

/-- A new object: the initialisers `p_(0), size_(0), allocSize_(0)` (array.hpp:109-111, 116-118). -/
def Arr.null : Arr := ⟨none, 0, 0⟩

/-- The copy of `operator=` (array.hpp:124-128); `rhs` may be the object itself. -/
def assignCopy (sz : Nat) (junk : Nat → Nat → α) (h : Heap α) (a rhs : Arr) : Res (Heap α × Arr) :=
  if a.alloc < rhs.size then allocCopy sz junk h a rhs.size rhs.p rhs.size
  else do
    let h ← copy a.p rhs.p rhs.size 0 h
    return (h, a)

/-- `operator=(const AlignedArray&)` (array.hpp:122-131). -/
def assign (sz : Nat) (junk : Nat → Nat → α) (h : Heap α) (a rhs : Arr) : Res (Heap α × Arr) := do
  let (h, a) ← assignCopy sz junk h a rhs
  return (h, { a with size := rhs.size })

/-- The calls of a history; objects have numbers. -/
inductive Op (α : Type) where
  /-- `AlignedArray k(size, doClear)` -/
  | make (k size : Nat) (doClear : Bool)
  /-- `AlignedArray k(j)` -/
  | makeCopy (k j : Nat)
  /-- `AlignedArray k(std::move(j))` -/
  | makeMove (k j : Nat)
  /-- `k = j` -/
  | assign (k j : Nat)
  /-- `k = std::move(j)` -/
  | moveAssign (k j : Nat)
  | resize (k size : Nat) (doClear : Bool)
  | clear (k : Nat)
  | swap (k j : Nat)
  /-- `k[i] = x` -/
  | write (k i : Nat) (x : α)
  /-- the destructor -/
  | destroy (k : Nat)

/-- The memory and the objects that exist. -/
structure World (α : Type) where
  heap : Heap α
  objs : Nat → Option Arr

/-- Object `k`; calls on an object that does not exist are not C++ programs (`ub`). -/
def World.obj (w : World α) (k : Nat) : Res Arr :=
  match w.objs k with
  | none => .ub
  | some a => .ok a

/-- The place of a new object is free. -/
def World.fresh (w : World α) (k : Nat) : Res Unit :=
  match w.objs k with
  | none => .ok ()
  | some _ => .ub

/-- Update of object `k`. -/
def World.put (w : World α) (k : Nat) (a : Option Arr) : World α :=
  { w with objs := fun i => if i = k then a else w.objs i }

/-- `swap` (array.hpp:175-180). -/
def World.swap (w : World α) (k j : Nat) : Res (World α) := do
  let a ← w.obj k
  let b ← w.obj j
  return (w.put k (some b)).put j (some a)

/-- `clear` (array.hpp:167-170). -/
def World.clear (w : World α) (k : Nat) : Res (World α) := do
  let a ← w.obj k
  return w.put k (some { a with size := 0 })

/-- One call. -/
def World.exec (sz : Nat) (junk : Nat → Nat → α) (zero : α) (w : World α) : Op α → Res (World α)
  /- array.hpp:108-114 -/
  | .make k size doClear => do
    w.fresh k
    let (h, a) ← Array.resize sz junk zero w.heap .null size doClear
    return { w with heap := h }.put k (some a)
  /- array.hpp:115-121 -/
  | .makeCopy k j => do
    w.fresh k
    let b ← w.obj j
    let (h, a) ← Array.assign sz junk w.heap .null b
    return { w with heap := h }.put k (some a)
  /- array.hpp:133-141 -/
  | .makeMove k j => do
    w.fresh k
    let b ← w.obj j
    return (w.put k (some b)).put j (some .null)
  | .assign k j => do
    let a ← w.obj k
    let b ← w.obj j
    let (h, a) ← Array.assign sz junk w.heap a b
    return { w with heap := h }.put k (some a)
  /- array.hpp:142-147 -/
  | .moveAssign k j => do
    let w ← w.swap k j
    w.clear j
  | .resize k size doClear => do
    let a ← w.obj k
    let (h, a) ← Array.resize sz junk zero w.heap a size doClear
    return { w with heap := h }.put k (some a)
  | .clear k => w.clear k
  | .swap k j => w.swap k j
  /- `operator[]`, array.hpp:181 -/
  | .write k i x => do
    let a ← w.obj k
    let h ← Array.store w.heap a.p i x
    return { w with heap := h }
  /- array.hpp:171-174 -/
  | .destroy k => do
    let a ← w.obj k
    let h ← Array.free w.heap a.p
    return { w with heap := h }.put k none

/-- A history. -/
def World.run (sz : Nat) (junk : Nat → Nat → α) (zero : α) : List (Op α) → World α → Res (World α)
  | [], w => .ok w
  | op :: ops, w => do
    let w ← w.exec sz junk zero op
    World.run sz junk zero ops w

end Verif.Array
