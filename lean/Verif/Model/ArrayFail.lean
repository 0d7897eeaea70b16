import Verif.Model.Array

/-!
# `AlignedArray` of `include/cybozu/array.hpp` when memory runs out

The same calls as in `Verif/Model/Array.lean`; here every call of `posix_memalign` can fail.  `mem c` says whether there is memory for the
`c`-th call of `posix_memalign` (counted from 0 over the whole history), `N` is the alignment (the template argument).  A member function
gives whether it threw `std::bad_alloc`, and memory, object and number of calls at that time.
-/
namespace Verif.ArrayFail
open Verif.Array

variable {α : Type}

/-- Where an allocation takes place: `sizeof(T)`, the alignment, the memory there is, the contents of new memory. -/
structure Env (α : Type) where
  (sz N : Nat) (mem : Nat → Bool) (junk : Nat → Nat → α)

/-- `posix_memalign` accepts the alignment (array.hpp:26): a power of two that is a multiple of `sizeof(void*)`, which is 8. -/
def aligned (N : Nat) : Bool := (List.range 61).any fun k => N == 2 ^ (k + 3)

/-- `AlignedMalloc` (array.hpp:20-29; the branch without `_WIN32`): memory, pointer and number of calls. -/
def malloc (e : Env α) (size : Nat) (h : Heap α) (c : Nat) : Heap α × Option Nat × Nat :=
  if aligned e.N && e.mem c then ((Array.alloc e.sz e.junk size h).1, (Array.alloc e.sz e.junk size h).2, c + 1) else (h, none, c + 1)

/-- `allocCopy` (array.hpp:96-103) with `alloc` (78-83): the exception comes before anything was changed. -/
def allocCopy (e : Env α) (h : Heap α) (a : Arr) (c : Nat) (allocN : Nat) (p : Option Nat) (copyN : Nat) : Res (Bool × Heap α × Arr × Nat) :=
  let r := malloc e allocN h c
  match r.2.1 with
  | none => .ok (true, r.1, a, r.2.2)
  | some q => do
    let h ← copy (some q) p copyN 0 r.1
    let h ← free h a.p
    return (false, h, { a with p := some q, alloc := allocN }, r.2.2)

/-- `if (size > allocSize_) allocCopy(size, p_, size_)` (array.hpp:161-163). -/
def grow (e : Env α) (h : Heap α) (a : Arr) (c size : Nat) : Res (Bool × Heap α × Arr × Nat) :=
  if size > a.alloc then allocCopy e h a c size a.p a.size else .ok (false, h, a, c)

/-- `resize` (array.hpp:153-166). -/
def resize (e : Env α) (zero : α) (h : Heap α) (a : Arr) (c size : Nat) (doClear : Bool) : Res (Bool × Heap α × Arr × Nat) :=
  if size ≤ a.size then .ok (false, h, { a with size := size }, c)
  else do
    let (t, h, a, c) ← grow e h a c size
    if t then return (true, h, a, c)
    else do
      let h ← clearNew zero h a size doClear
      return (false, h, { a with size := size }, c)

/-- The copy of `operator=` (array.hpp:124-128). -/
def assignCopy (e : Env α) (h : Heap α) (a rhs : Arr) (c : Nat) : Res (Bool × Heap α × Arr × Nat) :=
  if a.alloc < rhs.size then allocCopy e h a c rhs.size rhs.p rhs.size
  else do
    let h ← copy a.p rhs.p rhs.size 0 h
    return (false, h, a, c)

/-- `operator=(const AlignedArray&)` (array.hpp:122-131). -/
def assign (e : Env α) (h : Heap α) (a rhs : Arr) (c : Nat) : Res (Bool × Heap α × Arr × Nat) := do
  let (t, h, a, c) ← assignCopy e h a rhs c
  if t then return (true, h, a, c) else return (false, h, { a with size := rhs.size }, c)

/-- The object after a constructor that ended with `t`: it exists if the constructor did not throw.  The destructor does not run for an
object whose constructor threw. -/
def built (t : Bool) (a : Arr) : Option Arr := if t then none else some a

/-- One call; the caller catches `bad_alloc`. -/
def exec (e : Env α) (zero : α) (w : World α) (c : Nat) : Op α → Res (Bool × World α × Nat)
  /- array.hpp:108-114 -/
  | .make k size doClear => do
    w.fresh k
    let (t, h, a, c) ← resize e zero w.heap .null c size doClear
    return (t, { w with heap := h }.put k (built t a), c)
  /- array.hpp:115-121 -/
  | .makeCopy k j => do
    w.fresh k
    let b ← w.obj j
    let (t, h, a, c) ← assign e w.heap .null b c
    return (t, { w with heap := h }.put k (built t a), c)
  | .assign k j => do
    let a ← w.obj k
    let b ← w.obj j
    let (t, h, a, c) ← assign e w.heap a b c
    return (t, { w with heap := h }.put k (some a), c)
  | .resize k size doClear => do
    let a ← w.obj k
    let (t, h, a, c) ← resize e zero w.heap a c size doClear
    return (t, { w with heap := h }.put k (some a), c)
  /- the other calls allocate nothing -/
  | op => do
    let w ← w.exec e.sz e.junk zero op
    return (false, w, c)

/-- A history: which calls threw, the world, the number of allocations tried. -/
def run (e : Env α) (zero : α) : List (Op α) → World α → Nat → Res (List Bool × World α × Nat)
  | [], w, c => .ok ([], w, c)
  | op :: ops, w, c => do
    let (t, w, c) ← exec e zero w c op
    let (ts, w, c) ← run e zero ops w c
    return (t :: ts, w, c)

end Verif.ArrayFail
