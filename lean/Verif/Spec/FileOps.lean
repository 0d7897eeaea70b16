import Verif.Model.FileOps
/-!
# Specifications for files and directories
-/
namespace Verif.FileOpsSpec
open Verif.FileOps

/-- The modes of the documentation (file.hpp:174-180): read only, write only (truncating), write only at the end. -/
def Documented (m : Mode) : Prop :=
  (m.inp = true ∧ m.out = false ∧ m.app = false ∧ m.trunc = false) ∨
  (m.inp = false ∧ m.out = true ∧ m.app = false) ∨
  (m.inp = false ∧ m.out = true ∧ m.app = true ∧ m.trunc = false)

/-- What the system sees of one object: it holds at most one descriptor, opened for writing or not. -/
inductive Accepts : Option (Nat × Bool) → Ev → Option (Nat × Bool) → Prop where
  | opened (fd : Nat) (w : Bool) : Accepts none (.opened fd w) (some (fd, w))
  | closed (fd : Nat) (w : Bool) : Accepts (some (fd, w)) (.closed fd) none

/-- A sequence of calls. -/
inductive AcceptsAll : Option (Nat × Bool) → List Ev → Option (Nat × Bool) → Prop where
  | nil (r) : AcceptsAll r [] r
  | cons {r r1 r2 e l} (h : Accepts r e r1) (t : AcceptsAll r1 l r2) : AcceptsAll r (e :: l) r2

/-- The byte at place `i` of a file after `b` was written at `p` over `old`: the new byte, the old one, a zero in a gap, or nothing
behind the end. -/
def byteAfter (old : List UInt8) (p : Nat) (b : List UInt8) (i : Nat) : Option UInt8 :=
  if p ≤ i ∧ i < p + b.length then b[i - p]?
  else if i < old.length then old[i]?
  else if i < p then some 0
  else none

/-- The name of an entry that is the directory itself or its parent. -/
def isDots (s : List UInt8) : Bool := s == [46] || s == [46, 46]

/-- The name has the extension. -/
def HasExt (name ext : List UInt8) : Prop := ext = [] ∨ ∃ pre, name = pre ++ 46 :: ext

end Verif.FileOpsSpec
