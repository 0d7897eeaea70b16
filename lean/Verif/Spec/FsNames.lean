import Verif.Model.FsNames

/-! # What may be expected of names in a file system -/
namespace Verif.Spec.FsNames
open Verif.FsNames (World Node Bytes)

/-- A name the system takes as it is: no zero byte, not empty, no slash or backslash at the end. -/
structure Plain (p : Bytes) : Prop where
  zero : (0 : UInt8) ∉ p
  ne : p ≠ []
  slash : p.getLast? ≠ some 47
  back : p.getLast? ≠ some 92

/-- Some name leads to the file. -/
def Named (w : World) (i : Nat) : Prop := ∃ k, w.ent k = some (.file i)

/-- A path leads through links to an entry that is not a link. -/
inductive Leads (w : World) : Nat → Bytes → Node → Prop where
  | file {p : Bytes} {k i : Nat} (h : w.key p = some k) (h2 : w.ent k = some (.file i)) : Leads w 0 p (.file i)
  | dir {p : Bytes} {k i : Nat} (h : w.key p = some k) (h2 : w.ent k = some (.dir i)) : Leads w 0 p (.dir i)
  | link {p t : Bytes} {k n : Nat} {x : Node} (h : w.key p = some k) (h2 : w.ent k = some (.link t)) (h3 : Leads w n t x) : Leads w (n + 1) p x

end Verif.Spec.FsNames
