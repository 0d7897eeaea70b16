import Verif.Model.Serializer

/-! How many bytes a value takes if every integer and every size has a fixed number of bytes. -/
namespace Verif.Spec.SerFixed
open Verif.Serializer

/-- 4 or 8 bytes for an integer, 8 for the size of a string or container, then its elements. -/
def room : (t : Ty) → Val t → Nat
  | .pod n, _ => n
  | .int l, _ => if l then 8 else 4
  | .str, x => 8 + List.length (α := UInt8) x
  | .podVec n, x => 8 + List.length (α := BitVec (8 * n)) x * n
  | .seq t, x => 8 + (List.map (room t) x).sum
  | .set k, x => 8 + (List.map (room k) x).sum
  | .map k v, x => 8 + (List.map (fun p : Val k × Val v => room k p.1 + room v p.2) x).sum
  | .umap k v, x => 8 + (List.map (fun p : Val k × Val v => room k p.1 + room v p.2) x).sum

end Verif.Spec.SerFixed
