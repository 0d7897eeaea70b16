import Verif.Model.Serializer

/-!
# `include/cybozu/serializer.hpp` built with `CYBOZU_SERIALIZER_FIXED_SIZE_INTEGER`

With the macro (serializer.hpp:16, 112-114) integers are saved like the other PODs, and with them the sizes of strings and containers.
Everything else is as in `Verif/Model/Serializer.lean`, from which the parts that do not save an integer are taken.
-/
namespace Verif.SerFixed
open Verif.Stream Verif.Serializer

/-- The number of bytes of an integer type. -/
def bytes (long : Bool) : Nat := if long then 8 else 4

/-- `save(os, x)` for an integer (serializer.hpp:114, 94-96, 78-84). -/
def saveInt (l : Bool) (x : BitVec (width l)) : List UInt8 := savePod (bytes l) x.toNat

/-- `load(x, is)` for an integer (serializer.hpp:114, 94-96, 70-76). -/
def loadInt (l : Bool) (s : Src) : Res (BitVec (width l) × Src) := do
  let (v, s) ← loadPod (bytes l) s
  return (BitVec.ofNat (width l) v.toNat, s)

/-- `save(os, size)` for a `size_t` (serializer.hpp:114, 219). -/
def saveSize (n : Nat) : List UInt8 := saveInt true (BitVec.ofNat 64 n)

/-- `load(size, is)` for a `size_t` (serializer.hpp:114, 219). -/
def loadSize (s : Src) : Res (Nat × Src) := do
  let (n, s) ← loadInt true s
  return (n.toNat, s)

/-- `loadPodVec` (serializer.hpp:228-235).  `v.resize` throws when the size is impossible (`max_size`). -/
def loadPodVec (n : Nat) (s : Src) : Res (List (BitVec (8 * n)) × Src) := do
  let (size, s) ← loadSize s
  if size * n ≥ 2 ^ 63 then .throw
  else do
    let (c, s) ← loadElems n size s
    return (chunks n size c, s)

/-- `savePodVec` (serializer.hpp:238-243). -/
def savePodVec (n : Nat) (v : List (BitVec (8 * n))) : List UInt8 :=
  saveSize v.length ++ (v.map fun x => savePod n x.toNat).flatten

/-- `load(std::string&)` (serializer.hpp:245-249). -/
def loadStr (s : Src) : Res (List UInt8 × Src) := do
  let (size, s) ← loadSize s
  if size ≥ 2 ^ 63 then .throw
  else loadElems 1 size s

/-- `save(const std::string&)` (serializer.hpp:251-255). -/
def saveStr (x : List UInt8) : List UInt8 := saveSize x.length ++ x

variable (ord same : (t : Ty) → Val t → Val t → Bool)

/-- `load(x, is)` into an object that holds `old` (serializer.hpp:98-114, 228-235, 245-249, 267-279, 292-302, 315-327, 341-355). -/
def load : (t : Ty) → (old : Val t) → Src → Res (Val t × Src)
  | .pod n, _, s => loadPod n s
  | .int l, _, s => loadInt l s
  | .str, _, s => loadStr s
  | .podVec n, _, s => loadPodVec n s
  | .seq t, _, s => do
    let (size, s) ← loadSize s
    loadMany (load t (default t)) (fun x e => x ++ [e]) size [] s
  | .set k, old, s => do
    let (size, s) ← loadSize s
    loadMany (load k (default k)) (setInsert (ord k)) size old s
  | .map k v, old, s => do
    let (size, s) ← loadSize s
    loadMany (loadPair (load k (default k)) (load v (default v))) (mapInsert (ord k)) size old s
  | .umap k v, old, s => do
    let (size, s) ← loadSize s
    loadMany (loadPair (load k (default k)) (load v (default v))) (umapInsert (same k)) size old s

/-- `save(os, x)` (serializer.hpp:98-114, 251-255, 238-243, 281-289, 304-312, 329-338, 357-366): the bytes written. -/
def save : (t : Ty) → Val t → List UInt8
  | .pod n, x => savePod n x.toNat
  | .int l, x => saveInt l x
  | .str, x => saveStr x
  | .podVec n, x => savePodVec n x
  | .seq t, x => saveSize x.length ++ (x.map (save t)).flatten
  | .set k, x => saveSize x.length ++ (x.map (save k)).flatten
  | .map k v, x => saveSize x.length ++ (x.map fun p => save k p.1 ++ save v p.2).flatten
  | .umap k v, x => saveSize x.length ++ (x.map fun p => save k p.1 ++ save v p.2).flatten

end Verif.SerFixed
