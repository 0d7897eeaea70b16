import Verif.Model.Stream

/-!
# Model of `include/cybozu/serializer.hpp`

Types are described by `Ty`; `Val t` are the values of type `t`.  Output streams collect the bytes written, input
streams are those of `Verif.Stream` (any fragmentation).  Orders of `std::set`/`std::map` (`ord`) and key
equalities of hash maps (`same`) are arbitrary parameters.
-/
namespace Verif.Serializer
open Verif.Stream Verif.Endian

/-- The serializable types. -/
inductive Ty where
  /-- `bool`, `char`, `short`, `float`, ...: `n` bytes copied as they are -/
  | pod (n : Nat)
  /-- `int`, `unsigned`, `long`, ...: 4 or 8 bytes -/
  | int (long : Bool)
  /-- `std::string` -/
  | str
  /-- a vector of `n`-byte PODs saved by `savePodVec` and loaded by `loadPodVec` -/
  | podVec (n : Nat)
  /-- `std::vector<T>`, `std::list<T>` -/
  | seq (t : Ty)
  /-- `std::set<K>` -/
  | set (k : Ty)
  /-- `std::map<K, V>` -/
  | map (k v : Ty)
  /-- `std::unordered_map<K, V>` -/
  | umap (k v : Ty)

/-- Number of bits of an integer type. -/
def width (long : Bool) : Nat := if long then 64 else 32

/-- The values of a type: sets and maps are the sequences they iterate over. -/
@[reducible] def Val : Ty → Type
  | .pod n => BitVec (8 * n)
  | .int l => BitVec (width l)
  | .str => List UInt8
  | .podVec n => List (BitVec (8 * n))
  | .seq t => List (Val t)
  | .set k => List (Val k)
  | .map k v => List (Val k × Val v)
  | .umap k v => List (Val k × Val v)

/-- `T()`. -/
def default : (t : Ty) → Val t
  | .pod _ => 0
  | .int _ => 0
  | .str => []
  | .podVec _ => []
  | .seq _ => []
  | .set _ => []
  | .map _ _ => []
  | .umap _ _ => []

/-- `loadRange` of `n` bytes into a fresh buffer (serializer.hpp:58-62). -/
def loadRange (n : Nat) (s : Src) : Res (List UInt8 × Src) := read (List.replicate n 0) n s

/-- `savePod` of an `n`-byte value (serializer.hpp:78-84), on a little-endian machine. -/
def savePod (n : Nat) (x : Nat) : List UInt8 := memBytes n x

/-- `loadPod` of an `n`-byte value (serializer.hpp:70-76). -/
def loadPod (n : Nat) (s : Src) : Res (BitVec (8 * n) × Src) := do
  let (c, s) ← loadRange n s
  return (BitVec.ofNat (8 * n) (memLoad c), s)

/-- `isRecoverable<S>` for a signed `S` of `b` bits (serializer.hpp:120-124). -/
def recoverableS {w : Nat} (b : Nat) (x : BitVec w) : Bool := decide (((x.setWidth b).signExtend w) = x)

/-- `isRecoverable<S>` for an unsigned `S` of `b` bits (serializer.hpp:120-124). -/
def recoverableU {w : Nat} (b : Nat) (x : BitVec w) : Bool := decide (((x.setWidth b).setWidth w) = x)

/-- `saveVariableInt` (serializer.hpp:138-161). -/
def saveVariableInt {w : Nat} (x : BitVec w) : List UInt8 :=
  if recoverableS 8 x then
    let u8 := x.setWidth 8
    (if (u8.toNat + 2 ^ 32 - 0x80) % 2 ^ 32 ≤ 7 then savePod 1 0x84 else []) ++ savePod 1 u8.toNat
  else if recoverableU 8 x then savePod 1 0x80 ++ savePod 1 (x.setWidth 8).toNat
  else if recoverableU 16 x || recoverableS 16 x then
    savePod 1 (if recoverableU 16 x then 0x81 else 0x85) ++ savePod 2 (x.setWidth 16).toNat
  else if recoverableU 32 x || recoverableS 32 x then
    savePod 1 (if recoverableU 32 x then 0x82 else 0x86) ++ savePod 4 (x.setWidth 32).toNat
  else savePod 1 0x83 ++ savePod 8 (x.setWidth 64).toNat

/-- The branches of `loadVariableInt` after the header `h` (serializer.hpp:168-204). -/
def loadBody (w : Nat) (h : Nat) (s : Src) : Res (BitVec w × Src) :=
  if h = 0x80 then do
    let (v, s) ← loadPod 1 s
    return (v.setWidth w, s)
  else if h = 0x81 then do
    let (v, s) ← loadPod 2 s
    return (v.setWidth w, s)
  else if h = 0x82 then do
    let (v, s) ← loadPod 4 s
    return (v.setWidth w, s)
  else if h = 0x83 then
    if w = 32 then .throw
    else do
      let (v, s) ← loadPod 8 s
      return (v.setWidth w, s)
  else if h = 0x84 then do
    let (v, s) ← loadPod 1 s
    return (v.signExtend w, s)
  else if h = 0x85 then do
    let (v, s) ← loadPod 2 s
    return (v.signExtend w, s)
  else if h = 0x86 then do
    let (v, s) ← loadPod 4 s
    return (v.signExtend w, s)
  else if h = 0x87 then
    if w = 32 then .throw
    else do
      let (v, s) ← loadPod 8 s
      return (v.signExtend w, s)
  else .ok ((BitVec.ofNat 8 h).signExtend w, s)

/-- `loadVariableInt` (serializer.hpp:163-205). -/
def loadVariableInt (w : Nat) (s : Src) : Res (BitVec w × Src) := do
  let (h, s) ← loadPod 1 s
  loadBody w h.toNat s

/-- `save(os, size)` for a `size_t` (serializer.hpp:219, 209-211). -/
def saveSize (n : Nat) : List UInt8 := saveVariableInt (BitVec.ofNat 64 n)

/-- `load(size, is)` for a `size_t` (serializer.hpp:219, 209-211). -/
def loadSize (s : Src) : Res (Nat × Src) := do
  let (n, s) ← loadVariableInt 64 s
  return (n.toNat, s)

/-- The `num` elements of `n` bytes each that `memcpy` of their bytes gives. -/
def chunks (n : Nat) : (num : Nat) → List UInt8 → List (BitVec (8 * n))
  | 0, _ => []
  | num + 1, c => BitVec.ofNat (8 * n) (memLoad (c.take n)) :: chunks n num (c.drop n)

/-- `if (size > 0) loadRange(&v[0], size, is)` for `n`-byte elements (serializer.hpp:234). -/
def loadElems (n size : Nat) (s : Src) : Res (List UInt8 × Src) :=
  if size > 0 then loadRange (size * n) s else .ok ([], s)

/-- `loadPodVec` (serializer.hpp:228-235).  `v.resize` throws when the size is impossible (`max_size`). -/
def loadPodVec (n : Nat) (s : Src) : Res (List (BitVec (8 * n)) × Src) := do
  let (size, s) ← loadSize s
  if size * n ≥ 2 ^ 63 then .throw
  else do
    let (c, s) ← loadElems n size s
    return (chunks n size c, s)

/-- `savePodVec` (serializer.hpp:238-243); for the empty vector nothing but the size is written. -/
def savePodVec (n : Nat) (v : List (BitVec (8 * n))) : List UInt8 :=
  saveSize v.length ++ (v.map fun x => savePod n x.toNat).flatten

/-- `load(std::string&)` (serializer.hpp:245-249). -/
def loadStr (s : Src) : Res (List UInt8 × Src) := do
  let (size, s) ← loadSize s
  if size ≥ 2 ^ 63 then .throw
  else loadElems 1 size s

/-- `save(const std::string&)` (serializer.hpp:251-255). -/
def saveStr (x : List UInt8) : List UInt8 := saveSize x.length ++ x

/-- `num` times: load an element and put it into the container by `add` (serializer.hpp:274-278, 297-301,
321-326, 349-354). -/
def loadMany {α β : Type} (ld : Src → Res (α × Src)) (add : β → α → β) : (num : Nat) → β → Src → Res (β × Src)
  | 0, x, s => .ok (x, s)
  | num + 1, x, s => do
    let (t, s) ← ld s
    loadMany ld add num (add x t) s

/-- `std::set::insert` on the sorted sequence of the elements: nothing happens if an equivalent element exists. -/
def setInsert {α : Type} (lt : α → α → Bool) : List α → α → List α
  | [], x => [x]
  | y :: ys, x => if lt y x then y :: setInsert lt ys x else if lt x y then x :: y :: ys else y :: ys

/-- `std::map::insert`: nothing happens if the key exists. -/
def mapInsert {α β : Type} (lt : α → α → Bool) : List (α × β) → α × β → List (α × β)
  | [], x => [x]
  | y :: ys, x => if lt y.1 x.1 then y :: mapInsert lt ys x else if lt x.1 y.1 then x :: y :: ys else y :: ys

/-- `std::unordered_map::insert`: nothing happens if the key exists.  The position in the iteration order is
unspecified; the list order stands for no particular one. -/
def umapInsert {α β : Type} (same : α → α → Bool) (m : List (α × β)) (x : α × β) : List (α × β) :=
  if m.any (fun y => same y.1 x.1) then m else m ++ [x]

/-- Two loads in a row. -/
def loadPair {α β : Type} (l1 : Src → Res (α × Src)) (l2 : Src → Res (β × Src)) (s : Src) : Res ((α × β) × Src) := do
  let (a, s) ← l1 s
  let (b, s) ← l2 s
  return ((a, b), s)

variable (ord same : (t : Ty) → Val t → Val t → Bool)

/-- `load(x, is)` into an object that holds `old`: PODs (serializer.hpp:98-109), integers (209-211), strings (245-249),
`loadPodVec` (228-235), vector and list (267-279), set (292-302), map (315-327), unordered_map (341-355). -/
def load : (t : Ty) → (old : Val t) → Src → Res (Val t × Src)
  | .pod n, _, s => loadPod n s
  | .int l, _, s => loadVariableInt (width l) s
  | .str, _, s => loadStr s
  | .podVec n, _, s => loadPodVec n s
  | .seq t, _, s => do
    let (size, s) ← loadSize s
    loadMany (load t (default t)) (fun x e => x ++ [e]) size [] s
  | .set k, old, s => do
    let (size, s) ← loadSize s
    loadMany (load k (default k)) (setInsert (ord k)) size old s
  | .map k v, old, s => do
    let (size, s) ← loadSize s
    loadMany (loadPair (load k (default k)) (load v (default v))) (mapInsert (ord k)) size old s
  | .umap k v, old, s => do
    let (size, s) ← loadSize s
    loadMany (loadPair (load k (default k)) (load v (default v))) (umapInsert (same k)) size old s

/-- `save(os, x)` (serializer.hpp:98-109, 209-211, 251-255, 238-243, 281-289, 304-312, 329-338, 357-366): the bytes
written. -/
def save : (t : Ty) → Val t → List UInt8
  | .pod n, x => savePod n x.toNat
  | .int _, x => saveVariableInt x
  | .str, x => saveStr x
  | .podVec n, x => savePodVec n x
  | .seq t, x => saveSize x.length ++ (x.map (save t)).flatten
  | .set k, x => saveSize x.length ++ (x.map (save k)).flatten
  | .map k v, x => saveSize x.length ++ (x.map fun p => save k p.1 ++ save v p.2).flatten
  | .umap k v, x => saveSize x.length ++ (x.map fun p => save k p.1 ++ save v p.2).flatten

end Verif.Serializer
