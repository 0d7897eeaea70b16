import Verif.Model.Common

/-!
# Model of the file name helpers in `include/cybozu/file.hpp`

A name is a list of bytes.
-/
namespace Verif.FileName

/-- `memcmp(p, q, n) == 0` on `name + b` and `ext + i`, compared byte by byte. -/
def memEq (name ext : List UInt8) (b : Nat) : (n i : Nat) → Res Bool
  | 0, _ => .ok true
  | n + 1, i => do
    let x ← at? name (b + i)
    let y ← at? ext i
    if x = y then memEq name ext b n (i + 1) else return false

/-- `*p == '.' && memcmp(p + 1, &extension[0], extensionSize) == 0` (file.hpp:364-365), `p = &name[b]`. -/
def dotAndExt (name ext : List UInt8) (b : Nat) : Res Bool := do
  let c ← at? name b
  if c = 46 then memEq name ext (b + 1) ext.length 0 else return false

/-- `HasExtension` (file.hpp:358-366). -/
def hasExtension (name ext : List UInt8) : Res Bool :=
  if ext.length = 0 then .ok true
  else if name.length < ext.length + 1 then .ok false
  else dotAndExt name ext (name.length - ext.length - 1)

/-- `name.find_last_of(c)`: looks at the first `n` bytes, from the last one on. -/
def findLast (c : UInt8) (name : List UInt8) : Nat → Option Nat
  | 0 => none
  | n + 1 => if name[n]? = some c then some n else findLast c name n

/-- `GetBaseName` (file.hpp:370-381): the result and `*suffix`; `substr(pos)` throws when `pos` is behind
the end. -/
def getBaseName (name : List UInt8) : Res (List UInt8 × List UInt8) :=
  match findLast 46 name name.length with
  | none => .ok (name, [])
  | some pos => if pos + 1 ≤ name.length then .ok (name.take pos, name.drop (pos + 1)) else .throw

/-- `ReplaceBackSlash` (file.hpp:386-391): `n` bytes left, from `i`. -/
def replaceLoop : (n i : Nat) → List UInt8 → Res (List UInt8)
  | 0, _, s => .ok s
  | n + 1, i, s => do
    let c ← at? s i
    replaceLoop n (i + 1) (if c = 92 then s.set i 47 else s)

/-- `ReplaceBackSlash`. -/
def replaceBackSlash (s : List UInt8) : Res (List UInt8) := replaceLoop s.length 0 s

end Verif.FileName
