import Verif.Model.Common

/-!
# Model of `include/cybozu/nlp/mecab.hpp`

MeCab itself is not modelled: what its functions return is a parameter.  Text is a list of bytes; a C
string is the list of its bytes without the final NUL.
-/
namespace Verif.Mecab

/-- The characters skipped before a word (mecab.hpp:42). -/
def isSkip (b : UInt8) : Bool := b = 32 || b = 10 || b = 13 || b = 9

/-- The loop of `parse` (mecab.hpp:41-53): `p` is the rest of the text, the result what is pushed to `out`.
`fuel` bounds the rounds. -/
def parseLoop : (fuel : Nat) → (p : List UInt8) → Res (List (List UInt8))
  | _, [] => .ok []
  | 0, _ :: _ => .ub
  | fuel + 1, b :: p =>
    if isSkip b then parseLoop fuel p
    else
      match (b :: p).dropWhile (· != 32) with -- `strchr(p, ' ')`
      | [] => .ok [b :: p]
      | _ :: q => do
        let ws ← parseLoop fuel q
        return (b :: p).takeWhile (· != 32) :: ws

/-- `strlen(str)` for the memory behind `str`. -/
def strlen (mem : List UInt8) : Res Nat :=
  if 0 ∈ mem then .ok (mem.takeWhile (· != 0)).length else .ub

/-- `if (strLen == 0) strLen = strlen(str)` (mecab.hpp:36-38, 58-60). -/
def effLen (mem : List UInt8) (strLen : Nat) : Res Nat := if strLen = 0 then strlen mem else .ok strLen

/-- `parse(out, str, strLen)` (mecab.hpp:33-55); `tagger` is `tagger_->parse`, `mem` the memory behind `str`.  The
value and `out`. -/
def parse (tagger : List UInt8 → Option (List UInt8)) (out : List (List UInt8)) (mem : List UInt8) (strLen : Nat) :
    Res (Bool × List (List UInt8)) := do
  let n ← effLen mem strLen
  if n > mem.length then .ub
  else
    match tagger (mem.take n) with
    | none => .ok (false, out)
    | some p => do
      let ws ← parseLoop (p.length + 1) p
      return (true, out ++ ws)

/-- `MeCab::Node`, the fields used in mecab.hpp:67-86. -/
structure Node where
  (surface feature : List UInt8) (isEos : Bool)
deriving DecidableEq

/-- `set(str, strLen)` (mecab.hpp:56-62): the new `node_`, a linked list; `[]` is the null pointer. -/
def setText (parseToNode : List UInt8 → List Node) (mem : List UInt8) (strLen : Nat) : Res (List Node) := do
  let n ← effLen mem strLen
  if n > mem.length then .ub else .ok (parseToNode (mem.take n))

/-- `set(const std::string&)` (mecab.hpp:63-66): a `std::string` is followed by a NUL. -/
def setString (parseToNode : List UInt8 → List Node) (str : List UInt8) : Res (List Node) :=
  setText parseToNode (str ++ [0]) str.length

/-- `isEnd` (mecab.hpp:67-71). -/
def isEnd : List Node → Bool
  | [] => true
  | n :: _ => n.isEos

/-- `getPos`, `getSize` (mecab.hpp:72-73): the word at `node_`. -/
def word : List Node → Res (List UInt8)
  | [] => .ub
  | n :: _ => .ok n.surface

/-- `next` (mecab.hpp:82-86). -/
def next : List Node → Res (List Node)
  | [] => .ub
  | _ :: r => .ok r

/-- `isNoun` (mecab.hpp:75-81): the comparisons stop at the first difference; `feature` ends with NUL. -/
def isNoun : List Node → Res Bool
  | [] => .ub
  | n :: _ =>
    if n.surface.length < 2 then .ok false
    else do
      let a ← at? (n.feature ++ [0]) 0
      if a ≠ 0xE5 then return false
      let b ← at? (n.feature ++ [0]) 1
      if b ≠ 0x90 then return false
      let c ← at? (n.feature ++ [0]) 2
      return c = 0x8D

/-- A user's loop `for (m.set(text); !m.isEnd(); m.next()) use(m.getPos(), m.getSize())`: the words seen.
`fuel` bounds the rounds. -/
def visit : (fuel : Nat) → List Node → Res (List (List UInt8))
  | 0, _ => .ub
  | fuel + 1, ns =>
    if isEnd ns then .ok []
    else do
      let w ← word ns
      let r ← next ns
      let ws ← visit fuel r
      return w :: ws

/-- The constructor (mecab.hpp:22-29): `made` is the result of `createTagger`, the number of a new tagger or 0.  The
object is its `tagger_`, `live` are the taggers not yet deleted. -/
def create (made : Option Nat) (live : List Nat) : Res (Nat × List Nat) :=
  match made with
  | none => .throw
  | some t => .ok (t, t :: live)

/-- The destructor (mecab.hpp:87-90). -/
def destroy (t : Nat) (live : List Nat) : Res (List Nat) := if t ∈ live then .ok (live.erase t) else .ub

/-- The copy constructor generated by the compiler for mecab.hpp:21-94: the pointer is copied. -/
def copy (t : Nat) : Nat := t

end Verif.Mecab
