import Verif.Model.Common

/-!
# Model of `include/cybozu/config.hpp`

`std::map` is the sequence of its entries in iteration order (lexicographic order of the keys as unsigned bytes).  Reading a
file is reading its bytes; `std::getline` splits at LF.
-/
namespace Verif.Config

/-- `std::string` -/
abbrev Str := List UInt8

/-- `std::string::operator<`. -/
def strLt : Str → Str → Bool
  | _, [] => false
  | [], _ :: _ => true
  | a :: as, b :: bs => decide (a < b) || (decide (a = b) && strLt as bs)

/-- The place of a new entry in a `std::map`. -/
def place {β : Type} : List (Str × β) → Str × β → List (Str × β)
  | [], x => [x]
  | y :: ys, x => if strLt x.1 y.1 then x :: y :: ys else y :: place ys x

/-- `std::map::insert`: the map and whether it was inserted. -/
def mapInsert {β : Type} (m : List (Str × β)) (x : Str × β) : List (Str × β) × Bool :=
  if m.any (fun y => y.1 = x.1) then (m, false) else (place m x, true)

/-- `std::map::find`. -/
def mapFind {β : Type} (m : List (Str × β)) (k : Str) : Option β := (m.find? (fun y => y.1 = k)).map (·.2)

/-- `isName` (config.hpp:20-33). -/
def isName : Str → Bool
  | [] => true
  | c :: str =>
    if !(48 ≤ c.toNat && c.toNat ≤ 57) && !(97 ≤ c.toNat && c.toNat ≤ 122) && !(65 ≤ c.toNat && c.toNat ≤ 90) && c.toNat ≠ 95 then false
    else isName str

/-- The loop of `trimEndSpace` (config.hpp:38-46): the new size. -/
def trimLoop (str : Str) : Nat → Res Nat
  | 0 => .ok 0
  | i + 1 => do
    let c ← at? str i
    if c = 32 ∨ c = 9 then trimLoop str i else return i + 1

/-- `trimEndSpace` (config.hpp:35-48). -/
def trimEndSpace (str : Str) : Res Str :=
  if str = [] then .ok str
  else do
    let i ← trimLoop str str.length
    return str.take i

/-- `strchr(p, c)` on the C string that starts at `p`: the distance. -/
def strchr (c : UInt8) : Str → Res (Option Nat)
  | [] => .ub
  | x :: xs => if x = c then .ok (some 0) else if x = 0 then .ok none else do
    let r ← strchr c xs
    return r.map (· + 1)

/-- `split` (config.hpp:50-65): key and value. -/
def split (line : Str) : Res (Str × Str) := do
  let q ← strchr 61 (line ++ [0])
  match q with
  | none => .throw
  | some q => do
    let key ← trimEndSpace (line.take q)
    if !isName key then .throw
    else return (key, line.drop (q + 1))

/-- `Section` (config.hpp:246). -/
abbrev Section := List (Str × Str)

/-- `Config` (config.hpp:389). -/
abbrev Conf := List (Str × Section)

/-- `Section::append` (config.hpp:152-162). -/
def Section.append (s : Section) (key value : Str) : Res Section :=
  if !isName key then .throw
  else
    let (s, b) := mapInsert s (key, value)
    if !b then .throw else .ok s

/-- `Section::queryValue` (config.hpp:169-173). -/
def Section.queryValue (s : Section) (key : Str) : Option Str := mapFind s key

/-- `Config::appendSection(name)` (config.hpp:265-273).  The returned pointer is represented by the name. -/
def appendSection (c : Conf) (name : Str) : Res Conf :=
  if !isName name then .throw else .ok (mapInsert c (name, [])).1

/-- `*section = s`, where `section` points to the section `name`. -/
def assign (c : Conf) (name : Str) (s : Section) : Conf := c.map fun p => if p.1 = name then (p.1, s) else p

/-- `Config::appendSection(name, section)` (config.hpp:279-283). -/
def appendSection2 (c : Conf) (name : Str) (s : Section) : Res Conf := do
  let c ← appendSection c name
  return assign c name s

/-- `Config::querySection` (config.hpp:290-294). -/
def querySection (c : Conf) (name : Str) : Option Section := mapFind c name

/-- `section->append(key, value)`, where `section` points to the section `name`. -/
def appendTo (c : Conf) (name key value : Str) : Res Conf :=
  match querySection c name with
  | none => .ub
  | some s => do
    let s ← Section.append s key value
    return assign c name s

/-- `std::getline` repeated: the lines, the line under construction being `cur`. -/
def getlines (cur : Str) : Str → List Str
  | [] => if cur = [] then [] else [cur]
  | c :: cs => if c = 10 then cur :: getlines [] cs else getlines (cur ++ [c]) cs

/-- A line that is neither empty nor a lone CR, after removal of the CR (config.hpp:355-367). -/
def loadBody (c : Conf) (sec : Str) (line : Str) : Res (Conf × Str) := do
  let x ← at? line 0
  if x = 59 ∨ x = 35 then return (c, sec)
  else if x = 91 then do
    let y ← at? line (line.length - 1)
    if y ≠ 93 then .throw
    else do
      let name := (line.drop 1).take (line.length - 2)
      let c ← appendSection c name
      return (c, name)
  else do
    let (key, value) ← split line
    let c ← appendTo c sec key value
    return (c, sec)

/-- The body of the loop of `load` (config.hpp:343-367); `sec` is the section `section` points to. -/
def loadLine (c : Conf) (sec : Str) (line : Str) : Res (Conf × Str) :=
  if line.length = 0 then .ok (c, sec)
  else do
    let x ← at? line (line.length - 1)
    if x = 13 then
      if line.length = 1 then return (c, sec) else loadBody c sec (line.take (line.length - 1))
    else loadBody c sec line

/-- The loop of `load` (config.hpp:342-368). -/
def loadLines (c : Conf) (sec : Str) : List Str → Res Conf
  | [] => .ok c
  | line :: ls => do
    let (c, sec) ← loadLine c sec line
    loadLines c sec ls

/-- `Config::load(is)` (config.hpp:336-369). -/
def load (c : Conf) (text : Str) : Res Conf := do
  let c ← appendSection c []
  loadLines c [] (getlines [] text)

/-- `Section::toString` (config.hpp:233-240). -/
def Section.toString (s : Section) : Str := (s.map fun p => p.1 ++ [61] ++ p.2 ++ [10]).flatten

/-- `Config::toString` (config.hpp:377-387). -/
def toString (c : Conf) : Str :=
  (c.map fun p => (if p.1 ≠ [] then [91] ++ p.1 ++ [93, 10] else []) ++ Section.toString p.2).flatten

end Verif.Config
