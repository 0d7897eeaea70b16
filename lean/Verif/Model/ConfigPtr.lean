import Verif.Model.ConfigGet

/-!
# Pointers and references into a `Config` (`include/cybozu/config.hpp`)

`querySection`, `appendSection` and `getSection` hand out addresses of sections, `queryValue` and `getValue` addresses of texts.  Here each
section and each text has an identity, which is what such an address is; an address that belongs to nothing any more is undefined
behaviour.  `std::map::insert` moves nothing; assigning a section destroys the texts it had.

Simplified: one `Config`, which lives all the time; memory is never short.
-/
namespace Verif.ConfigPtr
open Verif.Config

/-- A text and its address. -/
structure Ent where
  id : Nat
  val : Str
  deriving DecidableEq, Repr

/-- A `Section` in the map of the `Config` and its address (config.hpp:246, 248). -/
structure Sec where
  id : Nat
  ents : List (Str × Ent)
  deriving DecidableEq, Repr

/-- The `Config` (config.hpp:389) and the next address. -/
structure St where
  secs : List (Str × Sec)
  next : Nat
  deriving DecidableEq, Repr

/-- `Config()` (config.hpp:249-251). -/
def St.new : St := ⟨[], 0⟩

/-- The section at an address. -/
def St.sec? (s : St) (p : Nat) : Option Sec := (s.secs.find? (fun x => x.2.id = p)).map (·.2)

/-- The text at an address. -/
def St.deref (s : St) (e : Nat) : Res Str :=
  match (s.secs.flatMap (fun x => x.2.ents)).find? (fun x => x.2.id = e) with
  | some x => .ok x.2.val
  | none => .ub

/-- Write the texts of the section at an address. -/
def St.setEnts (s : St) (p : Nat) (ents : List (Str × Ent)) : List (Str × Sec) :=
  s.secs.map fun x => if x.2.id = p then (x.1, ⟨p, ents⟩) else x

/-- `Config::appendSection(name)` (config.hpp:265-273): `none` is the exception, which leaves everything as it was. -/
def appendSection (s : St) (name : Str) : Option (St × Nat) :=
  if !isName name then none
  else match mapFind s.secs name with
    | some sec => some (s, sec.id)
    | none => some (⟨place s.secs (name, ⟨s.next, []⟩), s.next + 1⟩, s.next)

/-- `p->append(key, value)` (config.hpp:152-162). -/
def append (s : St) (p : Nat) (key value : Str) : Res St :=
  match s.sec? p with
  | none => .ub
  | some sec =>
    if !isName key then .throw
    else if sec.ents.any (fun y => y.1 = key) then .throw
    else .ok ⟨s.setEnts p (place sec.ents (key, ⟨s.next, value⟩)), s.next + 1⟩

/-- Copies of the texts of a section, at new addresses from `n` on. -/
def copies (n : Nat) : Section → List (Str × Ent)
  | [] => []
  | (k, v) :: l => (k, ⟨n, v⟩) :: copies (n + 1) l

/-- `Config::appendSection(name, section)` (config.hpp:279-283). -/
def replace (s : St) (name : Str) (sec : Section) : Option St :=
  match appendSection s name with
  | none => none
  | some (s, p) => some ⟨s.setEnts p (copies s.next sec), s.next + sec.length⟩

/-- What a line of a file asks for. -/
inductive Act where
  | skip
  | sec (name : Str)
  | pair (key value : Str)
  deriving DecidableEq, Repr

/-- A line without its CR (config.hpp:355-366). -/
def bodyAct (line : Str) : Res Act := do
  let x ← at? line 0
  if x = 59 ∨ x = 35 then return .skip
  else if x = 91 then do
    let y ← at? line (line.length - 1)
    if y ≠ 93 then .throw else return .sec ((line.drop 1).take (line.length - 2))
  else do
    let (key, value) ← split line
    return .pair key value

/-- A line of a file (config.hpp:343-366). -/
def lineAct (line : Str) : Res Act :=
  if line.length = 0 then .ok .skip
  else do
    let x ← at? line (line.length - 1)
    if x = 13 then
      if line.length = 1 then return .skip else bodyAct (line.take (line.length - 1))
    else bodyAct line

/-- The loop of `load` (config.hpp:342-368) with `section = p`: whether an exception came out, and the `Config`. -/
def loadLines (s : St) (p : Nat) : List Str → Res (Bool × St)
  | [] => .ok (false, s)
  | l :: ls =>
    match lineAct l with
    | .ub => .ub
    | .throw => .ok (true, s)
    | .ok .skip => loadLines s p ls
    | .ok (.sec n) =>
      match appendSection s n with
      | none => .ok (true, s)
      | some (s, p) => loadLines s p ls
    | .ok (.pair k v) =>
      match append s p k v with
      | .ub => .ub
      | .throw => .ok (true, s)
      | .ok s => loadLines s p ls

/-- `Config::load(is)` (config.hpp:336-369). -/
def load (s : St) (text : Str) : Res (Bool × St) :=
  match appendSection s [] with
  | none => .ok (true, s)
  | some (s, p) => loadLines s p (getlines [] text)

/-- `Config::querySection(name)` (config.hpp:290-304). -/
def querySection (s : St) (name : Str) : Option Nat := (mapFind s.secs name).map (·.id)

/-- `p->queryValue(key)` (config.hpp:169-173). -/
def queryValue (s : St) (p : Nat) (key : Str) : Res (Option Nat) :=
  match s.sec? p with
  | none => .ub
  | some sec => .ok ((mapFind sec.ents key).map (·.id))

/-- What a program does between taking an address and using it. -/
inductive Op where
  | newSection (name : Str)
  | append (p : Nat) (key value : Str)
  | replace (name : Str) (sec : Section)
  | load (text : Str)

/-- One operation (config.hpp:152-162, 265-283, 336-369): the `Config` afterwards, also if an exception was thrown. -/
def step (s : St) : Op → Res St
  | .newSection name => .ok (((appendSection s name).map (·.1)).getD s)
  | .append p key value =>
    match append s p key value with
    | .ok s => .ok s
    | .throw => .ok s
    | .ub => .ub
  | .replace name sec => .ok ((replace s name sec).getD s)
  | .load text => do
    let (_, s) ← load s text
    return s

/-- Several operations (config.hpp:152-162, 265-283, 336-369). -/
def run (s : St) : List Op → Res St
  | [] => .ok s
  | o :: os => do
    let s ← step s o
    run s os

/-- `ResultType` (config.hpp:103-119): the address of the text, and whether the string given as `key` still exists when it is used. -/
structure ResultType where
  str : Nat
  keyAlive : Bool

/-- `p->getValue(key)` (config.hpp:180-188). -/
def getValue (s : St) (p : Nat) (key : Str) (keyAlive : Bool) : Res ResultType := do
  match ← queryValue s p key with
  | some e => .ok ⟨e, keyAlive⟩
  | none => .throw

/-- `ResultType::get<T>` for signed `T` (config.hpp:106-115); the exception quotes the key. -/
def ResultType.getS (ty : Atoi.SInt) (s : St) (r : ResultType) : Res Int := do
  let str ← s.deref r.str
  match ← Atoi.atoiS ty true str with
  | some t => .ok t
  | none => if r.keyAlive then .throw else .ub

/-- `ResultType::get<T>` for unsigned `T` (config.hpp:106-115). -/
def ResultType.getU (ty : Atoi.UInt) (s : St) (r : ResultType) : Res Nat := do
  let str ← s.deref r.str
  match ← Atoi.atoiU ty true str with
  | some t => .ok t
  | none => if r.keyAlive then .throw else .ub

/-- `operator const std::string&` (config.hpp:128). -/
def ResultType.text (s : St) (r : ResultType) : Res Str := s.deref r.str

/-- What `getValue(key, const std::string&)` refers to (config.hpp:220-228): a text of the section, or the argument. -/
inductive Ref where
  | ent (e : Nat)
  | dflt
  deriving DecidableEq, Repr

/-- `p->getValue(key, defaultValue)` (config.hpp:220-228). -/
def getValueRef (s : St) (p : Nat) (key : Str) : Res Ref := do
  match ← queryValue s p key with
  | some e => .ok (.ent e)
  | none => .ok .dflt

/-- The use of that reference; `dflt` is the argument if it still exists (config.hpp:220-228). -/
def Ref.text (s : St) (dflt : Option Str) : Ref → Res Str
  | .ent e => s.deref e
  | .dflt => match dflt with
    | some d => .ok d
    | none => .ub

end Verif.ConfigPtr
