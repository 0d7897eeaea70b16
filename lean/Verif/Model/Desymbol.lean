import Verif.Model.Atoi
import Verif.Model.Exception
/-!
# Model of `include/cybozu/bfd.hpp` and of the filter `sample/desymbol.cpp`

The bfd library is a list of sections and a function that says what is near an offset of a section.  The options of the program and the
opening of files are not modelled; addresses have 64 bits.
-/
namespace Verif.Desymbol
open Verif.Exception (Bytes cstr)

/-- A section (bfd.hpp:92-94); both numbers are below 2^64. -/
structure Section where
  vma : Nat
  size : Nat
  deriving DecidableEq, Repr

/-- What `bfd_find_nearest_line` says; `none` is a null pointer (bfd.hpp:96-101). -/
structure Info where
  file : Option Bytes
  func : Option Bytes
  line : Int
  deriving DecidableEq, Repr

/-- An open file: the sections in the order of `bfd_map_over_sections`, and `bfd_find_nearest_line` for the section with a number. -/
structure Lib where
  sections : List Section
  nearest : Nat → Nat → Option Info

/-- `Data` without the address (bfd.hpp:72-86). -/
structure Data where
  file : Bytes
  func : Bytes
  line : Int
  found : Bool
  deriving DecidableEq, Repr

/-- `findAddress` (bfd.hpp:87-102) for section `n`; a call that fails does not change the line. -/
def findAddress (lib : Lib) (pc : Nat) (d : Data) (n : Nat) (s : Section) : Data :=
  if d.found then d
  else if pc < s.vma then d
  else if (s.vma + s.size) % 2 ^ 64 ≤ pc then d
  else match lib.nearest n (pc - s.vma) with
    | none => d
    | some i => ⟨i.file.getD d.file, i.func.getD d.func, i.line, true⟩

/-- `bfd_map_over_sections(bfd, findAddress, &data)` (bfd.hpp:67) from section `n` on. -/
def mapOver (lib : Lib) (pc : Nat) : Nat → List Section → Data → Data
  | _, [], d => d
  | n, s :: l, d => mapOver lib pc (n + 1) l (findAddress lib pc d n s)

/-- `getInfo` (bfd.hpp:63-70): `none` is `false`; `bfd` is `none` if the file could not be opened.  The two strings given are empty, as
in desymbol.cpp:37-40, 57-60. -/
def getInfo (bfd : Option Lib) (pc : Nat) : Option (Bytes × Bytes × Int) :=
  match bfd with
  | none => none
  | some lib =>
    let d := mapOver lib pc 0 lib.sections ⟨[], [], 0, false⟩
    if d.found then some (d.file, d.func, d.line) else none

/-- `std::string::find(pat)`. -/
def findSub (pat : Bytes) : Bytes → Option Nat
  | [] => if pat = [] then some 0 else none
  | c :: s => if pat.isPrefixOf (c :: s) then some 0 else (findSub pat s).map (· + 1)

/-- `"[0x"` -/
def open0x : Bytes := [91, 48, 120]

/-- `findAddr` (desymbol.cpp:21-31); `none` is the null pointer that stands for no address. -/
def findAddr (str : Bytes) : Res (Option Nat) :=
  match findSub open0x str with
  | none => .ok none
  | some p =>
    match Verif.Exception.find str 93 (p + 3) with
    | none => .ok none
    | some q => Atoi.convertHexToInt (2 ^ 64 - 1) true ((str ++ [0]).drop (p + 3)) (q - p - 3)

/-- What the program uses: the file, `__cxa_demangle` and the decimal text of a number. -/
structure Tools where
  bfd : Option Lib
  dem : Bytes → Option Bytes
  dec : Int → Bytes

/-- `file + ':' + itoa(line) + ' ' + func + ' '` (desymbol.cpp:41-42, 61-62). -/
def note (t : Tools) (i : Bytes × Bytes × Int) : Bytes :=
  i.1 ++ [58] ++ t.dec i.2.2 ++ [32] ++ Verif.Exception.demangle t.dem i.2.1 ++ [32]

/-- `decode` (desymbol.cpp:33-43); the null pointer is no address. -/
def decode (t : Tools) (str : Bytes) : Res Bytes := do
  match ← findAddr str with
  | none => return str
  | some addr =>
    if addr = 0 then return str
    else match getInfo t.bfd addr with
      | none => return str
      | some i => return note t i ++ str

/-- `isspace` as `operator>>` uses it. -/
def isSpace (c : UInt8) : Bool := c = 32 ∨ (9 ≤ c ∧ c ≤ 13)

/-- The strings `iss >> addrStr` yields (desymbol.cpp:50-52); `cur` is the string read so far, backwards. -/
def words : (cur : Bytes) → Bytes → List Bytes
  | cur, [] => if cur = [] then [] else [cur.reverse]
  | cur, c :: s =>
    if isSpace c then if cur = [] then words [] s else cur.reverse :: words [] s
    else words (c :: cur) s

/-- The loop (desymbol.cpp:52-65): the lines printed. -/
def addrLoop (t : Tools) : List Bytes → Res Bytes
  | [] => .ok []
  | a :: l =>
    if [48, 120].isPrefixOf a then do
      match ← Atoi.convertHexToInt (2 ^ 64 - 1) true ((a ++ [0]).drop 2) (a.length - 2) with
      | none => return []
      | some addr =>
        let rest ← addrLoop t l
        match getInfo t.bfd addr with
        | none => return cstr a ++ [10] ++ rest
        | some i => return note t i ++ cstr a ++ [10] ++ rest
    else .ok []

/-- `"<<<STACKTRACE>>> "` (desymbol.cpp:47) -/
def oneline : Bytes := "<<<STACKTRACE>>> ".toUTF8.toList
/-- `"<<<STACKTRACE"` (desymbol.cpp:49, 85) -/
def beginTrace : Bytes := "<<<STACKTRACE".toUTF8.toList
/-- `">>>STACKTRACE"` (desymbol.cpp:66, 86) -/
def endTrace : Bytes := ">>>STACKTRACE".toUTF8.toList

/-- `tryDecodeOnelineAndPut` (desymbol.cpp:45-68): `none` is `false`; `str.find(oneline) != 0` is a test for a prefix. -/
def tryOneline (t : Tools) (str : Bytes) : Res (Option Bytes) := do
  if oneline.isPrefixOf str then
    let body ← addrLoop t (words [] (str.drop oneline.length))
    return some (beginTrace ++ [10] ++ body ++ endTrace ++ [10])
  else return none

/-- `Strip` on bytes (string_operation.hpp:195-208; `StringOp.strip` has the loop). -/
def strip (s : Bytes) : Bytes := (s.reverse.dropWhile fun c => c = 10 ∨ c = 13).reverse

/-- `doDecode` and the new `inStackTrace` (desymbol.cpp:104-119). -/
def trace (check : Bool) (inTrace : Bool) (line : Bytes) : Bool × Bool :=
  if check then (true, inTrace)
  else if inTrace then
    if endTrace.isPrefixOf line then (false, false) else (true, true)
  else if beginTrace.isPrefixOf line then (false, true) else (false, false)

/-- One pass of the loop (desymbol.cpp:99-124): what is printed and the new `inStackTrace`. -/
def step (t : Tools) (check inTrace : Bool) (line : Bytes) : Res (Bytes × Bool) := do
  let line := strip line
  match ← tryOneline t line with
  | some out => return (out, inTrace)
  | none =>
    let r := trace check inTrace line
    if r.1 then
      let line ← decode t line
      return (cstr line ++ [10], r.2)
    else return (cstr line ++ [10], r.2)

/-- The loop (desymbol.cpp:99-124): what is printed for each line. -/
def filter (t : Tools) (check : Bool) : (inTrace : Bool) → List Bytes → Res (List Bytes)
  | _, [] => .ok []
  | inTrace, line :: l => do
    let r ← step t check inTrace line
    let rest ← filter t check r.2 l
    return r.1 :: rest

/-- The lines `std::getline` yields; `cur` is the line read so far, backwards. -/
def getLines : (cur : Bytes) → Bytes → List Bytes
  | cur, [] => if cur = [] then [] else [cur.reverse]
  | cur, c :: s => if c = 10 then cur.reverse :: getLines [] s else getLines (c :: cur) s

/-- `main` without the options (desymbol.cpp:87-124). -/
def run (t : Tools) (check : Bool) (input : Bytes) : Res Bytes := do
  let l ← filter t check false (getLines [] input)
  return l.flatten

end Verif.Desymbol
