import Verif.Model.Atoi
import Verif.Model.Config

/-!
# Model of the typed queries of `include/cybozu/config.hpp`

The integer types are parameters: `short`, `int`, `int64_t` are `sint16`, `sint32`, `sint64` of `Model/Atoi`, the unsigned
types `uint16`, `uint32`, `uint64`.  Exceptions carry no text here.
-/
namespace Verif.Config
open Verif.Atoi

/-- `ResultType::get<T>` for signed `T` (config.hpp:106-115). -/
def getSigned (ty : SInt) (str : Str) : Res Int := do
  match ← atoiS ty true str with
  | some t => .ok t
  | none => .throw

/-- `ResultType::get<T>` for unsigned `T` (config.hpp:106-115). -/
def getUnsigned (ty : Atoi.UInt) (str : Str) : Res Nat := do
  match ← atoiU ty true str with
  | some t => .ok t
  | none => .throw

/-- `Section::getValue(key)` (config.hpp:180-188): the text that the `ResultType` refers to. -/
def Section.getValue (s : Section) (key : Str) : Res Str :=
  match s.queryValue key with
  | some value => .ok value
  | none => .throw

/-- `T v = section.getValue(key)` for signed `T` (config.hpp:122, 124, 126, 180-188). -/
def Section.getValueS (ty : SInt) (s : Section) (key : Str) : Res Int := do getSigned ty (← s.getValue key)

/-- `T v = section.getValue(key)` for unsigned `T` (config.hpp:123, 125, 127, 180-188). -/
def Section.getValueU (ty : Atoi.UInt) (s : Section) (key : Str) : Res Nat := do getUnsigned ty (← s.getValue key)

/-- `getValueInteger<T>` and `getValue(key, T)` for signed `T` (config.hpp:130-144, 196-215). -/
def Section.getValueDefS (ty : SInt) (s : Section) (key : Str) (defaultValue : Int) : Res Int :=
  match s.queryValue key with
  | some value => getSigned ty value
  | none => .ok defaultValue

/-- `getValueInteger<T>` and `getValue(key, T)` for unsigned `T` (config.hpp:130-144, 200-219). -/
def Section.getValueDefU (ty : Atoi.UInt) (s : Section) (key : Str) (defaultValue : Nat) : Res Nat :=
  match s.queryValue key with
  | some value => getUnsigned ty value
  | none => .ok defaultValue

/-- `getValue(key, const std::string&)` (config.hpp:220-228).  The code returns a reference, here it is the text. -/
def Section.getValueDefStr (s : Section) (key defaultValue : Str) : Str :=
  match s.queryValue key with
  | some value => value
  | none => defaultValue

/-- `Config::getSection` (config.hpp:311-319). -/
def getSection (c : Conf) (name : Str) : Res Section :=
  match querySection c name with
  | some s => .ok s
  | none => .throw

end Verif.Config
