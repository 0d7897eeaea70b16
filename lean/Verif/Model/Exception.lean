import Verif.Model.Common

/-!
# Model of `exception.hpp` and `stacktrace.hpp`

`printf` conversions are parameters; what the C library promises about them is in `Spec/Exception`.
-/
namespace Verif.Exception

abbrev Bytes := List UInt8

/-- The bytes of a `std::string` seen through `c_str()` by a function that takes a C string. -/
def cstr (s : Bytes) : Bytes := s.takeWhile (· ≠ 0)

/-- Members of `Exception` (exception.hpp:119-123); `trace` stays empty without `CYBOZU_EXCEPTION_WITH_STACKTRACE`. -/
structure Exc where
  str : Bytes
  trace : Bytes

/-- `Exception::Exception` (exception.hpp:125-133); `trace` is the text of the stack trace, if enabled. -/
def Exc.new (name : Bytes) (enable : Bool) (trace : Bytes) : Exc := ⟨name, if enable then trace else []⟩

/-- The texts `toString` appends (exception.hpp:140-147). -/
def pieces (oneline : Bool) (trace : Bytes) : List Bytes :=
  if oneline then ["\n<<<STACKTRACE>>> ".toUTF8.toList, trace]
  else ["\n<<<STACKTRACE\n".toUTF8.toList, trace, "\n>>>STACKTRACE".toUTF8.toList]

/-- `Exception::toString` (exception.hpp:136-155): `room` of the appends succeed before memory runs out (the exception is
caught); an append that fails changes nothing. -/
def Exc.toStr (oneline : Bool) (room : Nat) (e : Exc) : Exc :=
  if e.trace ≠ [] then ⟨e.str ++ ((pieces oneline e.trace).take room).flatten, []⟩ else e

/-- `Exception::what` (exception.hpp:135): the C string the caller sees and the new state. -/
def Exc.what (oneline : Bool) (room : Nat) (e : Exc) : Bytes × Exc := (cstr (e.toStr oneline room).str, e.toStr oneline room)

/-- `operator<<` for C strings, `std::string` and everything printable (exception.hpp:156-179): `s` is the text. -/
def Exc.add (e : Exc) (s : Bytes) : Exc := { e with str := e.str ++ [58] ++ cstr s }

/-- A use of the object: append a text, or ask for the text. -/
inductive Op where
  | add (s : Bytes)
  | what (room : Nat)

/-- One use. -/
def Exc.step (oneline : Bool) (e : Exc) : Op → Exc
  | .add s => e.add s
  | .what room => (e.what oneline room).2

/-- A sequence of uses. -/
def Exc.run (oneline : Bool) (e : Exc) (l : List Op) : Exc := l.foldl (Exc.step oneline) e

/-- `makeString` (exception.hpp:64-67): `mem` is the memory from `str` on. -/
def makeString (mem : Bytes) (size : Nat) : Res Bytes :=
  if min size 16 ≤ mem.length then .ok (mem.take (min size 16)) else .ub

/-- `wstr2str` (exception.hpp:70-84); `hex4` is the conversion `%04x`. -/
def wstr2str (hex4 : Nat → Bytes) (w : List UInt16) : Bytes :=
  w.foldl (fun s c => if c < 0x80 then s ++ [UInt8.ofNat c.toNat] else s ++ cstr ([92, 117] ++ hex4 c.toNat)) []

/-- `ConvertErrorNoToString` (exception.hpp:94-117): `msg` is what the system's `strerror` gave, `none` if it failed; `fmtD` is
the conversion `%d`. -/
def convertErrorNo (fmtD : Int → Bytes) (msg : Option Bytes) (err : Int) : Bytes :=
  msg.getD [101, 114, 114] ++ ([40] ++ fmtD err ++ [41])

/-! ## stacktrace.hpp -/

/-- `addrToHex` (stacktrace.hpp:91-100); `fmtX` is the conversion `%llx`. -/
def addrToHex (fmtX : Nat → Bytes) (oneline : Bool) (a : Nat) : Bytes :=
  if oneline then [48, 120] ++ fmtX a else [91, 48, 120] ++ fmtX a ++ [93]

/-- The C string that starts at index `i` of `mem`; reading beyond the memory is undefined. -/
def cstrAt (mem : Bytes) (i : Nat) : Res Bytes :=
  if (0 : UInt8) ∈ mem.drop i then .ok (cstr (mem.drop i)) else .ub

/-- `Demangle` (stacktrace.hpp:105-117): `dem` is `__cxa_demangle`, `none` for a status other than 0. -/
def demangle (dem : Bytes → Option Bytes) (func : Bytes) : Bytes := match dem func with | some d => d | none => func

/-- `std::string::find(c, from)` on the characters of a string. -/
def find (s : Bytes) (c : UInt8) (start : Nat) : Option Nat :=
  ((s.drop start).findIdx? (· == c)).map (start + ·)

/-- One symbol of `backtrace_symbols` (stacktrace.hpp:237-269, without bfd): `sym` is the C string; the local `str` is `sym` and a
NUL, followed by the NUL every `std::string` has. -/
def symLine (dem : Bytes → Option Bytes) (sym : Bytes) : Res Bytes := do
  let str := sym ++ [0]
  let mem := str ++ [0]
  match find str 40 0 with
  | none => return sym ++ [32]
  | some p =>
    match find str 43 (p + 1) with
    | none => return sym ++ [32]
    | some q =>
      if p < mem.length ∧ q < mem.length then
        let mem := (mem.set p 0).set q 0
        let obj ← cstrAt mem 0
        let func ← cstrAt mem (p + 1)
        let addr ← cstrAt mem (q + 1)
        return obj ++ [40] ++ demangle dem func ++ [43] ++ addr ++ [32]
      else .ub

/-- `out += delim` between the entries (stacktrace.hpp:275). -/
def joinLoop (delim : UInt8) : List Bytes → Bytes
  | [] => []
  | [x] => x
  | x :: l => x ++ [delim] ++ joinLoop delim l

/-- `StackTrace::toString` on Linux (stacktrace.hpp:185-279, without bfd): `syms` is the answer of `backtrace_symbols` (`none` for
a null pointer) when symbols are resolved, and `none` when they are not. -/
def traceStr (fmtX : Nat → Bytes) (dem : Bytes → Option Bytes) (resolve : Bool) (syms : Option (List Bytes)) (data : List Nat) :
    Res Bytes := do
  if data = [] then return []
  match resolve, syms with
  | true, some ss => return joinLoop 10 (← ss.mapM (symLine dem))
  | true, none => return joinLoop 10 (data.map (addrToHex fmtX false))
  | false, _ => return joinLoop 32 (data.map (addrToHex fmtX true))

end Verif.Exception
