import Verif.Model.Option

/-!
# Model of `ZlibCompress`, `ZlibUncompress` (zlib.hpp) and of `sample/zlib_smpl.cpp`

zlib's `compress2` and `uncompress` are parameters.  Files: what mapping the input file gives, and what a file holds after a
string was written to it, are parameters too.  The messages are left out.
-/
namespace Verif.ZlibSmpl
open Verif.Opt

abbrev Bytes := List UInt8

/-- What `compress2` and `uncompress` answer: `Z_OK` and the bytes put at `out`, `Z_BUF_ERROR`, any other number. -/
inductive Zr where
  | ok (out : Bytes)
  | bufError
  | error
  deriving DecidableEq, Repr

/-- zlib: input and the room for the output (`compress2` with the default level). -/
structure Zip where
  compress2 : Bytes → Nat → Zr
  uncompress : Bytes → Nat → Zr

/-- `ZlibCompress` (zlib.hpp:302-313): the bytes put at `out`, their number is what is returned; 0 for `Z_BUF_ERROR`. -/
def zlibCompress (z : Zip) (maxOutSize : Nat) (input : Bytes) : Res Bytes :=
  match z.compress2 input maxOutSize with
  | .bufError => .ok []
  | .ok out => .ok out
  | .error => .throw

/-- `ZlibUncompress` (zlib.hpp:315-323). -/
def zlibUncompress (z : Zip) (maxOutSize : Nat) (input : Bytes) : Res Bytes :=
  match z.uncompress input maxOutSize with
  | .ok out => .ok out
  | _ => .throw

/-- The variables of the options (zlib_smpl.cpp:9-11). -/
inductive Val where
  | flag (b : Bool)
  | text (s : Bytes)
  deriving DecidableEq, Repr

/-- `convert(bool*)` of "1", the only text given to an option without a value (option.hpp:573-578). -/
def setFlag : Val → Bytes → Bool × Val := fun _ s => (s == [49], .flag true)

/-- `convert(std::string*)` (option.hpp:113-118). -/
def setText : Val → Bytes → Bool × Val := fun _ s => (true, .text s)

/-- The registrations (zlib_smpl.cpp:13-16): `d`, the two parameters, `h`. -/
def regs : List (Reg Val) :=
  [.opt (.flag false) setFlag .is0 false [100], .param (.text []) setText [105], .param (.text []) setText [111], .help [104]]

/-- The system: mapping a file (`none` is the exception of `Mmap`), and what is in a file after `ofstream` was opened, given the
bytes and destroyed (`none`: it could not be opened). -/
structure World where
  map : Bytes → _root_.Option Bytes
  write : Bytes → Bytes → _root_.Option Bytes

/-- How the program ends: the result of `main`, and the file written with its new contents. -/
structure Outcome where
  code : Nat
  wrote : _root_.Option (Bytes × Bytes)
  deriving DecidableEq, Repr

/-- Lines 37-38: the result of `write` is not looked at. -/
def save (w : World) (outFile out : Bytes) : Outcome := ⟨0, (w.write outFile out).map fun c => (outFile, c)⟩

/-- Lines 21-38 with the handler of 39-42. -/
def work (z : Zip) (w : World) (doUncomp : Bool) (inFile outFile : Bytes) : Outcome :=
  match w.map inFile with
  | none => ⟨1, none⟩
  | some f =>
    if doUncomp then
      match zlibUncompress z (f.length * 10) f with
      | .ok out => save w outFile out
      | _ => ⟨1, none⟩
    else
      match zlibCompress z f.length f with
      | .ok out => if out.length = 0 then ⟨1, none⟩ else save w outFile out
      | _ => ⟨1, none⟩

/-- The texts of the parameters after `parse`. -/
def textOf : Val → Bytes
  | .text s => s
  | .flag _ => []

/-- The value of `doUncomp`. -/
def flagOf : Val → Bool
  | .flag b => b
  | .text _ => false

/-- Lines 17-20, and `exit(0)` of the help option. -/
def afterParse (z : Zip) (w : World) (r : _root_.Option Bool) (o : Opt.Option Val) : Res Outcome :=
  if r = some true then do
    let d ← at? o.infoVec 0
    let i ← at? o.paramVec 0
    let p ← at? o.paramVec 1
    return work z w (flagOf d.var.st) (textOf i.var.st) (textOf p.var.st)
  else .ok ⟨0, none⟩

/-- `main` (zlib_smpl.cpp:6-42). -/
def main (z : Zip) (w : World) (argv : List Bytes) : Res Outcome := do
  let o ← Option.new.regs regs
  let (r, o) ← o.parse argv
  afterParse z w r o

end Verif.ZlibSmpl
