import Verif.Model.SvdText
import Verif.Model.Atoi

/-!
# Model of `sample/svd_smpl.cpp`

Names and files are lists of bytes.  `ComputeSVD` is a parameter (it is the subject of C73).  Left out: what is printed; an output
file is written completely or, if it cannot be opened, not at all.
-/
namespace Verif.SvdSmpl
open Verif.SvdText

/-- `input`, `output`, `rank` (svd_smpl.cpp:66-68). -/
structure Args where
  input : Str
  output : Str
  rank : Int
  deriving DecidableEq

/-- `rank = cybozu::atoi(*argv)` (svd_smpl.cpp:73). -/
def atoiArg (s : Str) : Res Int := do
  let o ← Atoi.atoiC Atoi.sint32 false s
  match o with
  | some v => .ok v
  | none => .throw

/-- An argument that is not an option (svd_smpl.cpp:75-83); `none` is the call of `usage`, which ends the program. -/
def word (x : Str) (a : Args) : Option Args :=
  if a.input = [] then some ⟨x, a.output, a.rank⟩
  else if a.output = [] then some ⟨a.input, x, a.rank⟩
  else none

/-- The end of the reading of the arguments (svd_smpl.cpp:86-91). -/
def finish (a : Args) : Option Args :=
  if a.input = [] then none
  else if a.output = [] then some ⟨a.input, a.input, a.rank⟩
  else some a

/-- `-r` -/
def optR : Str := [45, 114]

/-- The loop over the arguments (svd_smpl.cpp:70-85) and what follows it; `.ok none` is `exit(1)` after the usage, `.throw` an exception that nobody
catches. -/
def args : List Str → Args → Res (Option Args)
  | [], a => .ok (finish a)
  | [x], a =>
    match word x a with
    | none => .ok none
    | some a => .ok (finish a)
  | x :: v :: rest, a =>
    if x = optR then do
      let r ← atoiArg v
      args rest ⟨a.input, a.output, r⟩
    else
      match word x a with
      | none => .ok none
      | some a => args (v :: rest) a

/-- The files, and the names under which a file can be written. -/
structure World where
  files : Str → Option Str
  writable : Str → Bool

/-- `SaveMatrix` and `SaveVector` open the file anew; the result is ignored (svd_smpl.cpp:56-58). -/
def World.put (w : World) (name text : Str) : World :=
  if w.writable name then ⟨fun n => if n = name then some text else w.files n, w.writable⟩ else w

/-- The matrices and the vector after `ComputeSVD`: `U`, `S`, `V`. -/
structure Factors (V : Type) where
  U : List (List V)
  S : List V
  V' : List (List V)

/-- `ComputeSVD` for the two kinds of matrices; `none` is `false`, which leaves the factors empty. -/
structure Svd (V : Type) where
  dense : List (List V) → Int → Option (Factors V)
  sparse : (cols : Nat) → List (List (Nat × V)) → Int → Option (Factors V)

/-- `.U`, `.S`, `.V` -/
def ext (c : UInt8) : Str := [46, c]

/-- Lines 56-58; the factors have as many columns as there are singular values. -/
def save {V : Type} (io : NumIO V) (w : World) (output : Str) (f : Factors V) : World :=
  ((w.put (output ++ ext 85) (saveMatrix io f.S.length f.U)).put (output ++ ext 83) (saveVector io f.S)).put
    (output ++ ext 86) (saveMatrix io f.S.length f.V')

/-- What `U`, `S` and `V` hold after the call of `ComputeSVD`, whose result is ignored (svd_smpl.cpp:49, 52). -/
def factors {V : Type} : Option (Factors V) → Factors V
  | some f => f
  | none => ⟨[], [], []⟩

/-- The number of columns that the first line of a file says. -/
def columns (file : Option Str) : Nat :=
  match loadHeader file with
  | .ok (some h) => h.1.col.toNat
  | _ => 0

/-- `Run` (svd_smpl.cpp:32-60). -/
def run {V : Type} (io : NumIO V) (svd : Svd V) (w : World) (a : Args) : Res (Bool × World) := do
  let sa ← loadSparseMatrix io (w.files a.input)
  match sa with
  | some SA => return (true, save io w a.output (factors (svd.sparse (columns (w.files a.input)) SA a.rank)))
  | none => do
    let m ← loadMatrix io (w.files a.input)
    match m with
    | some A => return (true, save io w a.output (factors (svd.dense A a.rank)))
    | none => return (false, w)

/-- `main` (svd_smpl.cpp:62-94) after `argc--, argv++`: the exit status and the files.  The value of `Run` is ignored. -/
def main {V : Type} (io : NumIO V) (svd : Svd V) (argv : List Str) (w : World) : Res (Nat × World) := do
  let o ← args argv ⟨[], [], 10⟩
  match o with
  | none => return (1, w)
  | some a => do
    let r ← run io svd w a
    return (0, r.2)

end Verif.SvdSmpl
