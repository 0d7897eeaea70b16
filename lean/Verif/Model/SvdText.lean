import Verif.Model.Common

/-!
# Model of the text files of matrices (include/cybozu/nlp/svd.hpp:219-431)

Files are lists of bytes.  Reading and writing of floating point numbers by streams is a parameter (`NumIO`), as is the writing of
integers; reading of characters, integers and lines is modelled as libstdc++ does it, in the C locale.
-/
namespace Verif.SvdText

abbrev Str := List UInt8

/-- `isspace` -/
def isSp (c : UInt8) : Bool := c = 32 || (9 ≤ c && c ≤ 13)

/-- A decimal digit. -/
def isDig (c : UInt8) : Bool := 48 ≤ c && c ≤ 57

/-- An input stream: the characters left, and whether no extraction has failed. -/
structure In where
  rest : Str
  ok : Bool

/-- `is >> c` for a `char`; `none` is an indeterminate value. -/
def In.char (i : In) (v : Option UInt8) : In × Option UInt8 :=
  if !i.ok then (i, v)
  else
    match i.rest.dropWhile isSp with
    | [] => (⟨[], false⟩, v)
    | c :: r => (⟨r, true⟩, some c)

/-- The value of a sequence of digits. -/
def decVal (s : Str) : Nat := s.foldl (fun n c => n * 10 + (c.toNat - 48)) 0

/-- The end of `is >> x` for an `int`, after the sign. -/
def intTail (neg : Bool) (s : Str) : In × Int :=
  let d := s.takeWhile isDig
  let rest := s.dropWhile isDig
  if d = [] then (⟨rest, false⟩, 0)
  else
    let n : Int := if neg then -(decVal d : Int) else decVal d
    if n < -2147483648 then (⟨rest, false⟩, -2147483648)
    else if 2147483647 < n then (⟨rest, false⟩, 2147483647)
    else (⟨rest, true⟩, n)

/-- `is >> x` for an `int`: without digits 0 is stored, and outside the range of the type its limit (C++11). -/
def In.int (i : In) (v : Int) : In × Int :=
  if !i.ok then (i, v)
  else
    match i.rest.dropWhile isSp with
    | [] => (⟨[], false⟩, v)
    | c :: r => if c = 45 then intTail true r else if c = 43 then intTail false r else intTail false (c :: r)

/-- How a stream reads and writes the numbers of a matrix.  `scan` gets the text from the first character that is not a space;
`print` is `<<` with `setprecision(8)`.  `nat` writes an integer that is not negative. -/
structure NumIO (V : Type) where
  zero : V
  scan : Str → Option (V × Str)
  print : V → Str
  nat : Nat → Str

/-- `is >> v`, for a number; `none` if it fails. -/
def In.num {V : Type} (io : NumIO V) (i : In) : Option (V × In) :=
  if !i.ok then none
  else
    match i.rest.dropWhile isSp with
    | [] => none
    | c :: r =>
      match io.scan (c :: r) with
      | some (v, r') => some (v, ⟨r', true⟩)
      | none => none

/-- `std::getline`; `none` if nothing is left. -/
def getline (s : Str) : Option (Str × Str) :=
  if s = [] then none else some (s.takeWhile (· ≠ 10), (s.dropWhile (· ≠ 10)).drop 1)

/-- What the first line says. -/
structure Header where
  isMatrix : Bool
  isSparse : Bool
  row : Int
  col : Int
  deriving DecidableEq

/-- The tests on the first line (svd.hpp:233-263); `type` and `vec` are read only if `row` was, so they are determinate then. -/
def checkHeader (c vec type : Option UInt8) (row col : Int) : Res (Option Header) :=
  match c with
  | none => .ub
  | some c =>
    if c ≠ 35 then .ok none
    else if row ≤ 0 then .ok none
    else
      match type, vec with
      | some type, some vec =>
        if type ≠ 83 ∧ type ≠ 68 then .ok none
        else if vec = 77 then (if col ≤ 0 then .ok none else .ok (some ⟨true, type = 83, row, col⟩))
        else if vec = 86 then .ok (some ⟨false, type = 83, row, 1⟩)
        else .ok none
      | _, _ => .ub

/-- `is >> c >> vec >> type >> *row >> *col` (svd.hpp:230-232) and the tests. -/
def headerLine (line : Str) : Res (Option Header) :=
  let (i, c) := In.char ⟨line, true⟩ none
  let (i, vec) := i.char none
  let (i, type) := i.char none
  let (i, row) := i.int 0
  let (_, col) := i.int 0
  checkHeader c vec type row col

/-- `LoadHeader` (svd.hpp:221-268): the header and the rest of the file, or `none` for `false`.  A file that cannot be opened is `none`. -/
def loadHeader (file : Option Str) : Res (Option (Header × Str)) :=
  match file with
  | none => .ok none
  | some s =>
    match getline s with
    | none => .ok none
    | some (line, rest) => do
      let h ← headerLine line
      return h.map fun h => (h, rest)

/-- The loop over the entries of a line (svd.hpp:289-301, 340-353); `f` stores an entry.  `fuel` bounds the number of passes; running
out is `.ub`. -/
def rowLoop {V σ : Type} (io : NumIO V) (col : Int) (f : σ → Nat → V → Res σ) : Nat → In → σ → Res (Option σ)
  | 0, _, _ => .ub
  | fuel + 1, i, s =>
    let (i, idx) := i.int 0
    let (i, sep) := i.char none
    match i.num io with
    | none => .ok (some s)
    | some (v, i) =>
      if sep ≠ some 58 ∨ idx < 0 ∨ idx ≥ col then .ok none
      else do
        let s ← f s idx.toNat v
        rowLoop io col f fuel i s

/-- The loop over the lines (svd.hpp:282-302, 334-354). -/
def lineLoop {V σ : Type} (io : NumIO V) (col : Int) (f : σ → Nat → V → Res σ) (s0 : σ) : Nat → Str → Res (Option (List σ))
  | 0, _ => .ok (some [])
  | n + 1, file =>
    match getline file with
    | none => .ok none
    | some (line, rest) => do
      let r ← rowLoop io col f (line.length + 1) ⟨line, true⟩ s0
      match r with
      | none => return none
      | some s => do
        let rs ← lineLoop io col f s0 n rest
        return rs.map (s :: ·)

/-- `n` numbers one after the other (svd.hpp:305-313, 370-378). -/
def readNums {V : Type} (io : NumIO V) : Nat → In → Option (List V × In)
  | 0, i => some ([], i)
  | n + 1, i => do
    let (v, i) ← i.num io
    let (vs, i) ← readNums io n i
    return (v :: vs, i)

/-- The rows of a dense matrix (svd.hpp:304-314). -/
def readRows {V : Type} (io : NumIO V) (col : Nat) : Nat → In → Option (List (List V))
  | 0, _ => some []
  | n + 1, i => do
    let (r, i) ← readNums io col i
    let rs ← readRows io col n i
    return r :: rs

/-- `LoadMatrix` (svd.hpp:270-317): the rows, or `none` for `false`.  Simplified: the matrix left behind by a failure is not modelled,
nor is a failure of `resize`. -/
def loadMatrix {V : Type} (io : NumIO V) (file : Option Str) : Res (Option (List (List V))) := do
  match ← loadHeader file with
  | none => return none
  | some (h, rest) =>
    if !h.isMatrix then return none
    else if h.isSparse then
      lineLoop io h.col (fun (r : List V) j v => .ok (r.set j v)) (List.replicate h.col.toNat io.zero) h.row.toNat rest
    else return readRows io h.col.toNat h.row.toNat ⟨rest, true⟩

/-- `M.insertBack(i, idx) = v` of Eigen: positions of a row have to come in ascending order. -/
def insertBack {V : Type} (es : List (Nat × V)) (idx : Nat) (v : V) : Res (List (Nat × V)) :=
  if es.getLast?.all (·.1 < idx) then .ok (es ++ [(idx, v)]) else .ub

/-- `LoadSparseMatrix` (svd.hpp:319-357) for a row-major matrix: the entries of the rows. -/
def loadSparseMatrix {V : Type} (io : NumIO V) (file : Option Str) : Res (Option (List (List (Nat × V)))) := do
  match ← loadHeader file with
  | none => return none
  | some (h, rest) =>
    if !h.isMatrix || !h.isSparse then return none
    else lineLoop io h.col insertBack [] h.row.toNat rest

/-- `LoadVector` (svd.hpp:359-380) -/
def loadVector {V : Type} (io : NumIO V) (file : Option Str) : Res (Option (List V)) := do
  match ← loadHeader file with
  | none => return none
  | some (h, rest) =>
    if h.isMatrix then return none
    else return (readNums io h.row.toNat ⟨rest, true⟩).map (·.1)

/-- Texts with a space between them. -/
def spaced : List Str → Str
  | [] => []
  | [x] => x
  | x :: y :: l => x ++ 32 :: spaced (y :: l)

/-- `SaveMatrix` (svd.hpp:382-397): the bytes written. -/
def saveMatrix {V : Type} (io : NumIO V) (cols : Nat) (M : List (List V)) : Str :=
  [35, 32, 77, 32, 68, 32] ++ io.nat M.length ++ 32 :: io.nat cols ++ 10 :: M.flatMap fun r => spaced (r.map io.print) ++ [10]

/-- A line of `SaveSparseMatrix` (svd.hpp:407-416): `col` gives `j.col()`. -/
def sparseLine {V : Type} (io : NumIO V) (col : Nat → Nat) (es : List (Nat × V)) : Str :=
  spaced (es.map fun e => io.nat (col e.1) ++ 58 :: io.print e.2) ++ [10]

/-- `SaveSparseMatrix` (svd.hpp:399-419): the bytes written.  `outer` holds the inner vectors, the rows for a row-major matrix and the
columns for a column-major one, which is Eigen's default; `j.col()` is the number of the inner vector then. -/
def saveSparseMatrix {V : Type} (io : NumIO V) (rowMajor : Bool) (rows cols : Nat) (outer : List (List (Nat × V))) : Str :=
  [35, 32, 77, 32, 83, 32] ++ io.nat rows ++ 32 :: io.nat cols ++ 10 ::
    (outer.zipIdx.flatMap fun x => sparseLine io (fun inner => if rowMajor then inner else x.2) x.1)

/-- `SaveVector` (svd.hpp:421-431) -/
def saveVector {V : Type} (io : NumIO V) (v : List V) : Str :=
  [35, 32, 86, 32, 68, 32] ++ io.nat v.length ++ 10 :: v.flatMap fun x => io.print x ++ [10]

end Verif.SvdText
