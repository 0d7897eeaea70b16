import Verif.Model.Plsi
import Verif.Model.CsvFile
import Verif.Model.Atoi

/-!
# Model of `sample/plsi_smpl.cpp`

Real numbers as in `Model/Plsi`.  Left out: `AtndInfo` (plsi_smpl.cpp:43-106), which only gives the names that are printed and whose
failures `main` ignores (its results are the parameter `names`); the text of exceptions.
-/
namespace Verif.PlsiSmpl
open Verif.Plsi

/-- `map[id] = true` (plsi_smpl.cpp:26) and the order in which `set` (sparse.hpp) copies the map: ascending. -/
def insertId (u : Nat) : List Nat → List Nat
  | [] => [u]
  | x :: xs => if u < x then u :: x :: xs else if u = x then x :: xs else x :: insertId u xs

/-- `int x = cybozu::atoi(str)` (plsi_smpl.cpp:20, 25, 191, 194). -/
def atoiInt (s : List UInt8) : Res Int := do
  let o ← Atoi.atoiS Atoi.sint32 false s
  match o with
  | some v => .ok v
  | none => .throw

/-- The loop of plsi_smpl.cpp:24-27. -/
def userLoop : List (List UInt8) → List Nat → Plsi → Res (List Nat × Plsi)
  | [], ids, s => .ok (ids, s)
  | f :: fs, ids, s => do
    let key ← atoiInt f
    let r := getUserId s key
    userLoop fs (insertId r.1 ids) r.2

/-- Lines 23-28 for a row with at least two fields. -/
def loadRow (key : Int) (fs : List (List UInt8)) (s : Plsi) : Res Plsi := do
  let r ← userLoop fs [] s
  setItem r.2 key r.1

/-- The loop of `load` (plsi_smpl.cpp:19-29) over the rows that `csv.read` gives. -/
def loadRows : List (List (List UInt8)) → Plsi → Res Plsi
  | [], s => .ok s
  | line :: rest, s => do
    let f ← at? line 0
    let key ← atoiInt f
    if line.length < 2 then loadRows rest s
    else do
      let s ← loadRow key (line.drop 1) s
      loadRows rest s

/-- `load` (plsi_smpl.cpp:15-30): the rows are read to the end first, which changes nothing but which of two failures is met.
The parameters as in `CsvFile.readFile`. -/
def load (max : Nat) (content : Option (List UInt8)) (upto : Nat) (junk : List UInt8) (fuel n : Nat) (s : Plsi) : Res Plsi := do
  let rows ← CsvFile.readFile max 32 content upto junk fuel n
  loadRows rows s

/-- A line of the learning phase (plsi_smpl.cpp:146). -/
structure Line where
  i : Nat
  beta : ℝ
  lik : ℝ
  gain : ℝ

open Classical in
/-- The loop of plsi_smpl.cpp:144-152, `cnt` rounds left.  `step` is called without a temperature. -/
noncomputable def learnLoop : (cnt i : Nat) → (beta pre : ℝ) → Plsi → Res (List Line × Plsi)
  | 0, _, _, _, s => .ok ([], s)
  | cnt + 1, i, beta, pre, s => do
    let r ← step s 1
    let line : Line := ⟨i, beta, r.1, r.1 - pre⟩
    if r.1 - pre < 1 then
      if beta * 0.9 < 0.01 then .ok ([line], r.2)
      else do
        let t ← learnLoop cnt (i + 1) (beta * 0.9) r.1 r.2
        .ok (line :: t.1, t.2)
    else do
      let t ← learnLoop cnt (i + 1) beta r.1 r.2
      .ok (line :: t.1, t.2)

/-- Lines 141-153 with `Iter` rounds (none for a negative number). -/
noncomputable def learn (iter : Nat) (s : Plsi) : Res (List Line × Plsi) := learnLoop iter 0 1 (-10 ^ 30) s

/-- What the answering phase prints. -/
inductive Out where
  | text (s : String)
  /-- `"%1.3f %d:%s\n"` with `log(score)` -/
  | row (score : ℝ) (key : Int) (name : List UInt8)
  /-- the message of the exception (plsi_smpl.cpp:204-206) -/
  | error

/-- The variables of the loop: `mode`, `search_type` (plsi_smpl.cpp:155-156). -/
structure Mode where
  items : Bool
  ty : Search

/-- The five commands (plsi_smpl.cpp:162-186). -/
def command (st : List UInt8) (m : Mode) : Option (Out × Mode) :=
  if st = "ui".toUTF8.toList then some (.text "user => items\n", { m with items := false })
  else if st = "ii".toUTF8.toList then some (.text "item => items\n", { m with items := true })
  else if st = "sj".toUTF8.toList then some (.text "search type: JOINT probability\n", { m with ty := .joint })
  else if st = "sc".toUTF8.toList then some (.text "search type: CONDITIONAL probability\n", { m with ty := .conditional })
  else if st = "sp".toUTF8.toList then some (.text "search type: POSTERIOR probability\n", { m with ty := .posterior })
  else none

/-- The loop of plsi_smpl.cpp:198-201. -/
def rows (names : Int → List UInt8) (s : Plsi) : List (ℝ × Nat) → Res (List Out)
  | [] => .ok []
  | e :: es => do
    let key ← getItemKey s e.2
    let rest ← rows names s es
    return .row e.1 key (names key) :: rest

/-- Lines 188-201: one question. -/
noncomputable def ask (names : Int → List UInt8) (m : Mode) (key : Int) (s : Plsi) : Res (List Out × Plsi) := do
  let r ← if m.items then similarItems s key m.ty 10 else searchItems s key 10
  let o ← rows names r.2 r.1
  return (o, r.2)

/-- What follows a question: an exception leaves the loop with its message. -/
def thenMore (r : Res (List Out × Plsi)) (more : Plsi → Res (List Out)) : Res (List Out) :=
  match r with
  | .ok r => do
    let rest ← more r.2
    return r.1 ++ rest
  | .throw => .ok [.error]
  | .ub => .ub

/-- The loop of plsi_smpl.cpp:158-202 over the words of the standard input. -/
noncomputable def queries (names : Int → List UInt8) : List (List UInt8) → Mode → Plsi → Res (List Out)
  | [], _, _ => .ok []
  | st :: rest, m, s =>
    match command st m with
    | some c => do
      let more ← queries names rest c.2 s
      return c.1 :: more
    | none => thenMore (do
        let key ← atoiInt st
        ask names m key s) (queries names rest m)

/-- Lines 138-202: the lines of the learning phase and the answers. -/
noncomputable def session (names : Int → List UInt8) (lines : List (List (List UInt8))) (K iter : Nat) (words : List (List UInt8)) :
    Res (List Line × List Out) := do
  let s ← loadRows lines Plsi.empty
  let s ← startLearning s K
  let t ← learn iter s
  let o ← queries names words ⟨false, .joint⟩ t.2
  return (t.1, o)

/-- What the arguments say: `data_dir`, `K`, `Iter`. -/
structure Args where
  dir : List UInt8
  K : Int
  iter : Int
  deriving DecidableEq, Repr

/-- `cybozu::atoi(*argv)` (plsi_smpl.cpp:121, 124). -/
def atoiArg (s : List UInt8) : Res Int := do
  let o ← Atoi.atoiC Atoi.sint32 false s
  match o with
  | some v => .ok v
  | none => .throw

/-- The loop of plsi_smpl.cpp:115-129; `none` is `usage`, which exits with status 1. -/
def args : List (List UInt8) → Args → Res (Option Args)
  | [], a => .ok (some a)
  | [_], _ => .ok none
  | f :: v :: rest, a =>
    if f = "-d".toUTF8.toList then args rest { a with dir := v }
    else if f = "-k".toUTF8.toList then do
      let k ← atoiArg v
      args rest { a with K := k }
    else if f = "-i".toUTF8.toList then do
      let n ← atoiArg v
      args rest { a with iter := n }
    else .ok none

end Verif.PlsiSmpl
