import Verif.Model.Json
/-!
# What JSON values mean: trees without memory
-/
namespace Verif.JsonSpec
open Verif.Json

/-- A JSON value. -/
inductive T where
  | leaf (l : Leaf)
  | str (s : String)
  | node (k : Kind) (c : List (String × T))

/-- Variables, or elements of a container, with their names. -/
abbrev Forest := List (String × T)

/-- The value at a path. -/
def getAt : Forest → List Nat → Option T
  | _, [] => none
  | c, [j] => (c[j]?).map (·.2)
  | c, j :: p =>
    match c[j]? with
    | some (_, .node _ d) => getAt d p
    | _ => none

/-- The value at a path replaced. -/
def upd (f : T → T) : List Nat → Forest → Forest
  | [], c => c
  | [j], c => c.modify j fun e => (e.1, f e.2)
  | j :: p, c => c.modify j fun e =>
    match e.2 with
    | .node k d => (e.1, .node k (upd f p d))
    | t => (e.1, t)

/-- What a program does with values. -/
inductive Op where
  | assign (dst src : List Nat)
  | new (name : String) (src : List Nat)
  | newLeaf (name : String) (l : Leaf)
  | newStr (name : String) (s : String)
  | newNode (name : String) (k : Kind)
  | insert (p : List Nat) (pos : Nat) (key : String) (src : List Nat)
  | remove (p : List Nat) (pos : Nat)
  | swapVars (i j : Nat)
  | drop (i : Nat)

/-- The meaning of an operation; `none` if it names something that is not there. -/
def step (ts : Forest) : Op → Option Forest
  | .assign dst src => do
    let _ ← getAt ts dst
    let u ← getAt ts src
    some (upd (fun _ => u) dst ts)
  | .new name src => do
    let u ← getAt ts src
    some (ts ++ [(name, u)])
  | .newLeaf name l => some (ts ++ [(name, .leaf l)])
  | .newStr name s => some (ts ++ [(name, .str s)])
  | .newNode name k => some (ts ++ [(name, .node k [])])
  | .insert p pos key src => do
    let t ← getAt ts p
    let u ← getAt ts src
    match t with
    | .node k c =>
      if pos ≤ c.length then
        some (upd (fun _ => .node k (c.take pos ++ (key, u) :: c.drop pos)) p ts)
      else none
    | _ => none
  | .remove p pos => do
    let t ← getAt ts p
    match t with
    | .node k c =>
      if pos < c.length then
        some (upd (fun _ => .node k (c.take pos ++ c.drop (pos + 1))) p ts)
      else none
    | _ => none
  | .swapVars i j => do
    let a ← ts[i]?
    let b ← ts[j]?
    some ((ts.set i (a.1, b.2)).set j (b.1, a.2))
  | .drop i => if i < ts.length then some (ts.take i ++ ts.drop (i + 1)) else none

/-- The forest is laid out in memory, with the given addresses. -/
inductive Rep (m : Nat → Option Cell) : Forest → List (String × Val) → List Nat → Prop where
  | nil : Rep m [] [] []
  | leaf {c vs fp} (k : String) (l : Leaf) (r : Rep m c vs fp) :
      Rep m ((k, .leaf l) :: c) ((k, .leaf l) :: vs) fp
  | str {c vs fp} (k : String) (s : String) (a : Nat) (h : m a = some (.str s))
      (r : Rep m c vs fp) : Rep m ((k, .str s) :: c) ((k, .str a) :: vs) (a :: fp)
  | node {c vs fp d ws fq} (k : String) (kd : Kind) (a : Nat) (h : m a = some (.node ws))
      (rd : Rep m d ws fq) (r : Rep m c vs fp) :
      Rep m ((k, .node kd d) :: c) ((k, .node kd a) :: vs) (a :: (fq ++ fp))

/-- The variables have the given values, no two values share memory, and there is no other memory. -/
def Holds (st : St) (ts : Forest) : Prop :=
  ∃ fp, Rep st.heap.cell ts st.root fp ∧ fp.Nodup ∧ (∀ a, st.heap.cell a ≠ none ↔ a ∈ fp) ∧
    ∀ a, a ∈ fp → a < st.heap.next

/-- The statement that performs an operation. -/
def exec (st : St) : Op → End
  | .assign dst src => st.assign dst src
  | .new name src => st.new name src
  | .newLeaf name l => st.newLeaf name l
  | .newStr name s => st.newStr name s
  | .newNode name k => st.newNode name k
  | .insert p pos key src => st.insert p pos key src
  | .remove p pos => st.remove p pos
  | .swapVars i j => st.swap [i] [j]
  | .drop i => st.drop i

end Verif.JsonSpec
