import Verif.Model.FileOps

/-!
# Model of the functions of `file.hpp` that work on names in a file system (Linux)

A path names a directory entry; how the directories of a path are followed is left to `key`, which does not change here (paths below a renamed
directory are not followed).  An entry is a file (the data belongs to a number, so that two entries may be the same file), a directory or
a symbolic link.  Targets of links are paths.  `fail` is the answer of the system where it may refuse for reasons that are not modelled.
-/
namespace Verif.FsNames
open Verif.FileOps (doesFileExist)

abbrev Bytes := List UInt8

/-- A directory entry. -/
inductive Node where
  | file (ino : Nat)
  | dir (ino : Nat)
  | link (target : Bytes)
  deriving DecidableEq

/-- The file system. -/
structure World where
  key : Bytes → Option Nat
  ent : Nat → Option Node
  data : Nat → Bytes

/-- `s.c_str()`: what the system sees of a `std::string`. -/
def cstr (s : Bytes) : Bytes := s.takeWhile (· ≠ 0)

/-- The entry of a path, not following a link at its end. -/
def World.entry (w : World) (p : Bytes) : Option Node := match w.key p with | none => none | some k => w.ent k

/-- Following at most `n` links. -/
def World.follow (w : World) : Nat → Bytes → Option Node
  | n, p => match w.entry p with
    | none => none
    | some (.link t) => (match n with | 0 => none | n + 1 => w.follow n t)
    | some x => some x

/-- `stat(2)`: 40 links are followed. -/
def World.stat (w : World) (p : Bytes) : Option Node := w.follow 40 p

/-- The file system with one entry replaced. -/
def World.set (w : World) (k : Nat) (x : Option Node) : World := { w with ent := fun i => if i = k then x else w.ent i }

/-- `unlink(2)`: links are not followed; directories are refused. -/
def World.unlink (w : World) (fail : Bool) (p : Bytes) : Option World :=
  match w.key p with
  | none => none
  | some k => match w.ent k with
    | none => none
    | some (.dir _) => none
    | some _ => if fail then none else some (w.set k none)

/-- `rename(2)`: nothing if both are the same file; a directory and something else do not replace each other; `full` says that the directory
to be replaced is not empty. -/
def World.rename (w : World) (fail full : Bool) (p q : Bytes) : Option World :=
  match w.key p, w.key q with
  | some a, some b =>
    match w.ent a with
    | none => none
    | some x =>
      if fail then none
      else if a = b then some w
      else match x, w.ent b with
        | x, none => some ((w.set b (some x)).set a none)
        | .dir i, some (.dir j) => if i = j then some w else if full then none else some ((w.set b (some (.dir i))).set a none)
        | .dir _, some _ => none
        | _, some (.dir _) => none
        | .file i, some (.file j) => if i = j then some w else some ((w.set b (some (.file i))).set a none)
        | x, some _ => some ((w.set b (some x)).set a none)
  | _, _ => none

/-- `GetFileSize` (file.hpp:448-459): `dirSize` is what the system says of a directory. -/
def getFileSize (w : World) (dirSize : Nat → Nat) (name : Bytes) : Res Nat :=
  match w.stat (cstr name) with
  | none => .throw
  | some (.file i) => .ok (w.data i).length
  | some (.dir i) => .ok (dirSize i)
  | some (.link _) => .throw

/-- `DoesFileExist` (file.hpp:464-479) in this file system. -/
def exist (w : World) (path : Bytes) : Bool := doesFileExist (fun p => (w.stat (cstr p)).isSome) path

/-- `RenameFile` (file.hpp:481-494): whether it returned, and the file system.  `other` is what other programs do between the check and the
renaming. -/
def renameFile (w : World) (other : World → World) (fail full : Bool) (src dst : Bytes) : Bool × World :=
  if exist w dst then (false, w)
  else
    let w := other w
    match w.rename fail full (cstr src) (cstr dst) with
    | none => (false, w)
    | some w => (true, w)

/-- `RemoveFile` (file.hpp:499-509). -/
def removeFile (w : World) (fail : Bool) (name : Bytes) : Bool × World :=
  match w.unlink fail (cstr name) with
  | none => (false, w)
  | some w => (true, w)

/-- The calls. -/
inductive Op where
  | rename (src dst : Bytes) (fail full : Bool)
  | remove (name : Bytes) (fail : Bool)

/-- One call, with no other program. -/
def step (w : World) : Op → World
  | .rename s d f g => (renameFile w (fun w => w) f g s d).2
  | .remove n f => (removeFile w f n).2

/-- A program that catches the exceptions. -/
def run (w : World) (ops : List Op) : World := ops.foldl step w

end Verif.FsNames
