import Verif.Model.Mecab
import Verif.Model.Mmap

/-!
# Model of `sample/mecab_smpl.cpp`

Linux.  Left out: messages on the standard error output.
-/
namespace Verif.MecabSmpl

/-- The memory that can be read at `mmap.get()`: the file, or nothing behind `MAP_FAILED`. -/
def mapped (content : List UInt8) (o : Mmap.Obj) : List UInt8 :=
  match o.map with
  | .addr _ => content
  | _ => []

/-- `printf("%s ", sv[i].c_str())` for each word and the line feed (mecab_smpl.cpp:27-30); the words are from a C string, so there is no NUL in
them. -/
def printWords (ws : List (List UInt8)) : List UInt8 := ws.flatMap (fun w => w ++ [32]) ++ [10]

/-- Lines 24-31 and the status: `made` is the result of `createTagger`. -/
def tag (content : List UInt8) (o : Mmap.Obj) (made : Option Nat) (tagger : List UInt8 → Option (List UInt8)) : Res (Nat × List UInt8) :=
  match Mecab.create made [] with
  | .throw => .ok (1, [])
  | .ub => .ub
  | .ok _ => do
    let r ← Mecab.parse tagger [] (mapped content o) o.size
    return (0, if r.1 then printWords r.2 else [])

/-- `main` (mecab_smpl.cpp:7-39) after `argc--, argv++`: the status, the text printed and what was asked of the system for the file. -/
def main (argc : Nat) (os : Mmap.Unix) (content : List UInt8) (made : Option Nat) (tagger : List UInt8 → Option (List UInt8)) :
    Res (Nat × List UInt8 × List Mmap.Ev) :=
  if argc = 0 then .ok (1, [], [])
  else
    match Mmap.construct os with
    | (.error _, evs) => .ok (1, [], evs)
    | (.ok o, evs) =>
      if o.size > 2 ^ 30 then .ok (1, [], evs ++ Mmap.destruct o)
      else do
        let r ← tag content o made tagger
        return (r.1, r.2, evs ++ Mmap.destruct o)

end Verif.MecabSmpl
