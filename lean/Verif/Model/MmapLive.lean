import Verif.Model.Common

/-!
# Model of an `Mmap` while the file system changes (`include/cybozu/mmap.hpp:91-124`, Linux)

`open`, `fstat` and `mmap` in the constructor are separate steps, between which other programs may act.  A descriptor and a mapping belong to a file (a
number), not to its name.  The mapping is `MAP_SHARED` (114): it shows what the file contains at the moment.  Behind the end of the file the rest of the
last page reads as zero and the pages after it raise `SIGBUS`.  System calls that fail are C76.
-/
namespace Verif.MmapLive

abbrev Bytes := List UInt8

/-- The object. -/
inductive Obj where
  /-- before `::open` -/
  | before
  /-- `::open` has given a descriptor of the file (mmap.hpp:96-99) -/
  | opened (ino : Nat)
  /-- `size_` is set (mmap.hpp:101-108) -/
  | sized (ino : Nat) (size : Nat)
  /-- the constructor has returned (mmap.hpp:109-119) -/
  | ready (ino : Nat) (size : Nat)
  deriving DecidableEq

/-- The names, the contents of the files (of those without a name too), the number for the next file, the object.  `atOpen` is, as history, what
the file contained when it was opened. -/
structure St where
  dir : Nat → Option Nat
  data : Nat → Bytes
  next : Nat
  obj : Obj
  atOpen : Bytes

/-- Function update. -/
def upd {α : Type} (f : Nat → α) (i : Nat) (v : α) : Nat → α := fun j => if j = i then v else f j

/-- The bytes of a file after `b` was written at `p`; a gap is filled with zeros. -/
def place (file : Bytes) (p : Nat) (b : Bytes) : Bytes :=
  (file ++ List.replicate (p - file.length) 0).take p ++ b ++ file.drop (p + b.length)

/-- The file after `ftruncate(n)`. -/
def resize (file : Bytes) (n : Nat) : Bytes := file.take n ++ List.replicate (n - file.length) 0

/-- How other programs treat the files. -/
inductive Manners where
  /-- they only put new files in the place of old ones and remove names -/
  | replace
  /-- they also write into existing files -/
  | write
  /-- they also shorten files -/
  | any
  deriving DecidableEq

/-- Steps; `name` is the argument of the constructor. -/
inductive Step (name : Nat) (m : Manners) : St → St → Prop where
  /-- `::open` (mmap.hpp:96) -/
  | open {s ino} : s.obj = .before → s.dir name = some ino → Step name m s { s with obj := .opened ino, atOpen := s.data ino }
  /-- `::fstat` (mmap.hpp:103-107) -/
  | stat {s ino} : s.obj = .opened ino → Step name m s { s with obj := .sized ino (s.data ino).length }
  /-- `::mmap`, `::close` (mmap.hpp:109-119); nothing is mapped for size 0 -/
  | map {s ino size} : s.obj = .sized ino size → Step name m s { s with obj := .ready ino size }
  /-- a new file with contents `c` takes the place of whatever had the name `n` (`rename`) -/
  | install {s n c} : Step name m s { s with dir := upd s.dir n (some s.next), data := upd s.data s.next c, next := s.next + 1 }
  /-- a name is removed -/
  | unlink {s n} : Step name m s { s with dir := upd s.dir n none }
  /-- a program writes into a file (which it may have opened when the file had a name) -/
  | write {s ino p b} : m ≠ .replace → ino < s.next → Step name m s { s with data := upd s.data ino (place (s.data ino) p b) }
  /-- a program changes the length of a file -/
  | truncate {s ino len} : m = .any → ino < s.next → Step name m s { s with data := upd s.data ino (resize (s.data ino) len) }

/-- Executions. -/
inductive Steps (name : Nat) (m : Manners) : St → St → Prop where
  | refl {s} : Steps name m s s
  | tail {s s' s''} : Steps name m s s' → Step name m s' s'' → Steps name m s s''

/-- What reading a byte does. -/
inductive Got where
  | byte (b : UInt8)
  /-- the process gets `SIGBUS` -/
  | bus
  /-- outside of the mapping -/
  | ub
  deriving DecidableEq

/-- `get()[i]` (mmap.hpp:137); `page` is the size of a page. -/
def readByte (page : Nat) (s : St) (i : Nat) : Got :=
  match s.obj with
  | .ready ino size =>
    if size = 0 then .ub
    else
      match (s.data ino)[i]? with
      | some b => if i < (size + page - 1) / page * page then .byte b else .ub
      | none =>
        if i < (size + page - 1) / page * page then
          if i < ((s.data ino).length + page - 1) / page * page then .byte 0 else .bus
        else .ub
  | _ => .ub

/-- A file system before the object exists: names stand for files that exist already. -/
structure Start (s : St) : Prop where
  obj : s.obj = .before
  old : ∀ n ino, s.dir n = some ino → ino < s.next

end Verif.MmapLive
