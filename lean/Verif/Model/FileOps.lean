import Verif.Model.Common
import Verif.Model.FileName

/-!
# Model of `File` and the directory functions of `file.hpp` (Linux)

The transfers (`read`, `write`) are in `PartialIO`; here they move all their bytes (what C54 proves of the loops).
-/
namespace Verif.FileOps

abbrev Bytes := List UInt8

/-- The bits of `std::ios::openmode` that are looked at. -/
structure Mode where
  inp : Bool
  out : Bool
  app : Bool
  trunc : Bool
  deriving DecidableEq, Repr

/-- `verifyMode` (file.hpp:63-82): `none` for the exception, else the new `isReadOnly_`. -/
def verifyMode (m : Mode) : Option Bool :=
  if m.inp == m.out then none
  else if m.inp then (if m.app || m.trunc then none else some true)
  else (if m.app && m.trunc then none else some false)

/-- The flags given to `::open` (file.hpp:109-118). -/
structure Flags where
  write : Bool
  creat : Bool
  append : Bool
  trunc : Bool
  deriving DecidableEq, Repr

/-- `setHandle` on Linux (file.hpp:107-120). -/
def flagsOf (m : Mode) : Flags :=
  if m.out then (if m.app then ⟨true, true, true, false⟩ else ⟨true, true, false, true⟩)
  else ⟨false, false, false, false⟩

/-! ## The handle -/

/-- Members of `File` (file.hpp:53-55). -/
structure FileObj where
  hdl : Option Nat
  doClose : Bool
  readOnly : Bool

/-- Calls that open and close descriptors. -/
inductive Ev where
  | opened (fd : Nat) (write : Bool)
  | closed (fd : Nat)
  deriving DecidableEq, Repr

/-- Answers to the calls of `open`: the descriptor, and whether `fstat` and `lseek` work. -/
structure OpenAns where
  fd? : Option Nat
  size : Bool
  seek : Bool

/-- `open` (file.hpp:122-135, 181-185): whether it returned, the object, the calls. `doClose_` is set even if the mode is refused. -/
def FileObj.open (f : FileObj) (m : Mode) (a : OpenAns) : Bool × FileObj × List Ev :=
  if f.hdl.isSome then (false, f, [])
  else
    match verifyMode m with
    | none => (false, { f with doClose := true, readOnly := if m.inp == m.out then f.readOnly else m.inp }, [])
    | some ro =>
      match a.fd? with
      | none => (false, ⟨none, true, ro⟩, [])
      | some fd => (!(m.app && !(a.size && a.seek)), ⟨some fd, true, ro⟩, [.opened fd (flagsOf m).write])

/-- `close` (file.hpp:214-225): the handle is gone whether or not the system reports an error. -/
def FileObj.close (f : FileObj) (ok : Bool) : Bool × FileObj × List Ev :=
  match f.hdl with
  | none => (true, f, [])
  | some fd => (ok, { f with hdl := none }, [.closed fd])

/-- `sync` (file.hpp:230-250): whether it returned; `ok` is the answer of `fdatasync`. -/
def FileObj.sync (f : FileObj) (ok : Bool) : Bool := if f.hdl.isNone then true else if f.readOnly then true else ok

/-- The destructor (file.hpp:161-172): the calls. -/
def FileObj.destroy (f : FileObj) (syncOk closeOk : Bool) : List Ev :=
  if !f.doClose then []
  else if f.sync syncOk then (f.close closeOk).2.2 else []

/-- How an object comes to life (file.hpp:137-160). -/
inductive Ctor where
  | empty
  | named (m : Mode) (a : OpenAns)
  | handle (fd : Nat)

/-- What is done with it. -/
inductive Op where
  | open (m : Mode) (a : OpenAns)
  | close (ok : Bool)
  | sync (ok : Bool)

/-- One use; exceptions are caught by the user, who goes on. -/
def FileObj.step (f : FileObj) : Op → FileObj × List Ev
  | .open m a => ((f.open m a).2.1, (f.open m a).2.2)
  | .close ok => ((f.close ok).2.1, (f.close ok).2.2)
  | .sync _ => (f, [])

/-- A sequence of uses. -/
def FileObj.steps (f : FileObj) : List Op → FileObj × List Ev
  | [] => (f, [])
  | o :: l => (((f.step o).1.steps l).1, (f.step o).2 ++ ((f.step o).1.steps l).2)

/-- The whole life of an object: all calls that open and close descriptors.  When the constructor throws there is no object and no
destructor runs. -/
def life (c : Ctor) (ops : List Op) (syncOk closeOk : Bool) : List Ev :=
  match c with
  | .empty => ((FileObj.mk none true false).steps ops).2 ++ ((FileObj.mk none true false).steps ops).1.destroy syncOk closeOk
  | .handle fd => ((FileObj.mk (some fd) false false).steps ops).2 ++
      ((FileObj.mk (some fd) false false).steps ops).1.destroy syncOk closeOk
  | .named m a =>
    match (FileObj.mk none true false).open m a with
    | (true, f, evs) => evs ++ (f.steps ops).2 ++ (f.steps ops).1.destroy syncOk closeOk
    | (false, _, evs) => evs

/-! ## The contents -/

/-- An open file of the kernel. -/
structure Desc where
  file : Nat
  pos : Nat
  flags : Flags

/-- The files by name (`none`: there is none), and the open files by descriptor. -/
structure FS where
  files : Nat → Option Bytes
  desc : Nat → Option Desc

/-- Bytes `b` written at position `p` of `old`; a gap is filled with zeros. -/
def overlay (old : Bytes) (p : Nat) (b : Bytes) : Bytes :=
  old.take p ++ List.replicate (p - old.length) 0 ++ b ++ old.drop (p + b.length)

/-- `::open`. -/
def FS.sysOpen (w : FS) (name fd : Nat) (fl : Flags) : Option FS :=
  match w.files name with
  | none => if fl.creat then some ⟨fun i => if i = name then some [] else w.files i,
      fun i => if i = fd then some ⟨name, 0, fl⟩ else w.desc i⟩ else none
  | some _ => some ⟨fun i => if i = name ∧ fl.trunc then some [] else w.files i,
      fun i => if i = fd then some ⟨name, 0, fl⟩ else w.desc i⟩

/-- `::write` of all bytes: at the end of the file for `O_APPEND`, else at the position. -/
def FS.sysWrite (w : FS) (fd : Nat) (b : Bytes) : Option FS :=
  match w.desc fd with
  | none => none
  | some d =>
    if !d.flags.write then none
    else
      let old := (w.files d.file).getD []
      let p := if d.flags.append then old.length else d.pos
      some ⟨fun i => if i = d.file then some (overlay old p b) else w.files i,
        fun i => if i = fd then some { d with pos := p + b.length } else w.desc i⟩

/-- `File::write` (file.hpp:252-274), all bytes moved: nothing is called for no bytes. -/
def FS.write (w : FS) (fd : Nat) (b : Bytes) : Option FS := if b = [] then some w else w.sysWrite fd b

/-- `File::readSome` (file.hpp:275-292): up to `n` bytes. -/
def FS.readSome (w : FS) (fd n : Nat) : Option (Bytes × FS) :=
  match w.desc fd with
  | none => none
  | some d =>
    if d.flags.write then none
    else
      let b := (((w.files d.file).getD []).drop d.pos).take n
      some (b, { w with desc := fun i => if i = fd then some { d with pos := d.pos + b.length } else w.desc i })

/-- `lseek`. -/
def FS.sysSeek (w : FS) (fd : Nat) (p : Int) : Option FS :=
  match w.desc fd with
  | none => none
  | some d => if p < 0 then none
    else some { w with desc := fun i => if i = fd then some { d with pos := p.toNat } else w.desc i }

/-- `::close`. -/
def FS.sysClose (w : FS) (fd : Nat) : FS := { w with desc := fun i => if i = fd then none else w.desc i }

/-- `File::getSize` (file.hpp:338-352). -/
def FS.getSize (w : FS) (fd : Nat) : Option Nat := (w.desc fd).map (fun d => ((w.files d.file).getD []).length)

/-- `seekdir`. -/
inductive Dir where
  | beg | cur | fin

/-- `File::seek` (file.hpp:300-337). -/
def FS.seek (w : FS) (fd : Nat) (pos : Int) : Dir → Option FS
  | .beg => w.sysSeek fd pos
  | .cur => match w.desc fd with | none => none | some d => w.sysSeek fd (d.pos + pos)
  | .fin => match w.getSize fd with | none => none | some n => w.sysSeek fd (n + pos)

/-- `File::open` on the file system (file.hpp:122-135): the descriptor is the kernel's choice; `none` for an exception. -/
def FS.openFile (w : FS) (name fd : Nat) (m : Mode) : Option FS :=
  match verifyMode m with
  | none => none
  | some _ =>
    match w.sysOpen name fd (flagsOf m) with
    | none => none
    | some w => if m.app then (match w.getSize fd with | none => none | some n => w.seek fd n .beg) else some w

/-- Several writes through descriptors, in order. -/
def FS.writes (w : FS) : List (Nat × Bytes) → Option FS
  | [] => some w
  | (fd, b) :: l => match w.write fd b with | none => none | some w => w.writes l

/-- Several calls of `readSome` on one file, in order. -/
def FS.reads (w : FS) (fd : Nat) : List Nat → Option (List Bytes × FS)
  | [] => some ([], w)
  | n :: l => match w.readSome fd n with
    | none => none
    | some (b, w) => match w.reads fd l with | none => none | some (bs, w) => some (b :: bs, w)

/-! ## Directory functions -/

/-- `filterAndPush` (file.hpp:541-549); `cond` may throw. -/
def filterAndPush (cond : Bytes → Bytes → Res Bool) (ext : Bytes) (list : List (Bytes × Nat)) (fi : Bytes × Nat) :
    Res (List (Bytes × Nat)) :=
  if fi.1 = [46] ∨ fi.1 = [46, 46] then .ok list
  else do
    let b ← cond fi.1 ext
    return if b then list ++ [fi] else list

/-- Calls of `GetFileList`. -/
inductive DirEv where
  | opendir | readdir | closedir
  deriving DecidableEq

/-- The loop of `GetFileList` (file.hpp:610-615): `entries` is what `readdir` gives until its first null pointer.  The result, the
list (kept when `cond` throws), the calls. -/
def fileLoop (cond : Bytes → Bytes → Res Bool) (ext : Bytes) :
    List (Bytes × Nat) → List (Bytes × Nat) → Res Bool × List (Bytes × Nat) × List DirEv
  | [], list => (.ok true, list, [.readdir])
  | fi :: l, list =>
    match filterAndPush cond ext list fi with
    | .ok list' => ((fileLoop cond ext l list').1, (fileLoop cond ext l list').2.1, .readdir :: (fileLoop cond ext l list').2.2)
    | .throw => (.throw, list, [.readdir])
    | .ub => (.ub, list, [.readdir])

/-- `GetFileList` on Linux (file.hpp:561-617); the destructor of `Handle` closes the directory on every way out. -/
def getFileList (opened : Bool) (entries : List (Bytes × Nat)) (cond : Bytes → Bytes → Res Bool) (ext : Bytes)
    (list : List (Bytes × Nat)) : Res Bool × List (Bytes × Nat) × List DirEv :=
  if !opened then (.ok false, list, [.opendir])
  else ((fileLoop cond ext entries list).1, (fileLoop cond ext entries list).2.1,
    [.opendir] ++ (fileLoop cond ext entries list).2.2 ++ [.closedir])

/-- `FileInfo` (file.hpp:516-534): 0 is `DT_UNKNOWN`, 4 `DT_DIR`, 8 `DT_REG`. -/
def isDirectory (attr : Nat) : Res Bool := if attr = 0 then .throw else .ok (attr == 4)

/-- `isFile`. -/
def isFile (attr : Nat) : Res Bool := if attr = 0 then .throw else .ok (attr == 8)

/-- `DoesFileExist` (file.hpp:464-479); `stat` tells whether a path can be found. -/
def doesFileExist (stat : Bytes → Bool) (path : Bytes) : Bool :=
  match path.getLast? with
  | none => false
  | some c => if c = 47 ∨ c = 92 then stat path.dropLast else stat path

/-- `RenameFile` on Linux (file.hpp:481-494): whether `::rename` was called, and whether the function returned. -/
def renameFile (stat : Bytes → Bool) (rename : Bool) (to : Bytes) : Bool × Bool :=
  if doesFileExist stat to then (false, false) else (true, rename)

/-- `GetExePath` on Linux (file.hpp:397-443): `link` is the target of `/proc/self/exe` (`readlink` cuts it at 4094 bytes); the
result and `*baseName` (`none`: not assigned). -/
def getExePath (link : Option Bytes) : Res (Bytes × Option Bytes) :=
  match link with
  | none => .ok ([], none)
  | some t =>
    let path := t.take 4094
    match FileName.findLast 47 path path.length with
    | none => .ok (path, none)
    | some pos => do
      let name := path.drop (pos + 1)
      let (base, suffix) ← FileName.getBaseName name
      return (path.take (pos + 1), some (if suffix = [101, 120, 101] then base else name))

end Verif.FileOps
