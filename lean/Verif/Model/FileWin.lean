import Verif.Model.FileOps
import Verif.Model.PartialIO

/-!
# Model of `File` on Windows (`include/cybozu/file.hpp`, the `_WIN32` branches)

The files of `FileOps` are used again.  `CreateFile` without `FILE_APPEND_DATA` alone gives a handle whose writes go to the position of
the handle, also for appending: the flag `append` of a descriptor is never set.  All files are opened with shared reading and writing
(file.hpp:95), so no open fails because of another.  Deleting and renaming open files is not modelled.
-/
namespace Verif.FileWin
open Verif.FileOps

/-- `disposition` of `CreateFile`. -/
inductive Disp where
  | openExisting | createAlways | openAlways
  deriving DecidableEq, Repr

/-- `setHandle` on Windows (file.hpp:90-104): whether writing is asked for, and the disposition. -/
def createArgs (m : Mode) : Bool × Disp :=
  if m.out then (if m.app then (true, .openAlways) else (true, .createAlways)) else (false, .openExisting)

/-- `CreateFile`: `OPEN_EXISTING` needs the file, `CREATE_ALWAYS` makes it empty, `OPEN_ALWAYS` makes it if it is missing. -/
def createFile (w : FS) (name fd : Nat) (a : Bool × Disp) : _root_.Option FS :=
  let d : Desc := ⟨name, 0, ⟨a.1, a.2 != .openExisting, false, a.2 == .createAlways⟩⟩
  match a.2, w.files name with
  | .openExisting, none => none
  | .createAlways, _ => some ⟨fun i => if i = name then some [] else w.files i, fun i => if i = fd then some d else w.desc i⟩
  | _, old => some ⟨fun i => if i = name then some (old.getD []) else w.files i, fun i => if i = fd then some d else w.desc i⟩

/-- What the distance is added to, with `FILE_BEGIN`, `FILE_CURRENT`, `FILE_END` (file.hpp:305-317). -/
def pointerBase (w : FS) (d : Desc) : Dir → Int
  | .beg => 0
  | .cur => d.pos
  | .fin => ((w.files d.file).getD []).length

/-- `SetFilePointerEx` (file.hpp:318): the position must not be negative. -/
def setFilePointer (w : FS) (fd : Nat) (pos : Int) (dir : Dir) : _root_.Option FS :=
  match w.desc fd with
  | none => none
  | some d =>
    if pointerBase w d dir + pos < 0 then none
    else some ⟨w.files, fun i => if i = fd then some { d with pos := (pointerBase w d dir + pos).toNat } else w.desc i⟩

/-- `GetFileSizeEx` (file.hpp:342-344). -/
def getFileSize (w : FS) (fd : Nat) : _root_.Option Nat :=
  match w.desc fd with
  | none => none
  | some d => some ((w.files d.file).getD []).length

/-- `WriteFile` of all bytes: at the position of the handle; needs `GENERIC_WRITE`. -/
def writeFile (w : FS) (fd : Nat) (b : Bytes) : _root_.Option FS :=
  match w.desc fd with
  | none => none
  | some d =>
    if d.flags.write then
      some ⟨fun i => if i = d.file then some (overlay ((w.files d.file).getD []) d.pos b) else w.files i,
        fun i => if i = fd then some { d with pos := d.pos + b.length } else w.desc i⟩
    else none

/-- `ReadFile` (file.hpp:278-279); needs `GENERIC_READ`. -/
def readFile (w : FS) (fd n : Nat) : _root_.Option (Bytes × FS) :=
  match w.desc fd with
  | none => none
  | some d =>
    if d.flags.write then none
    else
      let b := (((w.files d.file).getD []).drop d.pos).take n
      some (b, ⟨w.files, fun i => if i = fd then some { d with pos := d.pos + b.length } else w.desc i⟩)

/-- `File::open` on Windows (file.hpp:122-135). -/
def openFile (w : FS) (name fd : Nat) (m : Mode) : _root_.Option FS :=
  match verifyMode m with
  | none => none
  | some _ =>
    match createFile w name fd (createArgs m) with
    | none => none
    | some w => if m.app then (match getFileSize w fd with | none => none | some n => setFilePointer w fd n .beg) else some w

/-- `File::write` (file.hpp:252-274). -/
def write (w : FS) (fd : Nat) (b : Bytes) : _root_.Option FS := if b = [] then some w else writeFile w fd b

/-! ## Programs -/

/-- Calls on files. -/
inductive Call where
  | open (name fd : Nat) (m : Mode)
  | write (fd : Nat) (b : Bytes)
  | readSome (fd n : Nat)
  | seek (fd : Nat) (pos : Int) (dir : Dir)
  | getSize (fd : Nat)
  | close (fd : Nat)

/-- What a call shows: that it returned, what it returned, or that it threw. -/
inductive Out where
  | done
  | bytes (b : Bytes)
  | size (n : Nat)
  | thrown
  deriving DecidableEq, Repr

/-- A call that returns nothing; exceptions are caught and leave the files alone. -/
def plain (w : FS) : _root_.Option FS → Out × FS
  | none => (.thrown, w)
  | some w' => (.done, w')

/-- A call of the POSIX version. -/
def posixStep (w : FS) : Call → Out × FS
  | .open name fd m => plain w (w.openFile name fd m)
  | .write fd b => plain w (w.write fd b)
  | .readSome fd n => match w.readSome fd n with | none => (.thrown, w) | some r => (.bytes r.1, r.2)
  | .seek fd pos dir => plain w (w.seek fd pos dir)
  | .getSize fd => match w.getSize fd with | none => (.thrown, w) | some n => (.size n, w)
  | .close fd => (.done, w.sysClose fd)

/-- A call of the Windows version. -/
def winStep (w : FS) : Call → Out × FS
  | .open name fd m => plain w (openFile w name fd m)
  | .write fd b => plain w (write w fd b)
  | .readSome fd n => match readFile w fd n with | none => (.thrown, w) | some r => (.bytes r.1, r.2)
  | .seek fd pos dir => plain w (setFilePointer w fd pos dir)
  | .getSize fd => match getFileSize w fd with | none => (.thrown, w) | some n => (.size n, w)
  | .close fd => (.done, w.sysClose fd)

/-- A program: what its calls show, and the files. -/
def runWith (step : FS → Call → Out × FS) (w : FS) : List Call → List Out × FS
  | [] => ([], w)
  | c :: l => ((step w c).1 :: (runWith step (step w c).2 l).1, (runWith step (step w c).2 l).2)

/-! ## Transfers -/

open Verif.PartialIO in
/-- `WriteFile` of the device of `PartialIO`: success and the number of bytes written. There is no interruption: an answer `eintr` of the
device is an error. -/
def devWrite (d : Dev) (bytes : List UInt8) : Bool × Nat × Dev :=
  match d.ans d.calls with
  | .move k => (true, min k bytes.length, { d with out := d.out ++ bytes.take (min k bytes.length), calls := d.calls + 1 })
  | _ => (false, 0, { d with calls := d.calls + 1 })

open Verif.PartialIO in
/-- `ReadFile` of the device: success, the number of bytes and the bytes. -/
def devRead (d : Dev) (size : Nat) : Bool × List UInt8 × Dev :=
  match d.ans d.calls with
  | .move k => (true, d.rest.take (min k (min size d.rest.length)),
      { d with rest := d.rest.drop (min k (min size d.rest.length)), calls := d.calls + 1 })
  | _ => (false, [], { d with calls := d.calls + 1 })

open Verif.PartialIO in
/-- The loop of `File::write` on Windows (file.hpp:255-269). -/
def writeLoop : (fuel : Nat) → (buf : List UInt8) → (p bufSize : Nat) → Dev → Outcome × Dev
  | 0, _, _, _, d => (.running, d)
  | fuel + 1, buf, p, bufSize, d =>
    if bufSize > 0 then
      let size := min 0x7fffffff bufSize
      if p + size ≤ buf.length then
        let r := devWrite d ((buf.drop p).take size)
        if !r.1 then (.failed, r.2.2)
        else writeLoop fuel buf (p + r.2.1) (subSize bufSize r.2.1) r.2.2
      else (.ub, d)
    else (.done, d)

open Verif.PartialIO in
/-- `File::readSome` on Windows (file.hpp:275-279, 288-291): one call. -/
def readSome (dst : List UInt8) (p bufSize : Nat) (d : Dev) : Outcome × Nat × List UInt8 × Dev :=
  let r := devRead d (min 0x7fffffff bufSize)
  if !r.1 then (.failed, 0, dst, r.2.2)
  else if p + r.2.1.length ≤ dst.length then
    (.done, r.2.1.length, dst.take p ++ r.2.1 ++ dst.drop (p + r.2.1.length), r.2.2)
  else (.ub, 0, dst, r.2.2)

open Verif.PartialIO in
/-- The loop of `File::read` with the Windows `readSome` (file.hpp:295-299): without a check for 0. -/
def readLoop : (fuel : Nat) → (dst : List UInt8) → (p bufSize : Nat) → Dev → Outcome × List UInt8 × Dev
  | 0, dst, _, _, d => (.running, dst, d)
  | fuel + 1, dst, p, bufSize, d =>
    if bufSize > 0 then
      match readSome dst p bufSize d with
      | (.done, readSize, dst, d) => readLoop fuel dst (p + readSize) (bufSize - readSize) d
      | (o, _, dst, d) => (o, dst, d)
    else (.done, dst, d)

end Verif.FileWin
