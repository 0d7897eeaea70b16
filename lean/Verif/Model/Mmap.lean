import Verif.Model.Common
/-!
# Model of the memory mapped file (include/cybozu/mmap.hpp)

What the system answers is a parameter; what the object asks of it is recorded in order.  Handles
and addresses are numbers.  `MAP_FAILED` and the null pointer are modelled as pointers that are not
addresses of a mapping.

Not modelled: `ErrorNo().toString()` failing for lack of memory, the text of the exception.
-/
namespace Verif.Mmap

/-- A pointer: `map_`. -/
inductive Ptr where
  | null
  | failed
  | addr (a : Nat)
deriving DecidableEq, Repr

/-- What is asked of the system. -/
inductive Ev where
  | open (fd : Nat)
  | close (fd : Nat)
  /-- a mapping of so many bytes of the file; on Windows of a mapping object -/
  | map (a : Nat) (fd size : Nat)
  | unmap (a : Nat) (size : Nat)
  /-- `CreateFileMapping`: handle `m` for file handle `fd` -/
  | mapping (m fd : Nat)
  /-- `errno` or `GetLastError()` is read -/
  | errno
deriving DecidableEq, Repr

/-- The answers of Linux: `open`, `fstat` (`st_size`), `mmap`; `none` is failure. -/
structure Unix where
  open? : Option Nat
  size? : Option Nat
  map? : Option Nat

/-- The members of the object on Linux. -/
structure Obj where
  map : Ptr
  size : Nat
deriving DecidableEq, Repr

/-- The constructor (mmap.hpp:91-124): the object, or the exception with the failed call. -/
def construct (os : Unix) : Except String Obj × List Ev :=
  match os.open? with
  | none => (.error "open", [.errno])
  | some fd =>
    match os.size? with
    | none => (.error "fstat", [.open fd, .errno, .close fd])
    | some size =>
      if size = 0 then (.ok ⟨.failed, 0⟩, [.open fd, .close fd])
      else
        match os.map? with
        | none => (.error "mmap", [.open fd, .errno, .close fd])
        | some a => (.ok ⟨.addr a, size⟩, [.open fd, .map a fd size, .close fd])

/-- The destructor (mmap.hpp:133). -/
def destruct (o : Obj) : List Ev :=
  match o.map with
  | .failed => []
  | .addr a => [.unmap a o.size]
  | .null => []

/-- The answers of Windows: `CreateFile`, `GetFileSizeEx`, `CreateFileMapping`, `MapViewOfFile`. -/
structure Win where
  open? : Option Nat
  size? : Option Nat
  mapping? : Option Nat
  map? : Option Nat

/-- The members of the object on Windows; `none` is `INVALID_HANDLE_VALUE` or 0. -/
structure WObj where
  map : Ptr
  hFile : Option Nat
  hMap : Option Nat
  size : Nat
deriving DecidableEq, Repr

/-- The lines behind `ERR_EXIT` (mmap.hpp:61-64). -/
def errExit (msg : String) (hFile hMap : Option Nat) : Except String WObj × List Ev :=
  (.error msg, [.errno] ++ (hMap.map Ev.close).toList ++ (hFile.map Ev.close).toList)

/-- The constructor on Windows (mmap.hpp:70-79, 32-65). -/
def wconstruct (os : Win) : Except String WObj × List Ev :=
  match os.open? with
  | none => errExit "CreateFile" none none
  | some fd =>
    match os.size? with
    | none => let r := errExit "GetFileSizeEx" (some fd) none; (r.1, .open fd :: r.2)
    | some size =>
      if size = 0 then (.ok ⟨.null, none, none, 0⟩, [.open fd, .close fd])
      else
        match os.mapping? with
        | none => let r := errExit "CreateFileMapping" (some fd) none; (r.1, .open fd :: r.2)
        | some m =>
          match os.map? with
          | none =>
            let r := errExit "MapViewOfFile" (some fd) (some m)
            (r.1, .open fd :: .mapping m fd :: r.2)
          | some a => (.ok ⟨.addr a, some fd, some m, size⟩, [.open fd, .mapping m fd, .map a m size])

/-- The destructor on Windows (mmap.hpp:129-131); the size of a view is known to the system. -/
def wdestruct (o : WObj) : List Ev :=
  (match o.map with
    | .null => []
    | .addr a => [.unmap a o.size]
    | .failed => [.unmap 0 0]) ++
  (o.hMap.map Ev.close).toList ++ (o.hFile.map Ev.close).toList

end Verif.Mmap
