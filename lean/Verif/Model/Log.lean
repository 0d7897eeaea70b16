import Verif.Model.Common
/-!
# Model of the logger (include/cybozu/log.hpp, include/cybozu/format.hpp)

Files are numbers (`FILE*` values; 0 is `stdout`, 1 is `stderr`).  The world knows which files are
open: those of the rest of the program (`user`) and those the logger itself has opened (`mine`).
Closing a file the logger has not opened, closing one twice and writing to a file that is not
open are undefined behaviour.  Results of library calls are arguments of the modelled functions.

Not modelled: threads (the functions are documented as not thread safe), `stdout`/`stderr` being
closed by the program, the text of the time stamp (an argument), Windows.
-/
namespace Verif.Log

/-- A `FILE*`. -/
abbrev Handle := Nat

/-- `stdout` and `stderr`. -/
def stdOut : Handle := 0
@[inherit_doc stdOut] def stdErr : Handle := 1

/-- Text; a byte is a number. -/
abbrev Text := List Nat

/-- The priorities of syslog used (log.hpp:59-66). -/
inductive SysPri where
  | crit | debug | info | warning
  deriving DecidableEq, Repr

/-- What can be observed. -/
inductive Ev where
  /-- a line `<time> <text>` written to a file (log.hpp:50) -/
  | line (h : Handle) (time text : Text)
  /-- a call of `syslog` (log.hpp:67) -/
  | sys (p : SysPri) (text : Text)
  /-- an error message on `stderr` (log.hpp:51,54,203,205,228,230) -/
  | notice
  deriving DecidableEq, Repr

/-- Open files and what has been written. -/
structure World where
  user : List Handle
  mine : List Handle
  ev : List Ev
  deriving DecidableEq, Repr

/-- The members of `Logger` (log.hpp:27-31); `priority` as a number. -/
structure Logger where
  priority : Nat
  fp : Option Handle
  doClose : Bool
  useSyslog : Bool
  useMsec : Bool
  deriving DecidableEq, Repr

/-- `Logger::Logger` (log.hpp:33-40); `LogInfo` is 1. -/
def Logger.init : Logger := ⟨1, some stdErr, false, true, false⟩

/-- `fclose` (C library): the stream is closed even if an error is reported. -/
def fclose (h : Handle) (w : World) : Res World :=
  if h ∈ w.mine then .ok { w with mine := w.mine.erase h } else .ub

/-- `c_str()` read as a C string: up to the first NUL. -/
def cstr (t : Text) : Text := t.takeWhile (· ≠ 0)

/-- `Logger::closeFile` (log.hpp:121-131); `good`: what `fclose` reports if it is called. The
value is what the function returns. -/
def closeFile (l : Logger) (w : World) (good : Bool) : Res (Bool × Logger × World) :=
  match l.fp with
  | none => .ok (true, l, w)
  | some h =>
    if !l.doClose then .ok (true, l, w)
    else if h = stdOut ∨ h = stdErr then .ok (true, { l with fp := none }, w)
    else do
      let w ← fclose h w
      .ok (good, { l with fp := none }, w)

/-- What a call did: returned or threw, with the object and the world after it. -/
structure Done where
  threw : Bool
  l : Logger
  w : World
  deriving DecidableEq, Repr

/-- `Logger::openFile` (log.hpp:88-101); `fp`: the result of `fopen`, which opens a file. -/
def openFile (l : Logger) (w : World) (fp : Option Handle) (good : Bool) : Res Done :=
  match fp with
  | none => .ok ⟨true, l, w⟩
  | some h => do
    let w := { w with mine := h :: w.mine }
    let (ok, l, w) ← closeFile l w good
    if !ok then .ok ⟨true, l, w⟩
    else .ok ⟨false, { l with fp := some h, doClose := true, useSyslog := false }, w⟩

/-- `Logger::set` (log.hpp:107-113). -/
def setFile (l : Logger) (w : World) (fp : Option Handle) (good : Bool) : Res Done := do
  let (ok, l, w) ← closeFile l w good
  if !ok then .ok ⟨true, l, w⟩
  else .ok ⟨false, { l with fp := fp, doClose := false, useSyslog := false }, w⟩

/-- The results of the library calls in one `put`. -/
structure PutEnv where
  /-- the text of `cur.toString(useMsec_)`; `none` if it throws -/
  time : Bool → Option Text
  /-- `fprintf` and `fflush` succeed -/
  printed : Bool
  flushed : Bool

/-- The priority given to syslog (log.hpp:59-66). -/
def sysPri (p : Nat) : SysPri :=
  if p = 0 then .debug else if p = 1 then .info else if p = 2 then .warning else .crit

/-- Writing to the file in `put` (log.hpp:48-56); `none`: an exception. If `fprintf` fails nothing
of the line counts as written. -/
def putFile (l : Logger) (w : World) (text : Text) (e : PutEnv) : Res (Option World) :=
  match l.fp with
  | none => .ok (some w)
  | some h =>
    match e.time l.useMsec with
    | none => .ok none
    | some t =>
      if h ∈ w.user ∨ h ∈ w.mine ∨ h = stdErr ∨ h = stdOut then
        .ok (some { w with
          ev := w.ev ++ [if e.printed then .line h (cstr t) (cstr text) else .notice] ++
            (if e.flushed then [] else [.notice]) })
      else .ub

/-- `Logger::put(LogPriority, const std::string&)` (log.hpp:45-70), Linux. -/
def put (l : Logger) (w : World) (priority : Nat) (text : Text) (e : PutEnv) : Res Done :=
  if priority < l.priority then .ok ⟨false, l, w⟩
  else do
    match ← putFile l w text e with
    | none => .ok ⟨true, l, w⟩
    | some w =>
      .ok ⟨false, l,
        if l.useSyslog then { w with ev := w.ev ++ [.sys (sysPri priority) (cstr text)] } else w⟩

/-- `vformat` (format.hpp:21-57, not Windows): the result of `vasprintf`, `none` if it is
negative. The string may contain NUL. -/
def vformat (r : Option Text) : Option Text := r

/-- `Logger::put(LogPriority, const char*, va_list)` (log.hpp:71-77). -/
def putFormat (l : Logger) (w : World) (priority : Nat) (r : Option Text) (e : PutEnv) :
    Res Done :=
  if priority < l.priority then .ok ⟨false, l, w⟩
  else
    match vformat r with
    | none => .ok ⟨true, l, w⟩
    | some str => put l w priority str e

/-- The `catch` handlers of `PutLog` and `~Log` (log.hpp:202-206,227-231): a message on
`stderr`. -/
def guarded (r : Res Done) : Res Done := do
  let d ← r
  .ok (if d.threw then { d with threw := false, w := { d.w with ev := d.w.ev ++ [.notice] } }
    else d)

/-- `PutLog` (log.hpp:195-206). -/
def putLog (l : Logger) (w : World) (priority : Nat) (r : Option Text) (e : PutEnv) : Res Done :=
  guarded (putFormat l w priority r e)

/-- `Log::~Log` (log.hpp:223-232): `text` is what was inserted. -/
def logDtor (l : Logger) (w : World) (priority : Nat) (text : Text) (e : PutEnv) : Res Done :=
  guarded (put l w priority text e)

/-- One action of a program that uses the logger: the functions of log.hpp, and opening and
closing files of its own. -/
inductive Op where
  | openFile (fp : Option Handle) (good : Bool)
  | set (fp : Option Handle) (good : Bool)
  | useSyslog (b : Bool)
  | closeFile (good : Bool)
  | setPriority (p : Nat)
  | setUseMsec (b : Bool)
  | putLog (priority : Nat) (r : Option Text) (e : PutEnv)
  | log (priority : Nat) (text : Text) (e : PutEnv)
  | userOpen (h : Handle)
  | userClose (h : Handle)

/-- The effect of one action (log.hpp:84-139,149-206,216-235). -/
def step (l : Logger) (w : World) : Op → Res Done
  | .openFile fp good => openFile l w fp good
  | .set fp good => setFile l w fp good
  | .useSyslog b => .ok ⟨false, { l with useSyslog := b }, w⟩
  | .closeFile good => do
    let (_, l, w) ← closeFile l w good
    .ok ⟨false, l, w⟩
  | .setPriority p => .ok ⟨false, { l with priority := p }, w⟩
  | .setUseMsec b => .ok ⟨false, { l with useMsec := b }, w⟩
  | .putLog p r e => putLog l w p r e
  | .log p t e => logDtor l w p t e
  | .userOpen h => .ok ⟨false, l, { w with user := h :: w.user }⟩
  | .userClose h => .ok ⟨false, l, { w with user := w.user.erase h }⟩

/-- `Logger::~Logger` (log.hpp:41-44). -/
def destroy (l : Logger) (w : World) (good : Bool) : Res World := do
  let (_, _, w) ← closeFile l w good
  .ok w

/-- A program: actions one after another. An exception of `openFile` or `set` goes to the program,
which goes on. The number of exceptions is counted. -/
def runOps : List Op → Logger → World → Res (Nat × Logger × World)
  | [], l, w => .ok (0, l, w)
  | o :: os, l, w => do
    let d ← step l w o
    let (n, l, w) ← runOps os d.l d.w
    .ok ((if d.threw then 1 else 0) + n, l, w)

end Verif.Log
