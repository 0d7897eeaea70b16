import Verif.Model.Process
/-!
# Model of the class `Process` of `include/cybozu/process.hpp`

Objects hold the handle of a child: a pid on a POSIX system, a handle that must be closed on Windows.  `process::Start` is modelled in
`Process.lean`; here only its outcome matters.
-/
namespace Verif.ProcObj
open Verif.Handle (upd)
open Verif.Process (Kid End)

/-- The two versions (process.hpp:32-38). -/
inductive Platform where
  | posix | windows
  deriving DecidableEq, Repr

/-- The objects that are alive with their `hdl_` (`none` is `InvalidHandle`), the child each handle stands for, and on Windows the handles
that are open. -/
structure World where
  obj : Nat → Option (Option Nat)
  kid : Nat → Kid
  opn : Nat → Bool

/-- At the start of the program. -/
def World.init : World := ⟨fun _ => none, fun _ => .gone, fun _ => false⟩

/-- What a program does with objects; the last is what a child does. -/
inductive Op where
  /-- `Process o;` -/
  | new (o : Nat)
  /-- `o.run(...)`; `none`: `Start` fails -/
  | run (o : Nat) (r : Option Nat)
  /-- `Process o(p);` -/
  | copy (o p : Nat)
  /-- `o = p;` -/
  | assign (o p : Nat)
  /-- the destructor -/
  | del (o : Nat)
  /-- `o.isAlive(&code)` -/
  | ask (o : Nat)
  /-- a child ends -/
  | ends (h : Nat) (e : End)
  deriving Repr

/-- `close` (process.hpp:205-215, 264-270); closing a Windows handle that is not open is `ub`. -/
def close (pf : Platform) (o : Nat) (w : World) : Res World :=
  match w.obj o with
  | none => .ub
  | some none => .ok w
  | some (some h) =>
    match pf with
    | .posix => .ok { w with obj := upd w.obj o (some none) }
    | .windows => if w.opn h then .ok { w with obj := upd w.obj o (some none), opn := upd w.opn h false } else .ub

/-- `move` (process.hpp:258-263); `dbg` is false if `NDEBUG` is defined.  A failed assertion is `throw`. -/
def move (dbg : Bool) (o p : Nat) (w : World) : Res World :=
  match w.obj o, w.obj p with
  | some d, some s => if d.isSome ∧ dbg then .throw else .ok { w with obj := upd (upd w.obj o (some s)) p (some none) }
  | _, _ => .ub

/-- `IsAlive` on Windows (process.hpp:222-235), and `*exitCode`: the code of a child that runs is 259 (`STILL_ACTIVE`); a killed child
ends with the code its killer gives. -/
def isAliveWin (k : Kid) : Bool × Int :=
  match k with
  | .running => (true, 0)
  | .zombie (.exited code) => if code = 259 then (true, 0) else (false, code)
  | .zombie (.killed code) => if code = 259 then (true, 0) else (false, code)
  | .gone => (false, 0)

/-- `isAlive` (process.hpp:312-320): the return value and `*exitCode`. -/
def answer (pf : Platform) (o : Nat) (w : World) : Res (Bool × Int) :=
  match w.obj o with
  | none => .ub
  | some none => .ok (false, 0)
  | some (some h) =>
    match pf with
    | .posix => .ok ((Process.isAlive true (w.kid h)).1, (Process.isAlive true (w.kid h)).2.1)
    | .windows => .ok (isAliveWin (w.kid h))

/-- One operation: constructor (process.hpp:272-275), `run` (process.hpp:293-297), copy constructor (process.hpp:280-284), assignment
(process.hpp:285-292), destructor (process.hpp:276-279), `isAlive` (process.hpp:316-320).  Operations on dead objects are `ub`. -/
def step (pf : Platform) (dbg : Bool) (op : Op) (w : World) : Res World :=
  match op with
  | .new o => if (w.obj o).isSome then .ub else .ok { w with obj := upd w.obj o (some none) }
  | .run o r => do
    let w ← close pf o w
    match r with
    | none => return w
    | some h => return { obj := upd w.obj o (some (some h)), kid := upd w.kid h .running, opn := upd w.opn h true }
  | .copy o p => if (w.obj o).isSome then .ub else move dbg o p { w with obj := upd w.obj o (some none) }
  | .assign o p => if o = p then (if (w.obj o).isSome then .ok w else .ub) else move dbg o p w
  | .del o => do
    let w ← close pf o w
    return { w with obj := upd w.obj o none }
  | .ask o =>
    match w.obj o with
    | none => .ub
    | some none => .ok w
    | some (some h) =>
      match pf with
      | .posix => .ok { w with kid := upd w.kid h (Process.isAlive true (w.kid h)).2.2 }
      | .windows => .ok w
  | .ends h e => .ok (if w.kid h = .running then { w with kid := upd w.kid h (.zombie e) } else w)

/-- A sequence of operations. -/
def steps (pf : Platform) (dbg : Bool) : List Op → World → Res World
  | [], w => .ok w
  | op :: ops, w => do
    let w ← step pf dbg op w
    steps pf dbg ops w

end Verif.ProcObj
