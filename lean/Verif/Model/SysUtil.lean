import Verif.Model.Common

/-!
# Model of small system wrappers

`benchmark.hpp`, `Sleep` and `Begin` of thread.hpp, tls.hpp, env.hpp, format.hpp, quit_signal_handler.hpp.  What the system
answers is a parameter.
-/
namespace Verif.SysUtil

abbrev Bytes := List UInt8

/-! ## benchmark.hpp -/

/-- Members of `CpuClock` (benchmark.hpp:149-151). -/
structure Clk where
  clock : BitVec 64
  count : Nat

/-- Uses of a `CpuClock`; the argument is what `getCpuClk` reads. -/
inductive ClkOp where
  | start (t : BitVec 64)
  | stop (t : BitVec 64)
  | clear

/-- `begin`, `end`, `clear` (benchmark.hpp:100-111); `count_` is an `int`, its overflow is undefined. -/
def Clk.step (c : Clk) : ClkOp → Res Clk
  | .start t => .ok { c with clock := c.clock - t }
  | .stop t => if c.count + 1 < 2 ^ 31 then .ok ⟨c.clock + t, c.count + 1⟩ else .ub
  | .clear => .ok ⟨0, 0⟩

/-- A sequence of uses of an object. -/
def Clk.run (c : Clk) : List ClkOp → Res Clk
  | [] => .ok c
  | o :: l => match c.step o with
    | .ok c => c.run l
    | .throw => .throw
    | .ub => .ub

/-- The loop of `CYBOZU_BENCH` (benchmark.hpp:165-177): `tick n` is the reading of the clock at its n-th use, `fuel` the rounds
left; gives the clock object and the number of calls of the function. -/
def benchLoop (tick : Nat → BitVec 64) (loopN1 : Nat) (maxClk : BitVec 64) : Nat → Nat → Clk → Nat → Clk × Nat
  | 0, _, c, calls => (c, calls)
  | fuel + 1, i, c, calls =>
    let c' : Clk := ⟨c.clock - tick (2 * i) + tick (2 * i + 1), c.count + 1⟩
    if maxClk < c'.clock then (c', calls + loopN1)
    else benchLoop tick loopN1 maxClk fuel (i + 1) c' (calls + loopN1)

/-- `CYBOZU_BENCH` with the constants for CPU timers (benchmark.hpp:141-143, 165-177). -/
def bench (tick : Nat → BitVec 64) : Clk × Nat := benchLoop tick 1000 100000000#64 100 0 ⟨0, 0⟩ 0

/-! ## Sleep -/

/-- `timespec` (seconds, nanoseconds). -/
structure Span where
  sec : Int
  nsec : Int
  deriving DecidableEq

/-- What `nanosleep` does: sleeps to the end, is interrupted with a remaining time, or fails with another error. -/
inductive Nap where
  | done
  | interrupted (rem : Span)
  | failed

/-- `Sleep` on Linux (thread.hpp:36-54), the answers of `nanosleep` given: the requests made, and whether it returned within these
answers; division of `int` truncates. -/
def sleepLoop (req : Span) : List Nap → List Span × Bool
  | [] => ([req], false)
  | .done :: _ => ([req], true)
  | .failed :: _ => ([req], true)
  | .interrupted rem :: l => (req :: (sleepLoop rem l).1, (sleepLoop rem l).2)

/-- The first request of `Sleep` (thread.hpp:42-43). -/
def sleepReq (msec : Int) : Span := ⟨msec.tdiv 1000, msec.tmod 1000 * 1000000⟩

/-! ## thread::Begin -/

/-- Calls of `Begin`. -/
inductive ThEv where
  | init | stack (size : Int) | create | destroy
  deriving DecidableEq

/-- Answers: each call succeeds or not. -/
structure ThAns where
  init : Bool
  stack : Bool
  create : Bool
  destroy : Bool

/-- `thread::Begin` on Linux (thread.hpp:105-133): the calls and the result. -/
def threadBegin (stackSize : Int) (a : ThAns) : List ThEv × Bool :=
  if !a.init then ([.init], false)
  else
    let (evs, ret) :=
      if stackSize ≠ 0 then
        if !a.stack then ([.init, .stack stackSize], false) else ([.init, .stack stackSize, .create], a.create)
      else ([.init, .create], a.create)
    if !a.destroy then (evs ++ [.destroy], false) else (evs ++ [.destroy], ret)

/-! ## tls.hpp -/

/-- Thread specific data of the system: keys in use, and values by key and thread. -/
structure Keys where
  used : Nat → Bool
  val : Nat → Nat → Nat

/-- `pthread_key_create`: a key that is not in use, with the null pointer in every thread. -/
def Keys.create (k : Keys) (key : Nat) : Keys :=
  ⟨fun i => if i = key then true else k.used i, fun i t => if i = key then 0 else k.val i t⟩

/-- `pthread_setspecific`. -/
def Keys.put (k : Keys) (key t v : Nat) : Keys := { k with val := fun i u => if i = key ∧ u = t then v else k.val i u }

/-- `pthread_key_delete`. -/
def Keys.delete (k : Keys) (key : Nat) : Keys := { k with used := fun i => if i = key then false else k.used i }

/-- The program: the system's keys, and the `idx_` of every live `Tls` object (`some none` for `invalidTlsIndex`). -/
structure TlsState where
  keys : Keys
  objs : Nat → Option (Option Nat)

/-- Uses of `Tls` objects by threads. -/
inductive TlsOp where
  | new (o : Nat) (key : Option Nat)  -- the key the system gives, if any
  | copy (o src : Nat)                -- the implicit copy constructor
  | put (o t v : Nat)
  | del (o t : Nat)                   -- destructor, run by thread t

/-- Members of `Tls` (tls.hpp:87-113).  An operation that the program cannot do (object not there, or a key the system would not
give) leaves the state unchanged. -/
def TlsState.step (s : TlsState) : TlsOp → TlsState
  | .new o key => match s.objs o, key with
    | none, none => { s with objs := fun i => if i = o then some none else s.objs i }
    | none, some k => if s.keys.used k then s else ⟨s.keys.create k, fun i => if i = o then some (some k) else s.objs i⟩
    | some _, _ => s
  | .copy o src => match s.objs o, s.objs src with
    | none, some x => { s with objs := fun i => if i = o then some x else s.objs i }
    | _, _ => s
  | .put o t v => match s.objs o with
    | some (some k) => { s with keys := s.keys.put k t v }
    | _ => s
  | .del o t => match s.objs o with
    | some (some k) => ⟨(s.keys.put k t 0).delete k, fun i => if i = o then none else s.objs i⟩
    | some none => { s with objs := fun i => if i = o then none else s.objs i }
    | none => s

/-- `Tls::get` (tls.hpp:102-105). -/
def TlsState.read (s : TlsState) (o t : Nat) : Nat := match s.objs o with
  | some (some k) => s.keys.val k t
  | _ => 0

/-- `Tls::set` returns whether there is a key (tls.hpp:98-101). -/
def TlsState.canSet (s : TlsState) (o : Nat) : Bool := match s.objs o with | some (some _) => true | _ => false

/-- A sequence of uses. -/
def TlsState.run (s : TlsState) (l : List TlsOp) : TlsState := l.foldl TlsState.step s

/-! ## env.hpp -/

/-- `QueryEnv` (env.hpp:14-34): `env` is the environment of the process; on Windows `getenv_s` fails for a value that does not fit
into the buffer of 4096 bytes with its terminator. -/
def queryEnv (windows : Bool) (env : Bytes → Option Bytes) (key : Bytes) : Option Bytes :=
  match env (key.takeWhile (· ≠ 0)) with
  | none => none
  | some v => if windows && decide (4096 < v.length + 1) then none else some v

/-- `GetEnv(key)` (env.hpp:42-47). -/
def getEnv (windows : Bool) (env : Bytes → Option Bytes) (key : Bytes) : Res Bytes :=
  match queryEnv windows env key with | some v => .ok v | none => .throw

/-- `GetEnv(key, defaultValue)` (env.hpp:56-61). -/
def getEnvOr (windows : Bool) (env : Bytes → Option Bytes) (key dflt : Bytes) : Bytes := (queryEnv windows env key).getD dflt

/-! ## format.hpp -/

/-- Calls made by `format`. -/
inductive FmtEv where
  | vaStart | alloc | free | vaEnd
  deriving DecidableEq

/-- `vformat` on Linux (format.hpp:21-56): `text` is what `vasprintf` produced (`none`: it failed), `assign` whether the copy into
the string succeeds. The calls, whether it returned, and the new value of `str`. -/
def vformat (text : Option Bytes) (assign : Bool) (str : Bytes) : List FmtEv × Bool × Bytes :=
  match text with
  | none => ([], false, str)
  | some t => if assign then ([.alloc, .free], true, t) else ([.alloc, .free], false, str)

/-- `format` (format.hpp:68-74, 79-87). -/
def format (text : Option Bytes) (assign : Bool) (str : Bytes) : List FmtEv × Bool × Bytes :=
  match vformat text assign str with
  | (evs, true, s) => ([.vaStart] ++ evs ++ [.vaEnd], true, s)
  | (evs, false, s) => ([.vaStart] ++ evs, false, s)

/-! ## quit_signal_handler.hpp -/

/-- State: `app_`, and for which of the signals (SIGINT, SIGQUIT, SIGABRT, SIGTERM) the handler is installed; the calls of
`quit`, `none` for a call through a null pointer; whether the program was ended by `exit(1)`. -/
structure Quit where
  app : Option Nat
  handler : Fin 4 → Bool
  quits : List (Option Nat)
  exited : Bool

/-- The steps of the constructor `QuitSignalHandler(app)` on Linux (quit_signal_handler.hpp:41-60), and a signal that is
delivered. -/
inductive QStep where
  | setApp (a : Nat)
  | install (i : Fin 4) (ok : Bool)
  | signal (i : Fin 4)

/-- One step; `install` that fails prints and exits. -/
def Quit.step (s : Quit) : QStep → Quit
  | .setApp a => { s with app := some a }
  | .install i true => { s with handler := fun j => if j = i then true else s.handler j }
  | .install _ false => { s with exited := true }
  | .signal i => if s.handler i then { s with quits := s.quits ++ [s.app] } else s

/-- The steps of the constructor: the handlers are installed in order until one fails. -/
def construct (a : Nat) (ok : Fin 4 → Bool) : List QStep :=
  .setApp a ::
    (if !ok 0 then [.install 0 false]
     else .install 0 true :: (if !ok 1 then [.install 1 false]
     else .install 1 true :: (if !ok 2 then [.install 2 false]
     else .install 2 true :: [.install 3 (ok 3)])))

end Verif.SysUtil
