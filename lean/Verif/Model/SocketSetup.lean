import Verif.Model.SocketAddr
/-!
# Model of how a socket is set up (include/cybozu/socket.hpp:355-380, 452-464, 546-714)

What the system answers is a parameter.  Numbers of options, families and errors are those of Linux.  Not modelled: the branch for
epoll, the Windows branches, other threads (see `Verif.Model.Handle`).
-/
namespace Verif.SocketSetup
open Verif.SocketAddr

/-- The object (`sd_`) and whether the descriptor blocks. -/
structure Sock where
  sd : Option Nat
  blocking : Bool
  deriving DecidableEq, Repr

/-- The answer of `::connect`: 0, `EINPROGRESS`, another error. -/
inductive Con where
  | ok
  | inProgress
  | fail
  deriving DecidableEq, Repr

/-- The answers during `connect`: `::socket`, `ioctl` to non-blocking, `::connect`, `select` (number of descriptors or errno),
`getsockopt(SO_ERROR)`, `ioctl` to blocking. -/
structure Net where
  socket? : Option Nat
  nonblock : Bool
  con : Con
  select : Except Nat Nat
  soErr : Option Int
  block : Bool

/-- `EBADF`. -/
def EBADF : Int := 9
/-- `EMFILE`. -/
def EMFILE : Int := 24
/-- `FD_SETSIZE`. -/
def FD_SETSIZE : Nat := 1024

/-- The `timeval` of `queryAcceptNoThrow` and `setTimeout` (socket.hpp:358-359, 641-642): seconds and microseconds. -/
def timeval (msec : Int) : Int × Int := (msec.tdiv 1000, msec.tmod 1000 * 1000)

/-- `queryAcceptNoThrow` (socket.hpp:621-655). -/
def queryAcceptNoThrow (sd : Option Nat) (select : Except Nat Nat) : Int :=
  match sd with
  | none => -EBADF
  | some fd =>
    if fd ≥ FD_SETSIZE then -EMFILE
    else
      match select with
      | .ok n => n
      | .error e => -(e : Int)

/-- `queryAccept` (socket.hpp:663-668). -/
def queryAccept (sd : Option Nat) (select : Except Nat Nat) : Res Bool :=
  let ret := queryAcceptNoThrow sd select
  if ret < 0 then .throw else .ok (ret > 0)

/-- `connect(addr, msec)` (socket.hpp:546-572): whether it returned, and the object. -/
def connect (s : Sock) (msec : Int) (n : Net) : Bool × Sock :=
  if s.sd.isSome then (false, s)
  else
    match n.socket? with
    | none => (false, ⟨none, s.blocking⟩)
    | some fd =>
      -- a new descriptor blocks
      let s : Sock := ⟨some fd, true⟩
      if msec = 0 then
        match n.con with
        | .ok => (true, s)
        | _ => (false, s)
      else if !n.nonblock then (false, s)
      else
        let s : Sock := ⟨some fd, false⟩
        let last : Bool × Sock := if n.block then (true, ⟨some fd, true⟩) else (false, s)
        match n.con with
        | .ok => last
        | .fail => (false, s)
        | .inProgress =>
          match queryAccept s.sd n.select with
          | .ok true =>
            match n.soErr with
            | none => (false, s)
            | some err => if err ≠ 0 then (false, s) else last
          | _ => (false, s)

/-- What `bind` asks of the system. -/
inductive Ev where
  | socket (family : Nat)
  | option (level name value : Nat)
  | bind (addr : List UInt8)
  | listen
  | close (fd : Nat)
  deriving DecidableEq, Repr

/-- The answers during `bind`: `::socket`, the two `setsockopt`, `::bind`, `::listen`. -/
structure Srv where
  socket? : Option Nat
  reuse : Bool
  v6only : Bool
  bind : Bool
  listen : Bool

/-- The address `bind` builds (socket.hpp:592-605): the family in the order of the machine, the port in network order, zeros. -/
def bindAddr (v6 : Bool) (port : BitVec 16) : List UInt8 :=
  [if v6 then 10 else 2, 0, UInt8.ofNat (port.toNat / 256), UInt8.ofNat (port.toNat % 256)] ++
    List.replicate (if v6 then 24 else 12) 0

/-- `bind(port, mode)` (socket.hpp:580-614): whether it returned, `sd_`, the calls. -/
def bind (port : BitVec 16) (mode : BitVec 32) (a : Srv) : Bool × Option Nat × List Ev :=
  let v6 := mode &&& 2#32 != 0#32
  let family := if v6 then afInet6 else afInet
  match a.socket? with
  | none => (false, none, [.socket family])
  | some fd =>
    let e1 := [Ev.socket family, .option 1 2 1]
    if !a.reuse then (false, some fd, e1)
    else
      let e2 := if v6 then e1 ++ [.option 41 26 (if mode &&& 1#32 != 0#32 then 0 else 1)] else e1
      if v6 && !a.v6only then (false, some fd, e2)
      else
        let e3 := e2 ++ [.bind (bindAddr v6 port)]
        if a.bind then
          let e4 := e3 ++ [.listen]
          if a.listen then (true, some fd, e4)
          else (false, none, e4 ++ [.close fd])
        else (false, none, e3 ++ [.close fd])

/-- `accept(client, paddr)` (socket.hpp:673-684): whether it returned, `client.sd_`, the address.  `addr` is the object after the
call of `::accept`, if one was given. -/
def accept (fd? : Option Nat) (addr : Option Addr) : Bool × Option Nat × Option Addr :=
  match addr with
  | none => (fd?.isSome, fd?, none)
  | some a =>
    match a.verify with
    | .ok a => (fd?.isSome, fd?, some a)
    | _ => (false, fd?, some a)

/-- `waitForClose` (socket.hpp:452-464): whether it returned; `read` is what `readSome` gives. -/
def waitForClose (sd : Option Nat) (shutdown : Bool) (read : Res Nat) : Bool :=
  match sd with
  | none => true
  | some _ =>
    if !shutdown then false
    else
      match read with
      | .ok n => n = 0
      | _ => false

/-- `setTimeout` (socket.hpp:355-361); the kernel refuses or stores a time. -/
def setTimeout (kernel : Int × Int → Option (Int × Int)) (msec : Int) : Res (Int × Int) :=
  match kernel (timeval msec) with
  | some t => .ok t
  | none => .throw

/-- `getTimeout` (socket.hpp:363-368). -/
def getTimeout (stored : Int × Int) : Int := (stored.1 * 1000 + stored.2.tdiv 1000).bmod (2 ^ 32)

/-- The eight bytes of a pointer in memory. -/
def pointerBytes (p : BitVec 64) : List UInt8 := (List.range 8).map fun i => UInt8.ofNat (p.toNat / 256 ^ i)

/-- `setLinger` (socket.hpp:708-714, 686-691): the bytes given to `setsockopt`.  `&linger` is passed where the value is expected, so `T` is a
pointer and the bytes are those of the pointer `p` to the local variable. -/
def setLinger (p : BitVec 64) (_onoff _linger : BitVec 16) : List UInt8 := pointerBytes p

end Verif.SocketSetup
