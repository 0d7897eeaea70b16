import Verif.Model.SocketSetup

/-!
# Model of the epoll version of `queryAccept` (`include/cybozu/socket.hpp`, `CYBOZU_SOCKET_USE_EPOLL`)

The kernel is given by the milliseconds after which the socket becomes readable or writable and a signal comes (`none`: never), and by
the answers of `epoll_create1` and `epoll_ctl`.  A call that never returns is `none`.  `&ev->ev_` with `ev == NULL` in `del`
(socket.hpp:115-117) is taken as the null pointer, which `EPOLL_CTL_DEL` ignores.
-/
namespace Verif.Epoll
open Verif.SocketSetup (EBADF EMFILE FD_SETSIZE timeval)

/-- What happens in the world during the call. -/
structure World where
  readable : Option Nat
  writable : Option Nat
  signal : Option Nat

/-- `EINTR`. -/
def EINTR : Nat := 4
/-- `EINVAL`. -/
def EINVAL : Nat := 22
/-- `EPOLLIN`. -/
def EPOLLIN : Nat := 1
/-- `EPOLLOUT`. -/
def EPOLLOUT : Nat := 4

/-- The earlier of two times. -/
def earlier : Option Nat → Option Nat → Option Nat
  | none, b => b
  | a, none => a
  | some a, some b => some (min a b)

/-- A system call that waits for a socket ready at `ready`, at most until `limit` (`none`: without limit): the number of ready sockets
or the error, and when; `none` if it never returns. -/
def block (ready limit signal : Option Nat) : Option (Except Nat Nat × Nat) :=
  match earlier ready (earlier limit signal) with
  | none => none
  | some t =>
    if ready = some t then some (.ok 1, t)
    else if limit = some t then some (.ok 0, t)
    else some (.error EINTR, t)

/-- `epoll_wait` on an instance that watches the socket with this mask: a negative time is no limit. -/
def epollWait (w : World) (mask : Nat) (msec : Int) : Option (Except Nat Nat × Nat) :=
  let r := if mask &&& EPOLLIN ≠ 0 then w.readable else none
  let s := if mask &&& EPOLLOUT ≠ 0 then w.writable else none
  block (earlier r s) (if msec < 0 then none else some msec.toNat) w.signal

/-- The calls made. -/
inductive Ev where
  | create (efd : Nat)
  | add (efd fd mask : Nat)
  | wait (efd : Nat) (msec : Int)
  | del (efd fd : Nat)
  | close (efd : Nat)
  deriving DecidableEq, Repr

/-- The answers of `epoll_create1` and `epoll_ctl(EPOLL_CTL_ADD)`: a number is `errno`. -/
structure Ans where
  create : Except Nat Nat
  add : Except Nat Unit

/-- What a call does: the returned number or an exception, the calls made, and the time it took. -/
structure Out where
  ret : Res Int
  evs : List Ev
  time : Nat

/-- `Epoll::wait` (socket.hpp:121-137): the time given to the system, and the result. -/
def waitMsec (msec : Int) : Int := if msec = 0 then -1 else if msec = -1 then 0 else msec

/-- The result of `Epoll::wait` (socket.hpp:133-136). -/
def waitRet : Except Nat Nat → Int
  | .ok n => n
  | .error e => -(e : Int)

/-- `queryAcceptNoThrow` (socket.hpp:621-634) with `Epoll` and `AutoLock` (socket.hpp:84-153); the destructors run in the reverse order
of the constructors.  `AutoLock` calls `add` without `err`, so an error is thrown; then its destructor does not run. -/
def queryAcceptNoThrow (sd : Option Nat) (msec : Int) (checkWrite : Bool) (a : Ans) (w : World) : Option Out :=
  match sd with
  | none => some ⟨.ok (-EBADF), [], 0⟩
  | some fd =>
    match a.create with
    | .error e => some ⟨.ok (-(e : Int)), [], 0⟩
    | .ok efd =>
      let mask := if checkWrite then EPOLLIN else EPOLLOUT
      match a.add with
      | .error _ => some ⟨.throw, [.create efd, .add efd fd mask, .close efd], 0⟩
      | .ok _ =>
        match epollWait w mask (waitMsec msec) with
        | none => none
        | some (r, t) =>
          some ⟨.ok (waitRet r), [.create efd, .add efd fd mask, .wait efd (waitMsec msec), .del efd fd, .close efd], t⟩

/-- `queryAccept` (socket.hpp:663-668). -/
def queryAccept (sd : Option Nat) (msec : Int) (checkWrite : Bool) (a : Ans) (w : World) : Option (Res Bool) :=
  match queryAcceptNoThrow sd msec checkWrite a w with
  | none => none
  | some o => some (do let ret ← o.ret; if ret < 0 then .throw else .ok (ret > 0))

/-- `select` with this time limit; a negative one is refused. -/
def select (w : World) (rd : Bool) (t : Int × Int) : Option (Except Nat Nat × Nat) :=
  if t.1 < 0 ∨ t.2 < 0 then some (.error EINVAL, 0)
  else block (if rd then w.readable else w.writable) (some (t.1 * 1000 + t.2 / 1000).toNat) w.signal

/-- `queryAcceptNoThrow` of the other version (socket.hpp:635-654) in the same world. -/
def selectAccept (sd : Option Nat) (msec : Int) (checkWrite : Bool) (w : World) : Option (Int × Nat) :=
  match sd with
  | none => some (-EBADF, 0)
  | some fd =>
    if fd ≥ FD_SETSIZE then some (-EMFILE, 0)
    else
      match select w checkWrite (timeval msec) with
      | none => none
      | some (r, t) => some (waitRet r, t)

end Verif.Epoll
