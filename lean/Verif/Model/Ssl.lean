import Verif.Model.PartialIO
/-!
# Model of the TLS client socket (include/cybozu/ssl.hpp)

OpenSSL is an unknown sequence of answers, as the operating system is in `Verif.Model.PartialIO`, with the rules of its manual:
a positive value of `SSL_write` says how many bytes were taken; after `SSL_ERROR_WANT_READ` or `SSL_ERROR_WANT_WRITE` the call must
be repeated with the same arguments, otherwise it fails ("bad write retry"); `SSL_read` answers `SSL_ERROR_ZERO_RETURN` when the
peer has closed and nothing is left; after `SSL_shutdown` nothing can be written; `SSL_shutdown` gives 1 only when the close notify
of the peer was received too; the state of an `SSL` object stays until `SSL_clear` or `SSL_free`.

The loops have no bound of their own; they get `fuel` rounds and answer `running` when these are used up.  Not modelled: the
engine and the context (ssl.hpp:25-102), what is printed, the Windows branch of `connect`, the handshake.
-/
namespace Verif.Ssl
open Verif.PartialIO

/-- What a call of OpenSSL is going to do. -/
inductive Ans where
  /-- at most `k + 1` bytes are moved -/
  | move (k : Nat)
  | wantRead
  | wantWrite
  /-- `SSL_ERROR_SYSCALL` or `SSL_ERROR_SSL` -/
  | error
  deriving DecidableEq

/-- The values of `SSL_get_error` (openssl/ssl.h). -/
inductive Err where
  | ssl
  | wantRead
  | wantWrite
  | syscall
  | zeroReturn
  deriving DecidableEq, Repr

/-- A connection: the bytes taken so far, the bytes the peer sends before it closes, the answers to come, the number of calls so
far, the arguments of an unfinished `SSL_write`, whether the close notify was sent. -/
structure Conn where
  out : List UInt8
  rest : List UInt8
  ans : Nat → Ans
  calls : Nat
  pending : Option (Int × Nat)
  shut : Bool

/-- `SSL_write(ssl, buf + p, bytes.length)`: the number of bytes taken or the value of `SSL_get_error`. -/
def Conn.write (d : Conn) (p : Int) (bytes : List UInt8) : Except Err Nat × Conn :=
  if d.shut then (.error .ssl, { d with calls := d.calls + 1 })
  else if d.pending.any (fun q => q ≠ (p, bytes.length)) then (.error .ssl, { d with calls := d.calls + 1 })
  else
    match d.ans d.calls with
    | .move k =>
      let n := min (k + 1) bytes.length
      (.ok n, ⟨d.out ++ bytes.take n, d.rest, d.ans, d.calls + 1, none, d.shut⟩)
    | .wantRead => (.error .wantRead, ⟨d.out, d.rest, d.ans, d.calls + 1, some (p, bytes.length), d.shut⟩)
    | .wantWrite => (.error .wantWrite, ⟨d.out, d.rest, d.ans, d.calls + 1, some (p, bytes.length), d.shut⟩)
    | .error => (.error .syscall, { d with calls := d.calls + 1 })

/-- `SSL_read(ssl, buf, size)`, `size` positive: the bytes or the value of `SSL_get_error`. -/
def Conn.read (d : Conn) (size : Nat) : Except Err (List UInt8) × Conn :=
  match d.ans d.calls with
  | .move k =>
    if d.rest = [] then (.error .zeroReturn, { d with calls := d.calls + 1 })
    else
      let n := min (k + 1) size
      (.ok (d.rest.take n), ⟨d.out, d.rest.drop n, d.ans, d.calls + 1, d.pending, d.shut⟩)
  | .wantRead => (.error .wantRead, { d with calls := d.calls + 1 })
  | .wantWrite => (.error .wantWrite, { d with calls := d.calls + 1 })
  | .error => (.error .syscall, { d with calls := d.calls + 1 })

/-- `ClientSocket::readSome` (ssl.hpp:142-153).  The buffer is `dst[p..p+bufSize)`.  The value and the buffer. -/
def readSome : (fuel : Nat) → (dst : List UInt8) → (p bufSize : Nat) → Conn → Outcome × Nat × List UInt8 × Conn
  | 0, dst, _, _, d => (.running, 0, dst, d)
  | fuel + 1, dst, p, bufSize, d =>
    let size := wrapInt 32 (min 0x7fffffff bufSize)
    if 0 ≤ size then
      match d.read size.toNat with
      | (.ok bytes, d) =>
        if p + bytes.length ≤ dst.length then
          (.done, bytes.length, dst.take p ++ bytes ++ dst.drop (p + bytes.length), d)
        else (.ub, 0, dst, d)
      | (.error e, d) =>
        if e = .zeroReturn then (.done, 0, dst, d)
        else if e = .wantRead ∨ e = .wantWrite then readSome fuel dst p bufSize d
        else (.failed, 0, dst, d)
    else (.ub, 0, dst, d)

/-- `ClientSocket::read` (ssl.hpp:154-162): the loop. -/
def readLoop : (fuel : Nat) → (dst : List UInt8) → (p bufSize : Nat) → Conn → Outcome × List UInt8 × Conn
  | 0, dst, _, _, d => (.running, dst, d)
  | fuel + 1, dst, p, bufSize, d =>
    if bufSize > 0 then
      match readSome (fuel + 1) dst p bufSize d with
      | (.done, readSize, dst, d) => readLoop fuel dst (p + readSize) (bufSize - readSize) d
      | (o, _, dst, d) => (o, dst, d)
    else (.done, dst, d)

/-- `ClientSocket::read(buf, bufSize)` (ssl.hpp:154-162). -/
def read (fuel : Nat) (dst : List UInt8) (bufSize : Nat) (d : Conn) : Outcome × List UInt8 × Conn :=
  readLoop fuel dst 0 bufSize d

/-- `ClientSocket::write` (ssl.hpp:163-178): the loop.  `p` is an offset into `buf`. -/
def writeLoop : (fuel : Nat) → (buf : List UInt8) → (p : Int) → (bufSize : Nat) → Conn → Outcome × Conn
  | 0, _, _, _, d => (.running, d)
  | fuel + 1, buf, p, bufSize, d =>
    if bufSize > 0 then
      let size := wrapInt 32 (min 0x7fffffff bufSize)
      if 0 ≤ p ∧ 0 ≤ size ∧ p.toNat + size.toNat ≤ buf.length then
        match d.write p ((buf.drop p.toNat).take size.toNat) with
        | (.ok ret, d) => writeLoop fuel buf (p + ret) (subSize bufSize ret) d
        | (.error e, d) =>
          if e = .wantRead ∨ e = .wantWrite then writeLoop fuel buf p bufSize d
          else (.failed, d)
      else (.ub, d)
    else (.done, d)

/-- `ClientSocket::write(buf, bufSize)` (ssl.hpp:163-178). -/
def write (fuel : Nat) (buf : List UInt8) (d : Conn) : Outcome × Conn := writeLoop fuel buf 0 buf.length d

/-- What is asked of the system and of OpenSSL by the other members. -/
inductive Ev where
  | new
  | socket (fd : Nat)
  | setFd (fd : Nat)
  | handshake
  | shutdown
  | closeSocket (fd : Nat)
  | free
  deriving DecidableEq, Repr

/-- The members: `soc_.sd_` and whether `ssl_` is set. -/
structure Sock where
  fd : Option Nat
  ssl : Bool
  deriving DecidableEq, Repr

/-- The answers during `connect`: `::socket`, `::connect`, `SSL_set_fd`, `SSL_connect`. -/
structure Net where
  socket? : Option Nat
  connectOk : Bool
  setFdOk : Bool
  handshakeOk : Bool

/-- `ClientSocket()` (ssl.hpp:111-117); `ok` is the answer of `SSL_new`. -/
def construct (ok : Bool) : Except Unit Sock × List Ev :=
  if ok then (.ok ⟨none, true⟩, [.new]) else (.error (), [])

/-- `ClientSocket::connect` (ssl.hpp:124-141) with `Socket::connect(addr)` (socket.hpp:546-558): whether it returned, the object
and the calls. -/
def connect (s : Sock) (n : Net) : Bool × Sock × List Ev :=
  if s.fd.isSome then (false, s, [])
  else
    match n.socket? with
    | none => (false, s, [])
    | some fd =>
      let s' : Sock := ⟨some fd, s.ssl⟩
      if !n.connectOk then (false, s', [.socket fd])
      else if !n.setFdOk then (false, s', [.socket fd, .setFd fd])
      else if !n.handshakeOk then (false, s', [.socket fd, .setFd fd, .handshake])
      else (true, s', [.socket fd, .setFd fd, .handshake])

/-- `ClientSocket::close` (ssl.hpp:179-190); `shutdown` is the answer of `SSL_shutdown`, `closeOk` of `::close`. -/
def close (dontThrow : Bool) (s : Sock) (shutdown : Int) (closeOk : Bool) : Bool × Sock × List Ev :=
  match s.fd with
  | some fd =>
    let isOK := shutdown == 1
    let evs := [Ev.shutdown, .closeSocket fd]
    -- `soc_.close(dontThrow)` (socket.hpp:420-433)
    if !dontThrow && !closeOk then (false, ⟨none, s.ssl⟩, evs)
    else (dontThrow || isOK, ⟨none, s.ssl⟩, evs)
  | none => (true, s, [])

/-- `~ClientSocket()` (ssl.hpp:191-198). -/
def destruct (s : Sock) (shutdown : Int) (closeOk : Bool) : List Ev :=
  if s.ssl then (close true s shutdown closeOk).2.2 ++ [.free] else []

/-- A call of a user with the answers it gets. -/
inductive Op where
  | connect (n : Net)
  | close (dontThrow : Bool) (shutdown : Int) (closeOk : Bool)

/-- Several calls; exceptions are caught by the user. -/
def run : Sock → List Op → Sock × List Ev
  | s, [] => (s, [])
  | s, .connect n :: l => let r := connect s n; let q := run r.2.1 l; (q.1, r.2.2 ++ q.2)
  | s, .close dt sh c :: l => let r := close dt s sh c; let q := run r.2.1 l; (q.1, r.2.2 ++ q.2)

/-- What OpenSSL remembers of the calls about the one `SSL` object: the close notify was sent. -/
def notifySent (l : List Ev) : Bool := l.contains .shutdown

end Verif.Ssl
