import Verif.Model.Common

/-!
# Model of the server in `sample/socket_smpl.cpp:48-69`

The network is a list of visits: for each pass of the loop what the calls of the library answer.  The calls themselves are C54 (`readSome`) and C80
(`queryAccept`, `accept`, timeouts).  The descriptors that are open are counted by number.
-/
namespace Verif.SocketServ

abbrev Bytes := List UInt8

/-- One pass of the loop.  `none` stands for an exception. -/
structure Visit where
  /-- `queryAccept` answers `true` at last, instead of throwing (each `false` is a repetition, socket_smpl.cpp:52-53) -/
  ready : Bool
  /-- the descriptor `::accept` gives -/
  fd : Option Nat
  /-- the address is well-formed (`SocketAddr::verify`, only asked with `-v`) -/
  addr : Bool
  /-- `setSendTimeout`, `setReceiveTimeout` succeed -/
  send : Bool
  recv : Bool
  /-- what `readSome` puts into the buffer of 128 bytes -/
  bytes : Option Bytes

/-- What is printed for a client. -/
inductive Line where
  | addr
  /-- `rec=%s(%d)` -/
  | got (text : Bytes) (n : Nat)
  deriving DecidableEq

/-- Open descriptors and the output. -/
structure World where
  fds : List Nat
  out : List Line
  deriving DecidableEq

/-- `std::string(buf, readSize).c_str()` shown with `%s`. -/
def shown (b : Bytes) : Bytes := b.takeWhile (· ≠ 0)

/-- One pass (socket_smpl.cpp:52-68): whether it came to its end without an exception.  In both cases `client` is destroyed, which closes its
descriptor if it has one. -/
def pass (verbose : Bool) (v : Visit) (w : World) : Bool × World :=
  if !v.ready then (false, w)
  else
    match v.fd with
    | none => (false, w)
    | some fd =>
      let w := { w with fds := fd :: w.fds }
      let (good, w) :=
        if verbose && !v.addr then (false, w)
        else
          let w := if verbose then { w with out := w.out ++ [.addr] } else w
          if !v.send then (false, w)
          else if !v.recv then (false, w)
          else
            match v.bytes with
            | none => (false, w)
            | some b => (true, { w with out := w.out ++ [.got (shown (b.take 128)) (b.take 128).length] })
      (good, { w with fds := w.fds.erase fd })

/-- The loop (socket_smpl.cpp:51-69) on the descriptor `sd` of `server`: true if it still waits after the visits; false if an exception has
ended it, which closes the descriptor of the server, too (80-82). -/
def serve (verbose : Bool) (sd : Nat) : List Visit → World → Bool × World
  | [], w => (true, w)
  | v :: vs, w =>
    match pass verbose v w with
    | (true, w) => serve verbose sd vs w
    | (false, w) => (false, { w with fds := w.fds.erase sd })

end Verif.SocketServ
