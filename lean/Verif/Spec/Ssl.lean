import Verif.Model.Ssl
/-!
# The order in which OpenSSL and the system accept calls
-/
namespace Verif.SslSpec
open Verif.Ssl

/-- One call: the open socket and whether the `SSL` object exists, before and after.  The object may be used only while it
exists and with an open socket, it is freed after the socket was closed. -/
inductive Accepts : Option Nat × Bool → Ev → Option Nat × Bool → Prop where
  | new {o} : Accepts (o, false) .new (o, true)
  | socket {b} (fd : Nat) : Accepts (none, b) (.socket fd) (some fd, b)
  | setFd (fd : Nat) : Accepts (some fd, true) (.setFd fd) (some fd, true)
  | handshake (fd : Nat) : Accepts (some fd, true) .handshake (some fd, true)
  | shutdown (fd : Nat) : Accepts (some fd, true) .shutdown (some fd, true)
  | closeSocket {b} (fd : Nat) : Accepts (some fd, b) (.closeSocket fd) (none, b)
  | free : Accepts (none, true) .free (none, false)

/-- A sequence of calls. -/
inductive AcceptsAll : Option Nat × Bool → List Ev → Option Nat × Bool → Prop where
  | nil (s) : AcceptsAll s [] s
  | cons {s s1 s2 e l} (h : Accepts s e s1) (t : AcceptsAll s1 l s2) : AcceptsAll s (e :: l) s2

end Verif.SslSpec
