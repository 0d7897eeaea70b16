import Verif.Model.Common
/-!
# Model of the socket address (include/cybozu/socket.hpp:208-333)

The union `addr_` is 28 bytes (`sizeof(sockaddr_in6)` on Linux): family (2, in the order of the machine, not modelled), port (2),
then for IPv4 the address (4), for IPv6 flow information (4), the address (16) and the scope (4).  `getaddrinfo` and `inet_ntop` are parameters.
-/
namespace Verif.SocketAddr

/-- `AF_INET`. -/
def afInet : Nat := 2

/-- `AF_INET6`. -/
def afInet6 : Nat := 10

/-- The members (socket.hpp:209-216); `sa` is `addr_.sa.sa_family`. -/
structure Addr where
  raw : List UInt8
  sa : Nat
  addrlen : Nat
  family : Nat

/-- The bytes `[off, off + n)`. -/
def slice (l : List UInt8) (off n : Nat) : List UInt8 := (l.drop off).take n

/-- `addr_.v4.sin_addr`. -/
def Addr.v4 (a : Addr) : List UInt8 := slice a.raw 4 4

/-- `addr_.v6.sin6_addr`. -/
def Addr.v6 (a : Addr) : List UInt8 := slice a.raw 8 16

/-- The header of an IPv4 address mapped to IPv6 (socket.hpp:315). -/
def header : List UInt8 := [0, 0, 0, 0, 0, 0, 0, 0, 0, 0, 0xff, 0xff]

/-- The end of `hasSameAddr` (socket.hpp:314-316). -/
def mapped (v6 v4 : List UInt8) : Bool := (v6.take 12 == header) && (slice v6 12 4 == v4)

/-- `hasSameAddr` (socket.hpp:297-317). -/
def Addr.hasSameAddr (a b : Addr) : Bool :=
  if a.family = afInet then
    if b.family = afInet then a.v4 == b.v4
    else if b.family ≠ afInet6 then false
    else mapped b.v6 a.v4
  else if a.family ≠ afInet6 then false
  else
    if b.family = afInet6 then a.v6 == b.v6
    else if b.family ≠ afInet then false
    else mapped a.v6 b.v4

/-- `ntohs` on the two bytes of the port. -/
def ntohs (l : List UInt8) : Nat := (l[0]?.getD 0).toNat * 256 + (l[1]?.getD 0).toNat

/-- `getPort` (socket.hpp:288-295). -/
def Addr.getPort (a : Addr) : Res Nat :=
  if a.family = afInet then .ok (ntohs (slice a.raw 2 2))
  else if a.family = afInet6 then .ok (ntohs (slice a.raw 2 2))
  else .throw

/-- `verify` (socket.hpp:218-229). -/
def Addr.verify (a : Addr) : Res Addr :=
  if a.addrlen = 16 ∧ a.sa = afInet then .ok { a with family := afInet }
  else if a.addrlen = 28 ∧ a.sa = afInet6 then .ok { a with family := afInet6 }
  else .throw

/-- An entry of the list of `getaddrinfo`. -/
structure Info where
  family : Nat
  addr : List UInt8

/-- `getaddrinfo` with `hints.ai_family`: the list or failure. -/
abbrev Resolver := Nat → Option (List Info)

/-- What `set` leaves behind: the object, whether it returned, the lists got and freed, by the family asked for. -/
structure SetResult where
  addr : Addr
  returned : Bool
  got : List Nat
  freed : List Nat

/-- An object after `memset` (socket.hpp:244-246). -/
def Addr.empty : Addr := ⟨List.replicate 28 0, 0, 0, 0⟩

/-- The loop of `set` (socket.hpp:266-278). -/
def pick (family : Nat) : List Info → Option Info
  | [] => none
  | p :: l =>
    if p.family = family then
      if p.addr.length > 28 then none else some p
    else pick family l

/-- `memcpy` and the two assignments (socket.hpp:272-274). -/
def Addr.assign (p : Info) : Addr := ⟨p.addr ++ List.replicate (28 - p.addr.length) 0, p.family, p.addr.length, p.family⟩

/-- The end of `set` (socket.hpp:264-283), with the lists got. -/
def finish (family : Nat) (l : List Info) (got : List Nat) : SetResult :=
  match pick family l with
  | some p => ⟨Addr.assign p, true, got, [family]⟩
  | none => ⟨Addr.empty, false, got, [family]⟩

/-- `set` (socket.hpp:240-284). -/
def resolve (r : Resolver) (forceIpV6 : Bool) : SetResult :=
  match r afInet with
  | some l =>
    if forceIpV6 then
      match r afInet6 with
      | some l6 => finish afInet6 l6 [afInet, afInet6]
      | none => ⟨Addr.empty, false, [afInet], []⟩
    else finish afInet l [afInet]
  | none =>
    match r afInet6 with
    | some l6 => finish afInet6 l6 [afInet6]
    | none => ⟨Addr.empty, false, [], []⟩

/-- `toStr` (socket.hpp:318-332); `ntop` is `inet_ntop`, `none` its failure. -/
def Addr.toStr (ntop : Nat → List UInt8 → Option String) (itoa : Nat → String) (a : Addr) : Res String :=
  if a.family = afInet ∨ a.family = afInet6 then
    match ntop a.family (if a.family = afInet then a.v4 else a.v6) with
    | none => .throw
    | some p => do
      let port ← a.getPort
      if a.family = afInet then return p ++ ":" ++ itoa port
      else return "[" ++ p ++ "]:" ++ itoa port
  else .throw

end Verif.SocketAddr
