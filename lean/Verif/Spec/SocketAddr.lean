import Verif.Model.SocketAddr
/-!
# What host an address stands for
-/
namespace Verif.SocketAddrSpec
open Verif.SocketAddr

/-- The host of an address as 16 bytes; an IPv4 address is `::ffff:a.b.c.d` (RFC 4291, 2.5.5.2). -/
inductive Host : Addr → List UInt8 → Prop where
  | v4 {raw : List UInt8} {sa len : Nat} (pre x post : List UInt8) (hp : pre.length = 4) (hx : x.length = 4)
      (h : raw = pre ++ x ++ post) : Host ⟨raw, sa, len, 2⟩ ([0, 0, 0, 0, 0, 0, 0, 0, 0, 0, 255, 255] ++ x)
  | v6 {raw : List UInt8} {sa len : Nat} (pre x post : List UInt8) (hp : pre.length = 8) (hx : x.length = 16)
      (h : raw = pre ++ x ++ post) : Host ⟨raw, sa, len, 10⟩ x

/-- `a` is the address a resolver gives: the first one of the wanted family, asked for IPv4 unless that fails or IPv6 is wanted. -/
def Resolved (r : Resolver) (force : Bool) (a : Addr) : Prop :=
  ∃ (f : Nat) (before : List Info) (p : Info) (after : List Info),
    f = (if force = true ∨ r 2 = none then 10 else 2) ∧ r f = some (before ++ p :: after) ∧ p.family = f ∧
    (∀ q ∈ before, q.family ≠ f) ∧
    a.family = f ∧ a.addrlen = p.addr.length ∧ a.raw.take p.addr.length = p.addr ∧ a.raw.length = 28

end Verif.SocketAddrSpec
