/-!
# What waiting for a socket means

The times are milliseconds from the call; `none` is never.
-/
namespace Verif.Spec.Epoll

/-- The event happens not later than `t`. -/
def By (e : Option Nat) (t : Nat) : Prop := ∃ x, e = some x ∧ x ≤ t

/-- The event happens before `t`. -/
def Before (e : Option Nat) (t : Nat) : Prop := ∃ x, e = some x ∧ x < t

/-- Waiting at most `limit` for `ready` may be interrupted by `signal`: `1` if the socket is ready in time, `0` at the end of the time,
`-4` (EINTR) at the signal; with the time it took. -/
inductive Waits (ready signal : Option Nat) (limit : Nat) : Int → Nat → Prop
  | ready (t : Nat) (h : ready = some t) (hl : t ≤ limit) (hs : ¬ Before signal t) : Waits ready signal limit 1 t
  | timeout (h : ¬ By ready limit) (hs : ¬ Before signal limit) : Waits ready signal limit 0 limit
  | signal (t : Nat) (h : signal = some t) (hl : t < limit) (hr : ¬ By ready t) : Waits ready signal limit (-4) t

end Verif.Spec.Epoll
