import Verif.Model.SocketSetup
/-!
# What a user and the kernel expect
-/
namespace Verif.SocketSetupSpec
open Verif.SocketSetup

/-- The connection of descriptor `fd` stands: at once, or, with a time limit, after waiting until the descriptor can be written,
without a pending error. -/
def Connected (msec : Int) (fd : Nat) (n : Net) : Prop :=
  n.con = .ok ∨ msec ≠ 0 ∧ n.con = .inProgress ∧ fd < 1024 ∧ (∃ k, n.select = .ok k ∧ 0 < k) ∧ n.soErr = some 0

/-- A kernel that keeps times with a precision of `tick` microseconds, rounding up, and refuses microseconds out of range
(socket(7), `sock_set_timeout`). -/
structure Timer (tick : Int) (k : Int × Int → Option (Int × Int)) : Prop where
  stores : ∀ s u, 0 ≤ s → 0 ≤ u → u < 1000000 → ∃ s' u', k (s, u) = some (s', u') ∧ 0 ≤ s' ∧ 0 ≤ u' ∧ u' < 1000000 ∧
    s * 1000000 + u ≤ s' * 1000000 + u' ∧ s' * 1000000 + u' < s * 1000000 + u + tick
  refuses : ∀ s u, u < 0 ∨ 1000000 ≤ u → k (s, u) = none

/-- A 32-bit number from four bytes, least first. -/
def le32 (l : List UInt8) : Nat :=
  (l[0]?.getD 0).toNat + 256 * (l[1]?.getD 0).toNat + 65536 * (l[2]?.getD 0).toNat + 16777216 * (l[3]?.getD 0).toNat

/-- How the kernel reads `struct linger`: two `int`. -/
def lingerOf (l : List UInt8) : Nat × Nat := (le32 (l.take 4), le32 ((l.drop 4).take 4))

end Verif.SocketSetupSpec
