import Verif.Model.Common
import Mathlib.Data.Rat.Defs
import Mathlib.Algebra.Order.Ring.Rat
/-!
# Model of `include/cybozu/benchmark.hpp`

The rest of the program is a state `σ`; `tick` is a look at the time (not cut to any width; it may take time itself), `w` the width of
the register or variable that is read: 64, or 32 for `mrc`.  The rounding of `double` and of `printf` is not modelled.
-/
namespace Verif.Bench

/-- `CpuClock` (benchmark.hpp:150-151). -/
structure Clk where
  clock : BitVec 64
  count : Nat
  deriving DecidableEq, Repr

/-- The constructor and `clear` (benchmark.hpp:95-99, 111). -/
def Clk.zero : Clk := ⟨0, 0⟩

/-- The environment: how the clock is read. -/
structure Env (σ : Type) where
  tick : σ → Nat × σ
  w : Nat

/-- `getCpuClk` (benchmark.hpp:63-94): the low bits of the time as a `uint64_t`. -/
def getCpuClk {σ : Type} (e : Env σ) (s : σ) : BitVec 64 × σ :=
  let r := e.tick s
  (BitVec.ofNat 64 (r.1 % 2 ^ e.w), r.2)

/-- `begin` (benchmark.hpp:100-103). -/
def start {σ : Type} (e : Env σ) (c : Clk) (s : σ) : Clk × σ :=
  let r := getCpuClk e s
  (⟨c.clock - r.1, c.count⟩, r.2)

/-- `end` (benchmark.hpp:104-108): `count_` is an `int`. -/
def stop {σ : Type} (e : Env σ) (c : Clk) (s : σ) : Res (Clk × σ) :=
  let r := getCpuClk e s
  if c.count + 1 < 2 ^ 31 then .ok (⟨c.clock + r.1, c.count + 1⟩, r.2) else .ub

/-- The inner loop (benchmark.hpp:171, 190, 206). -/
def runs {σ : Type} (func : σ → Res σ) : Nat → σ → Res σ
  | 0, s => .ok s
  | n + 1, s => do
    let s ← func s
    runs func n s

/-- One measured stretch (benchmark.hpp:170-172, 189-191, 205-207). -/
def pass {σ : Type} (e : Env σ) (func : σ → Res σ) (n : Nat) (c : Clk) (s : σ) : Res (Clk × σ) :=
  let r := start e c s
  do
    let s ← runs func n r.2
    stop e r.1 s

/-- `loopN1` (benchmark.hpp:141, 145) with and without a timer of the processor. -/
def loopN1 (cpuTimer : Bool) : Nat := if cpuTimer then 1000 else 100

/-- `loopN2` (benchmark.hpp:142, 146). -/
def loopN2 : Nat := 100

/-- `maxClk` (benchmark.hpp:143, 147). -/
def maxClk : Nat := 100000000

/-- The outer loop of `CYBOZU_BENCH` and `CYBOZU_BENCH_T` with `k` passes to go (benchmark.hpp:169-174, 188-193). -/
def loop {σ : Type} (e : Env σ) (func : σ → Res σ) (n : Nat) : Nat → Clk → σ → Res (Clk × σ)
  | 0, c, s => .ok (c, s)
  | k + 1, c, s => do
    let r ← pass e func n c s
    if maxClk < r.1.clock.toNat then .ok r else loop e func n k r.1 r.2

/-- `getClock() / double(getCount()) / N` (benchmark.hpp:114, 194); `none` when a divisor is zero. -/
def average (c : Clk) (N : Nat) : Option Rat :=
  if c.count = 0 ∨ N = 0 then none else some ((c.clock.toNat : Rat) / c.count / N)

/-- The unit of the number that is printed (benchmark.hpp:120-136). -/
inductive Scale where
  /-- `clk` or `nsec` -/
  | one
  /-- `Kclk` or `usec` -/
  | kilo
  /-- `Mclk` or `msec` -/
  | mega
  deriving DecidableEq, Repr

/-- Which unit, and the number (benchmark.hpp:121-127, 129-135). -/
def shown (t : Rat) : Rat × Scale :=
  if t > 1000000 then (t * (1 / 1000000), .mega)
  else if t > 1000 then (t * (1 / 1000), .kilo)
  else (t, .one)

/-- What `put` does to the outside. -/
inductive Out where
  /-- `printf("%s ", msg)` -/
  | msg (m : List UInt8)
  /-- the call back with the average; `none` is not a number or infinite -/
  | call (t : Option Rat)
  /-- a number with its unit -/
  | num (x : Rat) (u : Scale)
  /-- `nan`, `inf` -/
  | nonNum
  | newline
  deriving DecidableEq, Repr

/-- The text that shows the average (benchmark.hpp:121-135). -/
def numOut : Option Rat → Out
  | none => .nonNum
  | some t => .num (shown t).1 (shown t).2

/-- `put` (benchmark.hpp:112-138): `msg` is `none` for a null pointer, `cb` says whether `g_putCallback` is set. -/
def put (cb : Bool) (msg : Option (List UInt8)) (N : Nat) (c : Clk) : List Out :=
  let m := msg.getD []
  let head := if m = [] then [] else [Out.msg m]
  if cb then head ++ [.call (average c N)]
  else head ++ [numOut (average c N)] ++ (if m = [] then [] else [.newline])

/-- What `CYBOZU_BENCH` leaves: `g_clk`, `g_loopNum`, what was printed, and the rest of the program. -/
structure Done (σ : Type) where
  clk : Clk
  loopNum : Nat
  out : List Out
  s : σ
  deriving DecidableEq, Repr

/-- `if (msg && *msg) put` (benchmark.hpp:175, 208). -/
def putIf (cb : Bool) (msg : List UInt8) (N : Nat) (c : Clk) : List Out :=
  if msg = [] then [] else put cb (some msg) N c

/-- `CYBOZU_BENCH` (benchmark.hpp:165-177). -/
def bench {σ : Type} (e : Env σ) (cpuTimer cb : Bool) (msg : List UInt8) (func : σ → Res σ) (s : σ) : Res (Done σ) := do
  let r ← loop e func (loopN1 cpuTimer) loopN2 .zero s
  .ok ⟨r.1, loopN1 cpuTimer, putIf cb msg (loopN1 cpuTimer) r.1, r.2⟩

/-- `CYBOZU_BENCH_T` (benchmark.hpp:184-195): the value for `clk`. -/
def benchT {σ : Type} (e : Env σ) (cpuTimer : Bool) (func : σ → Res σ) (s : σ) : Res (Option Rat × σ) := do
  let r ← loop e func (loopN1 cpuTimer) loopN2 .zero s
  .ok (average r.1 (loopN1 cpuTimer), r.2)

/-- `CYBOZU_BENCH_C` (benchmark.hpp:202-210) for a counter that is not negative. -/
def benchC {σ : Type} (e : Env σ) (cb : Bool) (msg : List UInt8) (N : Nat) (func : σ → Res σ) (s : σ) : Res (Done σ) := do
  let r ← pass e func N .zero s
  .ok ⟨r.1, N, putIf cb msg N r.1, r.2⟩

end Verif.Bench
