import Verif.Model.Wavelet
import Verif.Model.Random
import Verif.Model.Bench

/-!
# Model of `sample/wm_bench_smpl.cpp`

The state of the rest of the world (the clock of `CYBOZU_BENCH`) is a parameter.  C++ does not fix which of the two `rg()` in the arguments
of a call is evaluated first: `ord` says it.  Left out: failing allocations.
-/
namespace Verif.WmBench
open Verif.Random (Xs)
open Verif.Bench (Env)

/-- What `bench_get`, `bench_rank`, `bench_rankLt` and `oneSelect` call of their `T` (wm_bench_smpl.cpp:50-83). -/
structure Impl where
  get : Nat → Res Nat
  rank : Nat → Nat → Res Nat
  rankLt : Nat → Nat → Res Nat
  select : Nat → Nat → Res Nat

/-- `cybozu::WaveletMatrix` as that `T` (wavelet_matrix.hpp:225-345). -/
def ofWm (wm : Wavelet.WM) : Impl := ⟨Wavelet.get wm, Wavelet.rank wm, Wavelet.rankLt wm, Wavelet.select true wm⟩

/-- `Naive::get` (wm_bench_smpl.cpp:17-20). -/
def nvGet (v : List UInt8) (pos : Nat) : Res Nat := do
  let x ← at? v pos
  return x.toNat

/-- `std::count` over `cnt` elements from `i` on (wm_bench_smpl.cpp:23). -/
def countLoop (v : List UInt8) (val : Nat) : (cnt i ret : Nat) → Res Nat
  | 0, _, ret => .ok ret
  | cnt + 1, i, ret => do
    let x ← at? v i
    countLoop v val cnt (i + 1) (if x.toNat = val then ret + 1 else ret)

/-- `Naive::rank` (wm_bench_smpl.cpp:21-24). -/
def nvRank (v : List UInt8) (val pos : Nat) : Res Nat := countLoop v val pos 0 0

/-- The loop of `Naive::rankLt` (wm_bench_smpl.cpp:28-30). -/
def ltLoop (v : List UInt8) (val : Nat) : (cnt i ret : Nat) → Res Nat
  | 0, _, ret => .ok ret
  | cnt + 1, i, ret => do
    let x ← at? v i
    ltLoop v val cnt (i + 1) (if x.toNat < val then ret + 1 else ret)

/-- `Naive::rankLt` (wm_bench_smpl.cpp:25-32). -/
def nvRankLt (v : List UInt8) (val pos : Nat) : Res Nat := ltLoop v val pos 0 0

/-- The loop of `Naive::select` (wm_bench_smpl.cpp:37-41); `n` is a `size_t`. -/
def selLoop (v : List UInt8) (val : Nat) : (cnt i n : Nat) → Res Nat
  | 0, _, _ => .ok SucVector.NotFound
  | cnt + 1, i, n => do
    let x ← at? v i
    let n := if x.toNat = val then (n + (2 ^ 64 - 1)) % 2 ^ 64 else n
    if n = 0 then .ok i else selLoop v val cnt (i + 1) n

/-- `Naive::select` (wm_bench_smpl.cpp:33-42). -/
def nvSelect (v : List UInt8) (val n : Nat) : Res Nat := selLoop v val v.length 0 ((n + 1) % 2 ^ 64)

/-- `Naive` as the `T`. -/
def ofNaive (v : List UInt8) : Impl := ⟨nvGet v, nvRank v, nvRankLt v, nvSelect v⟩

/-- What the measured calls change: the clock, `ret`, `rg`. -/
structure St (τ : Type) where
  t : τ
  ret : Nat
  rg : Xs

/-- The clock of the measurement inside this state. -/
def env {τ : Type} (e : Env τ) : Env (St τ) :=
  ⟨fun s => ((e.tick s.t).1, { s with t := (e.tick s.t).2 }), e.w⟩

/-- `add` (wm_bench_smpl.cpp:45-48). -/
def add {τ : Type} (s : St τ) (x : Nat) : St τ := { s with ret := (s.ret + x) % 2 ^ 64 }

/-- `add(ret, wm.get(rg() & (N - 1)))` (wm_bench_smpl.cpp:55). -/
def oneGet {τ : Type} (T : Impl) (N : Nat) (s : St τ) : Res (St τ) := do
  let r := s.rg.get32
  let x ← T.get (r.1.toNat &&& (N - 1))
  return add { s with rg := r.2 } x

/-- The two `rg()` of `(uint8_t(rg()), rg() & (N - 1))` (wm_bench_smpl.cpp:64, 73): value, position, generator. -/
def twoDraws (ord : Bool) (N : Nat) (g : Xs) : Nat × Nat × Xs :=
  let a := g.get32
  let b := a.2.get32
  if ord then (a.1.toNat % 256, b.1.toNat &&& (N - 1), b.2) else (b.1.toNat % 256, a.1.toNat &&& (N - 1), b.2)

/-- `add(ret, wm.rank(uint8_t(rg()), rg() & (N - 1)))` (wm_bench_smpl.cpp:64). -/
def oneRank {τ : Type} (T : Impl) (ord : Bool) (N : Nat) (s : St τ) : Res (St τ) := do
  let d := twoDraws ord N s.rg
  let x ← T.rank d.1 d.2.1
  return add { s with rg := d.2.2 } x

/-- `add(ret, wm.rankLt(uint8_t(rg()), rg() & (N - 1)))` (wm_bench_smpl.cpp:73). -/
def oneRankLt {τ : Type} (T : Impl) (ord : Bool) (N : Nat) (s : St τ) : Res (St τ) := do
  let d := twoDraws ord N s.rg
  let x ← T.rankLt d.1 d.2.1
  return add { s with rg := d.2.2 } x

/-- `rg() % maxTbl[c]`: the `int` becomes a `uint32_t`; a zero divisor is undefined (wm_bench_smpl.cpp:81). -/
def modInt (x : Nat) (m : Int) : Res Nat :=
  if (m % 2 ^ 32).toNat = 0 then .ub else .ok (x % (m % 2 ^ 32).toNat)

/-- `oneSelect` (wm_bench_smpl.cpp:77-83). -/
def oneSelect {τ : Type} (T : Impl) (maxTbl : List Int) (s : St τ) : Res (St τ) := do
  let a := s.rg.get32
  let b := a.2.get32
  let c := a.1.toNat % 256
  let m ← at? maxTbl c
  let pos ← modInt b.1.toNat m
  let x ← T.select c pos
  return add { s with rg := b.2 } x

/-- `(int)x + 1` (wm_bench_smpl.cpp:92): the cast wraps, the sum must not. -/
def intSucc (x : Nat) : Res Int :=
  let i := Int.bmod x (2 ^ 32)
  if i + 1 < 2 ^ 31 then .ok (i + 1) else .ub

/-- Lines 89-93: `maxTbl`, entries from `i` on. -/
def mkMaxTbl (size : Nat → Res Nat) : (cnt i : Nat) → Res (List Int)
  | 0, _ => .ok []
  | cnt + 1, i => do
    let n ← size i
    let m ← intSucc n
    let rest ← mkMaxTbl size cnt (i + 1)
    return m :: rest

/-- What is printed, one line or part of a line each. -/
inductive Ev where
  | text (s : String)
  /-- `" ret=%u\n"` with `(int)ret` -/
  | ret (n : Nat)
  /-- `"%09llx\n"` -/
  | hex (n : Nat)
  /-- the line that starts with `ERR` -/
  | err (c pos a b : Nat)
  deriving DecidableEq, Repr

/-- `printf(label); CYBOZU_BENCH("", ...); printf(" ret=%u\n", (int)ret)` (wm_bench_smpl.cpp:53-56, 62-65, 71-74, 88, 94-96): what is
printed, the clock and the generator.  With the empty message `CYBOZU_BENCH` prints nothing. -/
def measure {τ : Type} (e : Env τ) (cpuTimer cb : Bool) (label : String) (func : St τ → Res (St τ)) (t : τ) (g : Xs) :
    Res (List Ev × τ × Xs) := do
  let d ← Bench.bench (env e) cpuTimer cb [] func ⟨t, 0, g⟩
  return ([.text label, .ret (d.s.ret % 2 ^ 32)], d.s.t, d.s.rg)

/-- Lines 109-119: what is printed, and whether the program exits with status 1. -/
def check (nv wm : Nat → Nat → Res Nat) : List (Nat × Nat) → Res (List Ev × Bool)
  | [] => .ok ([.text "select ok\n"], false)
  | (c, pos) :: rest => do
    let a ← nv c pos
    let b ← wm c pos
    if a ≠ b then .ok ([.err c pos a b], true) else check nv wm rest

/-- `tbl` of lines 102-108. -/
def tbl : List (Nat × Nat) := [(58, 1024), (35, 1026)]

/-- `bench_select` (wm_bench_smpl.cpp:85-120). -/
def benchSelect {τ : Type} (e : Env τ) (cpuTimer cb : Bool) (T : Impl) (size : Nat → Res Nat) (v : List UInt8) (t : τ) (g : Xs) :
    Res (List Ev × Bool) := do
  let maxTbl ← mkMaxTbl size 256 0
  let m ← measure e cpuTimer cb "select" (oneSelect T maxTbl) t g
  let c ← check (nvSelect v) T.select tbl
  return (m.1 ++ c.1, c.2)

/-- `bench` (wm_bench_smpl.cpp:122-137); the third label is `"rank  "` too. -/
def bench {τ : Type} (e : Env τ) (cpuTimer cb ord : Bool) (T : Impl) (size : Nat → Res Nat) (v : List UInt8) (N : Nat) (t : τ) :
    Res (List Ev × Bool) := do
  let a ← measure e cpuTimer cb "get   " (oneGet T N) t (Xs.init 0 0 0 0)
  let b ← measure e cpuTimer cb "rank  " (oneRank T ord N) a.2.1 a.2.2
  let c ← measure e cpuTimer cb "rank  " (oneRankLt T ord N) b.2.1 b.2.2
  let d ← benchSelect e cpuTimer cb T size v c.2.1 c.2.2
  return (.text "wm\n" :: (a.1 ++ b.1 ++ c.1 ++ d.1), d.2)

/-- Lines 146-150: `cnt` bytes of the generator. -/
def fill : Nat → Xs → List UInt8
  | 0, _ => []
  | cnt + 1, g => UInt8.ofNat g.get32.1.toNat :: fill cnt g.get32.2

/-- Lines 158-160 of `run` for any vector: `wm.init`, `bench`. -/
def runOn {τ : Type} (e : Env τ) (cpuTimer cb ord : Bool) (v : List UInt8) (N : Nat) (t : τ) : Res (List Ev × Bool) := do
  let wm ← Wavelet.init true Wavelet.empty (v.map (·.toNat)) 8
  let r ← bench e cpuTimer cb ord (ofWm wm) (Wavelet.sizeVal wm) v N t
  return (.text "start\n" :: r.1, r.2)

/-- `run` (wm_bench_smpl.cpp:139-161). -/
def run {τ : Type} (e : Env τ) (cpuTimer cb ord : Bool) (bitLen : Nat) (t : τ) : Res (List Ev × Bool) :=
  if 64 ≤ bitLen then .ub
  else do
    let N := 2 ^ bitLen
    let r ← runOn e cpuTimer cb ord (fill N (Xs.init 0 0 0 0)) N t
    return (.hex N :: .text "init\n" :: r.1, r.2)

/-- The characters the C library's `isspace` skips. -/
def isSpace (c : UInt8) : Bool := c = 32 || (9 ≤ c && c ≤ 13)

/-- The value of leading digits. -/
def digits : List UInt8 → Nat → Nat
  | [], n => n
  | c :: s, n => if 48 ≤ c && c ≤ 57 then digits s (10 * n + (c.toNat - 48)) else n

/-- `atoi` of the C library (wm_bench_smpl.cpp:171): a value that is no `int` is undefined. -/
def cAtoi (s : List UInt8) : Res Int :=
  let s := s.dropWhile isSpace
  let i : Int := match s with
    | 45 :: r => -(digits r 0 : Int)
    | 43 :: r => digits r 0
    | r => digits r 0
  if -2 ^ 31 ≤ i ∧ i < 2 ^ 31 then .ok i else .ub

/-- The loop of lines 168-178; `none` is the usage line and `return 1`.  The `int` becomes a `size_t`. -/
def args : List (List UInt8) → Nat → Res (Option Nat)
  | [], bitLen => .ok (some bitLen)
  | [_], _ => .ok none
  | a :: b :: rest, _ =>
    if a = [45, 98] then do
      let i ← cAtoi b
      args rest (i % 2 ^ 64).toNat
    else .ok none

/-- `main` (wm_bench_smpl.cpp:163-182): what is printed and the exit status.  An exception is reported; its text is not modelled, nor
what was printed before it. -/
def main {τ : Type} (e : Env τ) (cpuTimer cb ord : Bool) (argv : List (List UInt8)) (t : τ) : Res (List Ev × Nat) := do
  let o ← args argv 26
  match o with
  | none => return ([.text "usage wm_bench_smpl.exe [-b bitLen]\n"], 1)
  | some bitLen =>
    match run e cpuTimer cb ord bitLen t with
    | .ok r => return (r.1, if r.2 then 1 else 0)
    | .throw => return ([.text "err\n"], 0)
    | .ub => .ub

end Verif.WmBench
