import Verif.Model.Random
import Mathlib.Data.Real.Basic

/-!
# Model of `include/cybozu/nlp/random.hpp`

A `double` is modelled by a real number: the operations are exact here.  (`z` of `getDouble` is a
multiple of `2^-53` below 1 and so exact in the code too; the last product and sum of `getDouble` are
rounded in the code.)
-/
namespace Verif.NlpRandom

open Verif.Random

/-- `a_, b_, rg` (random.hpp:17-19). -/
structure Uniform where
  a : ℝ
  b : ℝ
  rg : Xs

/-- The constructor (random.hpp:22-27); the `int seed` is converted to `uint32_t`. -/
noncomputable def Uniform.make (a b : ℝ) (seed : BitVec 32) : Uniform := ⟨a, b, Xs.init seed 0 0 0⟩

/-- `init` (random.hpp:28-31). -/
noncomputable def Uniform.init (g : Uniform) (seed : BitVec 32) : Uniform :=
  { g with rg := Xs.init seed 0 0 0 }

/-- The integer `x * 2^26 + y` of random.hpp:39-41 and the new state of the generator. -/
def bits53 (s : Xs) : Nat × Xs :=
  let (x, s) := s.get32
  let (y, s) := s.get32
  ((x >>> 5).toNat * 2 ^ 26 + (y >>> 6).toNat, s)

/-- `getDouble` (random.hpp:37-43). -/
noncomputable def Uniform.getDouble (g : Uniform) : ℝ × Uniform :=
  let (n, rg) := bits53 g.rg
  let z : ℝ := (n : ℝ) * (1 / 2 ^ 53)
  ((g.b - g.a) * z + g.a, { g with rg := rg })

/-- `gen_, u_, s_` (random.hpp:50-52). -/
structure Normal where
  gen : Uniform
  u : ℝ
  s : ℝ

/-- The constructor (random.hpp:54-59): `gen_(seed)` is `UniformRandomGenerator(double a = seed)`. -/
noncomputable def Normal.make (u s : ℝ) (seed : BitVec 32) : Normal :=
  ⟨Uniform.make (seed.toInt : ℝ) 1 0, u, s⟩

/-- `init` (random.hpp:60-63). -/
noncomputable def Normal.init (g : Normal) (seed : BitVec 32) : Normal := { g with gen := g.gen.init seed }

/-- The loop of `get` (random.hpp:67-69); `n` rounds left. -/
noncomputable def sumLoop : Nat → Uniform → ℝ → ℝ × Uniform
  | 0, g, sum => (sum, g)
  | n + 1, g, sum =>
    let (d, g) := g.getDouble
    sumLoop n g (sum + d)

/-- `get` (random.hpp:64-71). -/
noncomputable def Normal.get (g : Normal) : ℝ × Normal :=
  let (sum, gen) := sumLoop 12 g.gen (-6)
  (sum * g.s + g.u, { g with gen := gen })

end Verif.NlpRandom
