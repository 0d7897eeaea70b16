import Verif.Model.Zlib

/-!
What zlib promises about `deflate` and `inflate` (zlib.h), as far as the code relies on it.  `Enc x z`: `z` is a complete
compressed stream of `x`.
-/
namespace Verif.Spec.Zlib
open Verif.Zlib

/-- Where a compressor stands: taking input, finishing, finished. -/
inductive Phase where
  | filling | finishing | ended
  deriving DecidableEq

/-- The promises about `deflate`: there is a notion "state `s` has taken `x` and given `y`" such that each call makes
progress, the output of finite input is finite (`deflateBound`), and the whole output at `Z_STREAM_END` is a compressed
stream of the whole input. -/
structure Deflates (D : Deflater) (Enc : List UInt8 → List UInt8 → Prop) where
  Inv : D.σ → (x y : List UInt8) → Phase → Prop
  bound : Nat → Nat
  init : Inv D.init [] [] .filling
  bounded : ∀ {s x y p}, Inv s x y p → y.length ≤ bound x.length
  feed : ∀ {s x y} (i : List UInt8) (room : Nat), Inv s x y .filling → i ≠ [] → 0 < room →
    (D.deflate s i room false).ret = .ok ∧ (D.deflate s i room false).used ≤ i.length ∧
    (0 < (D.deflate s i room false).used ∨ (D.deflate s i room false).out ≠ []) ∧
    Inv (D.deflate s i room false).st (x ++ i.take (D.deflate s i room false).used) (y ++ (D.deflate s i room false).out) .filling
  finish : ∀ {s x y p} (room : Nat), Inv s x y p → p ≠ .ended → 0 < room →
    ((D.deflate s [] room true).ret = .ok ∧ (D.deflate s [] room true).out ≠ [] ∧
      Inv (D.deflate s [] room true).st x (y ++ (D.deflate s [] room true).out) .finishing) ∨
    ((D.deflate s [] room true).ret = .streamEnd ∧
      Inv (D.deflate s [] room true).st x (y ++ (D.deflate s [] room true).out) .ended)
  ended : ∀ {s x y}, Inv s x y .ended → Enc x y
  late : ∀ {s x y} (i : List UInt8) (room : Nat), Inv s x y .ended → i ≠ [] → (D.deflate s i room false).ret = .error
  crc_append : ∀ c a b, D.crc32 (D.crc32 c a) b = D.crc32 c (a ++ b)

/-- The promises about `inflate`, fed with a text that agrees with the stream `z` of `x`: "state `s` has taken `c` and
given `o`; finished or not".  It makes progress while there is input, or while all of `z` was taken; without progress it
reports an error. -/
structure Inflates (I : Inflater) (Enc : List UInt8 → List UInt8 → Prop) where
  Inv : (z x : List UInt8) → I.σ → (c o : List UInt8) → Bool → Prop
  init : ∀ {z x}, Enc x z → Inv z x I.init [] [] false
  prefixes : ∀ {z x s c o b}, Inv z x s c o b → c <+: z ∧ o <+: x
  step : ∀ {z x s c o} (i : List UInt8) (room : Nat), Inv z x s c o false → c ++ i <+: z ∨ z <+: c ++ i → 0 < room →
    (I.inflate s i room).used ≤ i.length ∧ (I.inflate s i room).out.length ≤ room ∧
    ((I.inflate s i room).ret = .ok ∧ (0 < (I.inflate s i room).used ∨ (I.inflate s i room).out ≠ []) ∧
        Inv z x (I.inflate s i room).st (c ++ i.take (I.inflate s i room).used) (o ++ (I.inflate s i room).out) false ∨
      (I.inflate s i room).ret = .streamEnd ∧
        Inv z x (I.inflate s i room).st (c ++ i.take (I.inflate s i room).used) (o ++ (I.inflate s i room).out) true ∨
      (I.inflate s i room).ret = .error ∧ i = [] ∧ c ≠ z)
  ended : ∀ {z x s c o}, Inv z x s c o true → c = z ∧ o = x
  again : ∀ {z x s c o} (i : List UInt8) (room : Nat), Inv z x s c o true →
    (I.inflate s i room).ret = .streamEnd ∧ (I.inflate s i room).out = [] ∧ Inv z x (I.inflate s i room).st c o true

end Verif.Spec.Zlib
