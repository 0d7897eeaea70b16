import Verif.Spec.Option
import Verif.Model.ZlibSmpl

/-! What zlib promises about `compress2` and `uncompress`, and which command lines are right.  `Enc x z`: `z` is a complete
compressed stream of `x`. -/
namespace Verif.Spec.ZlibSmpl
open Verif.ZlibSmpl
open Verif.Spec.Opt (OptText)

/-- The promises of zlib.h. -/
structure Codec (z : Zip) (Enc : Bytes → Bytes → Prop) : Prop where
  compress : ∀ x n out, z.compress2 x n = .ok out → Enc x out ∧ out.length ≤ n
  uncompress : ∀ x s tail n, Enc x s → x.length ≤ n → z.uncompress (s ++ tail) n = .ok x
  small : ∀ x s tail n, Enc x s → n < x.length → ∀ out, z.uncompress (s ++ tail) n ≠ .ok out
  corrupt : ∀ s n out, z.uncompress s n = .ok out → ∃ a tail, s = a ++ tail ∧ Enc out a

/-- The arguments name an input and an output file; `d` tells whether `-d` is among them. -/
structure Names (args : List Bytes) (d : Bool) (i o : Bytes) : Prop where
  opts : ∀ a ∈ args, a = [45, 100] ∨ ¬ OptText a
  files : args.filter (fun a => decide (a ≠ [45, 100])) = [i, o]
  flag : d = decide ([45, 100] ∈ args)

end Verif.Spec.ZlibSmpl
