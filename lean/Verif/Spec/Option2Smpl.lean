import Verif.Spec.Option
import Verif.Model.Option2Smpl

/-! Command lines of the form `[-x value]... command [-o value]...`. -/
namespace Verif.Spec.Option2Smpl
open Verif.Spec.Opt (feed)
open Verif.Option2Smpl (Kind Conv Str)

/-- `-name v` for each value. -/
def pairs (name : Str) (vs : List Str) : List Str := vs.flatMap fun v => [45 :: name, v]

/-- The three commands: the word, the type of its option, the name of its option. -/
inductive Command : Str → Kind → Str → Prop
  | init : Command "init".toUTF8.toList .str "s".toUTF8.toList
  | run : Command "run".toUTF8.toList .dbl "d".toUTF8.toList
  | status : Command "status".toUTF8.toList .chr "c".toUTF8.toList

/-- The values `vs` are all accepted and leave `st`. -/
def Takes {α : Type} (c : Conv α) (k : Kind) (vs : List Str) (st : α) : Prop := feed (c.step k) (c.dflt k) vs = some st

/-- The arguments are right: they set `x`, name the command of `k` and set its variable to `y`. -/
def Right {α : Type} (c : Conv α) (args : List Str) (k : Kind) (x y : α) : Prop :=
  ∃ xs cmd name ys, args = pairs "x".toUTF8.toList xs ++ cmd :: pairs name ys ∧ Command cmd k name ∧ Takes c .int xs x ∧ Takes c k ys y

end Verif.Spec.Option2Smpl
