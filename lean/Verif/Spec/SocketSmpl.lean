import Verif.Spec.Option
import Verif.Model.SocketSetup

/-! # Specification: what the command line of the socket sample means -/
namespace Verif.Spec.SocketSmpl
open Verif.Spec.Opt

/-- The last value given, or the default; nothing if one of them is not a number of the range. -/
def lastNumber (signed : Bool) (lo hi dflt : Int) : List Str → Option Int
  | [] => some dflt
  | v :: vs =>
    match optValue signed lo hi v with
    | none => none
    | some x => lastNumber signed lo hi x vs

/-- The families a socket that listens takes connections of. -/
inductive Family where
  | v4 | v6 | both
  deriving DecidableEq, Repr

/-- The calls that make a socket listen at a port for connections of a family: the kind of socket, the reuse of the address, for an IPv6
socket the switch `IPV6_V6ONLY`, the address without host. -/
def listening (f : Family) (port : Nat) : List SocketSetup.Ev :=
  let num : List UInt8 := [UInt8.ofNat (port / 256), UInt8.ofNat (port % 256)]
  match f with
  | .v4 => [.socket 2, .option 1 2 1, .bind ([2, 0] ++ num ++ List.replicate 12 0), .listen]
  | .v6 => [.socket 10, .option 1 2 1, .option 41 26 1, .bind ([10, 0] ++ num ++ List.replicate 24 0), .listen]
  | .both => [.socket 10, .option 1 2 1, .option 41 26 0, .bind ([10, 0] ++ num ++ List.replicate 24 0), .listen]

/-- The help of the option `-m`: ": mode = 4(v4only), 6(v6only), 0(both)". -/
def documented : Int → Option Family
  | 0 => some .both
  | 4 => some .v4
  | 6 => some .v6
  | _ => none

/-- The options: `-ip`, `-m`, `-p` and `-t` have a value, `-v` has none. -/
def options (n : Str) : Option Verif.Opt.Mode :=
  if n = [105, 112] ∨ n = [109] ∨ n = [112] ∨ n = [116] then some .is1
  else if n = [118] then some .is0
  else none

/-- The arguments have these parts: options and at most one positional value.  There is no delimiter; `-` alone is the help option. -/
def Parts (args : List Str) (items : List Item) : Prop := Cmd options [] [] args items none ∧ (positionals items).length ≤ 1

/-- The numbers of the parts: `-m`, `-p` and `-t`. -/
def Numbers (items : List Item) (mode port sec : Int) : Prop :=
  lastNumber true (-2147483648) 2147483647 3 (valuesOf [109] items) = some mode ∧
  lastNumber false 0 65535 50000 (valuesOf [112] items) = some port ∧
  lastNumber true (-2147483648) 2147483647 5 (valuesOf [116] items) = some sec

/-- An `int` can hold the time limit in milliseconds. -/
def Fits (sec : Int) : Prop := -2147483648 ≤ sec * 1000 ∧ sec * 1000 ≤ 2147483647

end Verif.Spec.SocketSmpl
