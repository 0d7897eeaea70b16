import Verif.Model.Option

/-!
# Model of the typed values of `option.hpp`: setting them from texts and showing them

`num v` is what `os << v` prints for an integer of at least 16 bits (a parameter: the standard library does it).
-/
namespace Verif.OptShow
open Verif.Opt (IntTy convertInt)
open Verif.Config (Str)

/-- Whether the type is `int8_t` or `uint8_t`, that is, a character type for `operator<<`. -/
def isByte (ty : IntTy) : Bool := decide (ty.hi ≤ 255)

/-- `Holder<T>::toStr` for an integer type (option.hpp:205-210) with `convertToStr` (159-171): 8-bit types are shown as numbers. -/
def showInt (num : Int → Str) (v : Int) : Str := num v

/-- `os << *i` in `Holder<Container>::toStr` (option.hpp:243): `convertToStr` is not used here, so an 8-bit value is printed as a character. -/
def showElem (num : Int → Str) (ty : IntTy) (v : Int) : Str := if isByte ty then [UInt8.ofInt v] else num v

/-- The loop of `Holder<Container>::toStr` (option.hpp:236-244). -/
def joinLoop {α : Type} (f : α → Str) : (isFirst : Bool) → (os : Str) → List α → Str
  | _, os, [] => os
  | isFirst, os, x :: xs => joinLoop f false ((if isFirst then os else os ++ [32]) ++ f x) xs

/-- `Holder<std::vector<T>>::toStr` for an integer type (option.hpp:233-246). -/
def showInts (num : Int → Str) (ty : IntTy) (v : List Int) : Str := joinLoop (showElem num ty) true [] v

/-- `Holder<std::vector<std::string>>::toStr` (option.hpp:233-246). -/
def showStrs (v : List Str) : Str := joinLoop (fun s => s) true [] v

/-- The characters up to the NUL. -/
def cstr : List UInt8 → Res Str
  | [] => .ub
  | c :: mem => if c = 0 then .ok [] else do
    let s ← cstr mem
    pure (c :: s)

/-- `convert(std::string *x, str)` (option.hpp:114-119). -/
def setStr (mem : List UInt8) : Res (Bool × Str) := do
  let s ← cstr mem
  pure (true, s)

/-- `Holder<std::vector<T>>::set` for an integer type (option.hpp:226-232); `t` is what the uninitialised variable holds. -/
def setElem (ty : IntTy) (v : List Int) (t : Int) (mem : List UInt8) : Res (Bool × List Int) := do
  let (b, t) ← convertInt ty t mem
  if b then pure (b, v ++ [t]) else pure (b, v)

/-- Several arguments for one option with a vector. -/
def setElems (ty : IntTy) (v : List Int) : List (Int × List UInt8) → Res (List Bool × List Int)
  | [] => .ok ([], v)
  | (t, mem) :: l => do
    let (b, v) ← setElem ty v t mem
    let (bs, v) ← setElems ty v l
    pure (b :: bs, v)

/-- `OptionError::Type` (option.hpp:54-63). -/
inductive ErrType where
  | noError | badOpt | badValue | noValue | optNecessary | paramNecessary | redundant | badArgc
  deriving DecidableEq

/-- The texts of `OptionError::set` (option.hpp:76-100); `none`: nothing is appended. -/
def errText : ErrType → Option String
  | .noError => none
  | .badOpt => some "bad opt"
  | .badValue => some "bad value"
  | .noValue => some "no value"
  | .optNecessary => some "opt is necessary"
  | .paramNecessary => some "param is necessary"
  | .redundant => some "redundant argVal"
  | .badArgc => some "bad argc"

/-- `Var` (option.hpp:250-279): the variable its holder points to (`none`: `p_` is null) and `isSet_`. -/
structure VarRef where
  p : Option Nat
  isSet : Bool
  deriving DecidableEq

/-- `Var()` and `Var(T*)` (option.hpp:254, 256-257). -/
def VarRef.mk0 (p : Option Nat) : VarRef := ⟨p, false⟩

/-- `Var(const Var&)` (option.hpp:255): a virtual call through `rhs.p_`. -/
def VarRef.copy (rhs : VarRef) : Res VarRef :=
  match rhs.p with
  | none => .ub
  | some a => .ok ⟨some a, false⟩

/-- `Var::operator=` (option.hpp:266-270); the old value of the left side is dropped. -/
def VarRef.assign (rhs : VarRef) : Res VarRef := rhs.copy

/-- `Var::set` (option.hpp:271-275) as far as the flag is concerned. -/
def VarRef.markSet (v : VarRef) : VarRef := { v with isSet := true }

/-- Copying the elements of a `std::vector<Info>` one by one (`Info` has no move constructor: option.hpp:255 suppresses it for `Var`). -/
def copyAll : List VarRef → Res (List VarRef)
  | [] => .ok []
  | v :: vs => do
    let w ← v.copy
    let ws ← copyAll vs
    pure (w :: ws)

/-- `infoVec_.push_back(Info(pvar, …))` (option.hpp:362) on a vector with capacity `cap`; `grow` gives the new capacity. -/
def pushBack (grow : Nat → Nat) (cap : Nat) (vs : List VarRef) (a : Nat) : Res (Nat × List VarRef) := do
  let w ← (VarRef.mk0 (some a)).copy
  if vs.length < cap then pure (cap, vs ++ [w])
  else do
    let ws ← copyAll vs
    pure (grow cap, ws ++ [w])

/-- The implicit copy constructor of `Option` (members `infoVec_`, `paramVec_`, `remains_`: option.hpp:338-340); the other members are left out. -/
def copyOption (info param : List VarRef) (remains : VarRef) : Res (List VarRef × List VarRef × VarRef) := do
  let i ← copyAll info
  let p ← copyAll param
  let r ← remains.copy
  pure (i, p, r)

end Verif.OptShow
