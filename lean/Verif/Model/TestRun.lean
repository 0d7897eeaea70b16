import Verif.Model.Common
/-!
# Model of the unit test framework (include/cybozu/test.hpp)

A test function is a C++ function of the user.  `Prog` is such a function as a tree of what the
framework can see of it: the checks it makes, the lines the macros write, the state of the
program it reads and writes, and how it ends.  Every terminating function is such a tree.

Not modelled: the texts of the printed lines (a line is a constructor with its variable parts),
`__FILE__`, `__LINE__`, and test functions that register further tests while `run` works.
-/
namespace Verif.TestRun

/-- A thrown object: `isStd` if its class is derived from `std::exception`, `what` is the text
then (and the text of the `what()` of the class the macro names), `isA` tells which classes a
handler may name to catch it. -/
structure Exc where
  isStd : Bool
  what : List Char
  isA : List Nat
  deriving DecidableEq, Repr

/-- The lines written to stdout; the fixed text is left out. -/
inductive Line where
  /-- test.hpp:70 -/
  | module (name : String)
  /-- test.hpp:75 -/
  | stopped (name : String) (what : List Char)
  /-- test.hpp:78 -/
  | stoppedUnknown (name : String)
  /-- test.hpp:83,85,99; `none` for the unknown exception -/
  | err (what : Option (List Char))
  /-- test.hpp:91-96 -/
  | summary (base : List Char) (modules total ok ng exc : Nat)
  /-- test.hpp:123: a failed check of the named macro -/
  | failed (macro_ : String)
  /-- the lines `lhs=`, `rhs=`, `i=` -/
  | value (label : String) (v : Int)
  /-- test.hpp:276,300 -/
  | noException
  /-- test.hpp:278 -/
  | badMessage (what : List Char)
  /-- test.hpp:280,302 -/
  | unexpected
  deriving DecidableEq, Repr

/-- A C++ function seen from the framework. `W` is the state of the user's program. -/
inductive Prog (W : Type) (α : Type) where
  | ret (a : α)
  | thr (e : Exc)
  /-- a call of `autoRun.set` (test.hpp:44-51) -/
  | set (isOK : Bool) (k : Prog W α)
  | print (l : Line) (k : Prog W α)
  | get (k : W → Prog W α)
  | put (w : W) (k : Prog W α)

namespace Prog

/-- `p` and then `f` if `p` ends, `h` if it throws: `try { p } catch (...) { h }`; the handler
itself is not in the scope of the `try`. -/
def tryCatch {W α β : Type} (p : Prog W α) (f : α → Prog W β) (h : Exc → Prog W β) : Prog W β :=
  match p with
  | .ret a => f a
  | .thr e => h e
  | .set b k => .set b (tryCatch k f h)
  | .print l k => .print l (tryCatch k f h)
  | .get k => .get fun w => tryCatch (k w) f h
  | .put w k => .put w (tryCatch k f h)

/-- Sequencing: an exception goes through. -/
def bind {W α β : Type} (p : Prog W α) (f : α → Prog W β) : Prog W β := tryCatch p f .thr

instance {W : Type} : Monad (Prog W) where
  pure := .ret
  bind := bind

end Prog

open Prog

/-- `cybozu::test::test` (test.hpp:119-125). -/
def test {W : Type} (ret : Bool) (macro_ : String) : Prog W Unit :=
  .set ret (if ret then .ret () else .print (.failed macro_) (.ret ()))

/-- `CYBOZU_TEST_ASSERT` (test.hpp:194). The argument is an expression, it may have effects. -/
def testAssert {W : Type} (x : Prog W Bool) : Prog W Unit := do
  let b ← x
  test b "CYBOZU_TEST_ASSERT"

/-- `CYBOZU_TEST_EQUAL` (test.hpp:201-208), `eq` is `isEqual`; both expressions are evaluated
again to print them. -/
def testEqual {W : Type} (eq : Int → Int → Bool) (x y : Prog W Int) : Prog W Unit := do
  let a ← x
  let b ← y
  test (eq a b) "CYBOZU_TEST_EQUAL"
  if eq a b then pure () else do
    let a' ← x
    .print (.value "lhs" a') (pure ())
    let b' ← y
    .print (.value "rhs" b') (pure ())

/-- The loop of `CYBOZU_TEST_EQUAL_ARRAY` (test.hpp:237-247) from index `i` with `n` more steps.
The elements are read through `x`, `y`. -/
def testArrayGo {W : Type} (eq : Int → Int → Bool) (x y : Nat → Prog W Int) :
    Nat → Nat → Prog W Unit
  | 0, _ => pure ()
  | n + 1, i => do
    let a ← x i
    let b ← y i
    test (eq a b) "CYBOZU_TEST_EQUAL_ARRAY"
    (if eq a b then pure () else do
      .print (.value "i" i) (pure ())
      let a' ← x i
      .print (.value "lhs" a') (pure ())
      let b' ← y i
      .print (.value "rhs" b') (pure ()))
    testArrayGo eq x y n (i + 1)

/-- `CYBOZU_TEST_EQUAL_ARRAY` (test.hpp:237-247). -/
def testArray {W : Type} (eq : Int → Int → Bool) (x y : Nat → Prog W Int) (n : Nat) :
    Prog W Unit := testArrayGo eq x y n 0

/-- `CYBOZU_TEST_FAIL` (test.hpp:253). -/
def testFail {W : Type} : Prog W Unit := test false "CYBOZU_TEST_FAIL"

/-- `s.find(t) != npos`. -/
def contains (t : List Char) : List Char → Bool
  | [] => t.isPrefixOf []
  | c :: s => t.isPrefixOf (c :: s) || contains t s

/-- `CYBOZU_TEST_EXCEPTION_MESSAGE` (test.hpp:258-285): `cls` is the class in the handler. The
number `_cybozu_ret` with the caught text is the value of the first part. -/
def testExceptionMessage {W : Type} (stmt : Prog W Unit) (cls : Nat) (msg : List Char) :
    Prog W Unit := do
  let (r, what) ← tryCatch stmt (fun _ => .ret (1, [])) fun e =>
    if cls ∈ e.isA then .ret (if contains msg e.what then 0 else 2, e.what) else .ret (3, [])
  if r ≠ 0 then do
    test false "CYBOZU_TEST_EXCEPTION_MESSAGE"
    if r = 1 then .print .noException (pure ())
    else if r = 2 then .print (.badMessage what) (pure ())
    else .print .unexpected (pure ())
  else .set true (pure ())

/-- `CYBOZU_TEST_EXCEPTION` (test.hpp:287-307). -/
def testException {W : Type} (stmt : Prog W Unit) (cls : Nat) : Prog W Unit := do
  let r ← tryCatch stmt (fun _ => .ret 1) fun e => if cls ∈ e.isA then .ret 0 else .ret 2
  if r ≠ 0 then do
    test false "CYBOZU_TEST_EXCEPTION"
    if r = 1 then .print .noException (pure ()) else .print .unexpected (pure ())
  else .set true (pure ())

/-- `CYBOZU_TEST_NO_EXCEPTION` (test.hpp:312-318); `set(true)` stands inside the `try`. -/
def testNoException {W : Type} (stmt : Prog W Unit) : Prog W Unit :=
  tryCatch (do stmt; .set true (pure ())) (fun _ => .ret ())
    fun _ => test false "CYBOZU_TEST_NO_EXCEPTION"

/-- The members of `AutoRun` that change, what has been printed, and the user's state
(test.hpp:109-114). -/
structure St (W : Type) where
  ok : Nat
  ng : Nat
  exc : Nat
  out : List Line
  w : W
  deriving DecidableEq

/-- How a call ends. -/
inductive End (α : Type) where
  | ret (a : α)
  | thr (e : Exc)
  /-- overflow of an `int` -/
  | ub
  deriving DecidableEq, Repr

/-- `INT_MAX` -/
def intMax : Nat := 2147483647

/-- Run a function of the user; `set` is test.hpp:44-51 with the `int` counters. -/
def exec {W α : Type} : Prog W α → St W → End α × St W
  | .ret a, s => (.ret a, s)
  | .thr e, s => (.thr e, s)
  | .set b k, s =>
    if b then
      if s.ok = intMax then (.ub, s) else exec k { s with ok := s.ok + 1 }
    else
      if s.ng = intMax then (.ub, s) else exec k { s with ng := s.ng + 1 }
  | .print l k, s => exec k { s with out := s.out ++ [l] }
  | .get k, s => exec (k s.w) s
  | .put w k, s => exec k { s with w := w }

/-- A registered test: its name and function (test.hpp:25,40-43). -/
abbrev Entry (W : Type) := String × Prog W Unit

/-- One pass of the loop (test.hpp:70-79). `none`: overflow of a counter. -/
def runOne {W : Type} (t : Entry W) (s : St W) : Option (St W) :=
  let s := { s with out := s.out ++ [.module t.1] }
  match exec t.2 s with
  | (.ret _, s) => some s
  | (.ub, _) => none
  | (.thr e, s) =>
    if s.exc = intMax then none
    else
      some { s with
        exc := s.exc + 1
        out := s.out ++ [if e.isStd then .stopped t.1 e.what else .stoppedUnknown t.1] }

/-- The loop over the registered tests (test.hpp:69-80). -/
def runAll {W : Type} : List (Entry W) → St W → Option (St W)
  | [], s => some s
  | t :: l, s =>
    match runOne t s with
    | none => none
    | some s => runAll l s

/-- An optional function: `if (f) f();` (test.hpp:68,81). -/
def callOpt {W : Type} (f : Option (Prog W Unit)) (s : St W) : End Unit × St W :=
  match f with
  | none => (.ret (), s)
  | some p => exec p s

/-- The `try` block of `run` (test.hpp:67-86) with the caught exception. -/
def runBody {W : Type} (init term : Option (Prog W Unit)) (l : List (Entry W)) (s : St W) :
    Option (Option Exc × St W) :=
  match callOpt init s with
  | (.ub, _) => none
  | (.thr e, s) => some (some e, s)
  | (.ret _, s) =>
    match runAll l s with
    | none => none
    | some s =>
      match callOpt term s with
      | (.ub, _) => none
      | (.thr e, s) => some (some e, s)
      | (.ret _, s) => some (none, s)

/-- `std::string::find_last_of(c)`; `none` is `npos`. -/
def findLast (c : Char) (s : List Char) : Option Nat :=
  match s.reverse.findIdx? (· == c) with
  | none => none
  | some i => some (s.length - 1 - i)

/-- `std::string::find(c)`. -/
def find (c : Char) (s : List Char) : Option Nat := s.findIdx? (· == c)

/-- `AutoRun::getBaseName` (test.hpp:52-63), not Windows: `npos + 1` is zero. -/
def getBaseName (name : List Char) : List Char :=
  let ret :=
    match findLast '/' name with
    | none => name.drop 0
    | some pos => name.drop (pos + 1)
  match find '.' ret with
  | none => ret
  | some pos => ret.take pos

/-- `AutoRun::run` (test.hpp:64-102): the exit code and the final state; `none` is an overflow of
an `int`. `argv0` is `*argv`. -/
def run {W : Type} (init term : Option (Prog W Unit)) (l : List (Entry W)) (argv0 : List Char)
    (s : St W) : Option (Int × St W) :=
  match runBody init term l s with
  | none => none
  | some (some e, s) =>
    some (1, { s with out := s.out ++ [.err (if e.isStd then some e.what else none)] })
  | some (none, s) =>
    let err := s.ng + s.exc
    let total := s.ok + err
    if err > intMax ∨ total > intMax then none
    else
      some (if err > 0 then 1 else 0,
        { s with out :=
            s.out ++ [.summary (getBaseName argv0) l.length total s.ok s.ng s.exc] })

/-- The state after the constructor (test.hpp:27-34). -/
def St.start {W : Type} (w : W) : St W := ⟨0, 0, 0, [], w⟩

/-- `isEqual(size_t, int)` (test.hpp:134-137): the second operand is converted to `size_t`. -/
def isEqualSizeInt (lhs : BitVec 64) (rhs : BitVec 32) : Bool := lhs == rhs.signExtend 64

/-- `isEqual(float, float)` (test.hpp:159-168): the bit patterns are compared. -/
def isEqualFloat (lhs rhs : BitVec 32) : Bool := lhs == rhs

/-- `isEqual(double, double)` (test.hpp:170-179). -/
def isEqualDouble (lhs rhs : BitVec 64) : Bool := lhs == rhs

/-- `fabs((x) - (y)) < eps` of `CYBOZU_TEST_NEAR` (test.hpp:215) where `x` and `y` are
`unsigned int`: the difference is an `unsigned int`, then converted to `double` (exact). -/
def isNearU32 (x y : BitVec 32) (eps : Nat) : Bool := (x - y).toNat < eps

end Verif.TestRun
