import Verif.Model.Common

/-!
# Model of the static objects of `include/cybozu/ssl.hpp` from the start to the end of a program

`ctx_` (ssl.hpp:92-96) is a static member of a template: it is constructed before `main`, in no order with the other static objects.  `Engine` is a static
local variable (46-50), constructed by the first call of `getInstance`.  At the end static objects, local ones included, are destroyed in the
reverse order of the ends of their constructors.  Before its constructor has run the bytes of `ctx_` are 0, so `get()` is a null pointer and `SSL_new` gives null.
-/
namespace Verif.SslStatic

/-- What OpenSSL is told. -/
inductive Ev where
  /-- `SSL_library_init` (ssl.hpp:26-30) -/
  | init
  /-- `EVP_cleanup` and the others (ssl.hpp:31-45) -/
  | cleanup
  /-- `SSL_CTX_new`, `SSL_CTX_free` (ssl.hpp:67, 85-88) -/
  | ctxNew
  | ctxFree
  /-- `SSL_new`, `SSL_free` for the socket of object `k` (ssl.hpp:111-117, 191-198) -/
  | sslNew (k : Nat)
  | sslFree (k : Nat)
  deriving DecidableEq

/-- A static object. -/
inductive Obj where
  | engine
  | ctx
  /-- an object of the program with a `ClientSocket` as a member -/
  | client (k : Nat)
  /-- an object of the program that may own a `ClientSocket` made later, and destroys it in its destructor -/
  | holder (k : Nat)
  deriving DecidableEq

/-- The objects that are constructed, the last one first; which holders own a socket; what OpenSSL was told; whether the program was ended by an
exception of a constructor. -/
structure St where
  done : List Obj
  owns : List Nat
  ev : List Ev
  dead : Bool
  deriving DecidableEq

/-- `Engine::getInstance` (ssl.hpp:46-50). -/
def getInstance (s : St) : St := if .engine ∈ s.done then s else { s with done := .engine :: s.done, ev := s.ev ++ [.init] }

/-- The construction of a static object (ssl.hpp:64-84, 111-117); `engine` stands for an object of the program whose constructor calls `getInstance`. -/
def construct (s : St) (o : Obj) : St :=
  if s.dead then s
  else
    match o with
    | .engine => getInstance s
    | .ctx => let s := getInstance s; { s with done := .ctx :: s.done, ev := s.ev ++ [.ctxNew] }
    | .client k =>
      if .ctx ∈ s.done then { s with done := .client k :: s.done, ev := s.ev ++ [.sslNew k] }
      else { s with dead := true }
    | .holder k => { s with done := .holder k :: s.done }

/-- What `main` does with the sockets of holders. -/
inductive Act where
  | make (k : Nat)
  | drop (k : Nat)
  deriving DecidableEq

/-- `main`: a holder makes a socket if it has none, or destroys it (ssl.hpp:111-117, 191-198). -/
def act (s : St) (a : Act) : St :=
  match a with
  | .make k => if .holder k ∈ s.done ∧ k ∉ s.owns then { s with owns := k :: s.owns, ev := s.ev ++ [.sslNew k] } else s
  | .drop k => if k ∈ s.owns then { s with owns := s.owns.erase k, ev := s.ev ++ [.sslFree k] } else s

/-- The events of the destructor of an object (ssl.hpp:31-45, 85-88, 191-198). -/
def destroyed (owns : List Nat) : Obj → List Ev
  | .engine => [.cleanup]
  | .ctx => [.ctxFree]
  | .client k => [.sslFree k]
  | .holder k => if k ∈ owns then [.sslFree k] else []

/-- A whole program: the static objects in the order in which their construction begins, `main`, the end. -/
def program (statics : List Obj) (main : List Act) : St :=
  let s := statics.foldl construct ⟨[], [], [], false⟩
  if s.dead then s
  else
    let s := main.foldl act s
    { s with ev := s.ev ++ (s.done.map (destroyed s.owns)).flatten }

end Verif.SslStatic
