/-!
# Model of `include/cybozu/tls.hpp` (the pthread version) and of the keys it uses

A pointer is a number, 0 is null.  Keys are numbers below `max` (`PTHREAD_KEYS_MAX`).  `pthread_key_create` gives some key that is not in use,
with null for every thread, or fails; `pthread_setspecific` may fail for lack of memory and then changes nothing (POSIX).  Using a key that is
not in use is undefined behaviour.  Objects are identified by their addresses.  No destructor function is registered with the keys
(tls.hpp:55).
-/
namespace Verif.Tls

/-- The keys in use and the value of each thread. -/
abbrev Keys := Nat → Option (Nat → Nat)

/-- `tls::invalidTlsIndex` (tls.hpp:50) -/
def invalid (max : Nat) : Nat := max + 1

/-- The keys, and `idx_` of the `Tls` objects that exist (tls.hpp:87). -/
structure St where
  keys : Keys
  obj : Nat → Option Nat

/-- Nothing exists. -/
def St.init : St := ⟨fun _ => none, fun _ => none⟩

/-- `f` with another value at `i`. -/
def put {α : Type} (f : Nat → α) (i : Nat) (a : α) : Nat → α := fun j => if j = i then a else f j

/-- `tls::Init` (tls.hpp:52-59): the index and the keys afterwards. -/
inductive Init (max : Nat) (ks : Keys) : Nat → Keys → Prop where
  | key {k : Nat} : k < max → ks k = none → Init max ks k (put ks k (some fun _ => 0))
  | fail : Init max ks (invalid max) ks

/-- `tls::SetValue` (tls.hpp:66-69) in thread `t`: the result and the keys; `none` is undefined behaviour. -/
inductive SetValue (ks : Keys) (t idx p : Nat) : Option (Bool × Keys) → Prop where
  | ok {f : Nat → Nat} : ks idx = some f → SetValue ks t idx p (some (true, put ks idx (some (put f t p))))
  | fail {f : Nat → Nat} : ks idx = some f → SetValue ks t idx p (some (false, ks))
  | ub : ks idx = none → SetValue ks t idx p none

/-- `tls::GetValue` (tls.hpp:61-64) in thread `t`. -/
def getValue (ks : Keys) (t idx : Nat) : Option Nat := (ks idx).map (· t)

/-- `tls::Term` (tls.hpp:71-74) -/
def term (ks : Keys) (idx : Nat) : Option Keys := (ks idx).map fun _ => put ks idx none

/-- The calls on the object at an address. -/
inductive Call where
  | ctor (o : Nat)
  | set (o p : Nat)
  | get (o : Nat)
  | dtor (o : Nat)
  deriving DecidableEq, Repr

/-- What a call returns. -/
inductive Ret where
  | unit
  | bool (b : Bool)
  | ptr (p : Nat)
  | ub
  deriving DecidableEq, Repr

/-- `Tls::set` (tls.hpp:98-101) of an object with index `idx` in thread `t`. -/
inductive SetCall (max : Nat) (ks : Keys) (t idx p : Nat) : Option (Bool × Keys) → Prop where
  | invalid : idx = invalid max → SetCall max ks t idx p (some (false, ks))
  | valid {r : Option (Bool × Keys)} : idx ≠ invalid max → SetValue ks t idx p r → SetCall max ks t idx p r

/-- A call in thread `t`.  Calls on objects that do not exist are left out (that is undefined behaviour of the caller). -/
inductive Step (max : Nat) : St → Nat → Call → Ret → St → Prop where
  /-- `Tls()` (tls.hpp:94-97) -/
  | ctor {s t o idx ks} : s.obj o = none → Init max s.keys idx ks → Step max s t (.ctor o) .unit ⟨ks, put s.obj o (some idx)⟩
  /-- `set` (tls.hpp:98-101) -/
  | set {s t o p idx b ks} : s.obj o = some idx → SetCall max s.keys t idx p (some (b, ks)) → Step max s t (.set o p) (.bool b) ⟨ks, s.obj⟩
  | setUb {s t o p idx} : s.obj o = some idx → SetCall max s.keys t idx p none → Step max s t (.set o p) .ub s
  /-- `get` (tls.hpp:102-105) -/
  | getInvalid {s t o idx} : s.obj o = some idx → idx = invalid max → Step max s t (.get o) (.ptr 0) s
  | get {s t o idx p} : s.obj o = some idx → idx ≠ invalid max → getValue s.keys t idx = some p → Step max s t (.get o) (.ptr p) s
  | getUb {s t o idx} : s.obj o = some idx → idx ≠ invalid max → getValue s.keys t idx = none → Step max s t (.get o) .ub s
  /-- `~Tls()` (tls.hpp:106-112) -/
  | dtorInvalid {s t o idx} : s.obj o = some idx → idx = invalid max → Step max s t (.dtor o) .unit ⟨s.keys, put s.obj o none⟩
  | dtor {s t o idx b ks ks'} : s.obj o = some idx → idx ≠ invalid max → SetCall max s.keys t idx 0 (some (b, ks)) → term ks idx = some ks' →
      Step max s t (.dtor o) .unit ⟨ks', put s.obj o none⟩
  | dtorUbSet {s t o idx} : s.obj o = some idx → idx ≠ invalid max → SetCall max s.keys t idx 0 none → Step max s t (.dtor o) .ub s
  | dtorUbTerm {s t o idx b ks} : s.obj o = some idx → idx ≠ invalid max → SetCall max s.keys t idx 0 (some (b, ks)) → term ks idx = none →
      Step max s t (.dtor o) .ub s

/-- One entry of a history. -/
structure Ev where
  thread : Nat
  call : Call
  ret : Ret
  deriving DecidableEq, Repr

/-- A history. -/
inductive Steps (max : Nat) : List Ev → St → Prop where
  | nil : Steps max [] St.init
  | snoc {h s t c r s'} : Steps max h s → Step max s t c r s' → Steps max (h ++ [⟨t, c, r⟩]) s'

end Verif.Tls
