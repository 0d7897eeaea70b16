/-!
# What the atomic functions promise (the comments of atomic.hpp)
-/
namespace Verif.Spec.Atomic

/-- `tmp = *p; *p += y; return tmp;` on numbers of `w` bits. -/
def IsAdd (w before y ret after : Nat) : Prop := ret = before ∧ after = (before + y) % 2 ^ w

/-- `tmp = *p; if (*p == oldValue) *p = newValue; return tmp;` -/
def IsCompareExchange (before newValue oldValue ret after : Nat) : Prop :=
  ret = before ∧ (before = oldValue → after = newValue) ∧ (before ≠ oldValue → after = before)

/-- `tmp = *p; *p = newValue; return tmp;` -/
def IsExchange (before newValue ret after : Nat) : Prop := ret = before ∧ after = newValue

end Verif.Spec.Atomic
