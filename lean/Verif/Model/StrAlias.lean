import Verif.Model.Common
import Verif.Model.Handle
/-!
# Model of `StringT::append(begin, end)` and the members that use it, with the memory (`include/cybozu/string.hpp`)

Characters of type `CharT` are copied one by one with `push_back`, so a range inside the string itself moves away when the memory is
exchanged.  A buffer has the characters and a capacity; the character behind the last one is the NUL that `std::basic_string` keeps.
The small buffer inside an object counts as a buffer that is freed when the string leaves it.
-/
namespace Verif.StrAlias
open Verif.Handle (upd)

/-- The memory of one string. -/
structure Buf where
  data : List Int
  cap : Nat
  deriving DecidableEq, Repr

/-- The buffers in use, and a number from which on none is. -/
structure Heap where
  buf : Nat → Option Buf
  fresh : Nat

/-- How `std::basic_string` grows: any rule that makes room. -/
structure Grow where
  f : Nat → Nat
  more : ∀ n, n < f n

/-- `push_back` of `std::basic_string` (string.hpp:560, 1047-1050) on the string in buffer `s`: the new place of the string. -/
def pushBack (g : Grow) (h : Heap) (s : Nat) (c : Int) : Res (Heap × Nat) :=
  match h.buf s with
  | none => .ub
  | some b =>
    if b.data.length < b.cap then .ok (⟨upd h.buf s (some ⟨b.data ++ [c], b.cap⟩), h.fresh⟩, s)
    else .ok (⟨upd (upd h.buf h.fresh (some ⟨b.data ++ [c], g.f b.cap⟩)) s none, h.fresh + 1⟩, h.fresh)

/-- `*begin` for `begin = p + i` (string.hpp:1519, 1531): a freed buffer or a place behind the NUL cannot be read. -/
def peek (h : Heap) (p i : Nat) : Res Int :=
  match h.buf p with
  | none => .ub
  | some b =>
    if i < b.data.length then .ok (b.data.getD i 0)
    else if i = b.data.length then .ok 0
    else .ub

/-- `append(Iterator begin, Iterator end)` for `CharT` (string.hpp:554-563); also `append(const CharT*, count)` (526-529).  The range is
`n` characters from place `i` of buffer `p` on. -/
def append (g : Grow) (h : Heap) (s p : Nat) : (i n : Nat) → Res (Heap × Nat)
  | _, 0 => .ok (h, s)
  | i, n + 1 => do
    let c ← peek h p i
    let r ← pushBack g h s c
    append g r.1 r.2 p (i + 1) n

/-- `clear` (string.hpp:833): the memory is kept. -/
def clear (h : Heap) (s : Nat) : Res Heap :=
  match h.buf s with
  | none => .ub
  | some b => .ok ⟨upd h.buf s (some ⟨[], b.cap⟩), h.fresh⟩

/-- `assign(Iterator begin, Iterator end)` (string.hpp:670-673); also `assign(const CharT*, count)` (637-640). -/
def assign (g : Grow) (h : Heap) (s p i n : Nat) : Res (Heap × Nat) := do
  let h ← clear h s
  append g h s p i n

/-- The constructor from a range (string.hpp:362-365): an empty string in its own small buffer, then `append`. -/
def construct (g : Grow) (small : Nat) (h : Heap) (p i n : Nat) : Res (Heap × Nat) :=
  append g ⟨upd h.buf h.fresh (some ⟨[], small⟩), h.fresh + 1⟩ h.fresh p i n

/-- The destructor of a string. -/
def destroy (h : Heap) (s : Nat) : Heap := ⟨upd h.buf s none, h.fresh⟩

/-- `std::basic_string::replace(begin, end, b, e)` of `m` characters from `off` on with characters from another string; it leaves the
string in buffer `s` or in a new one. -/
def stdReplace (g : Grow) (h : Heap) (s off m : Nat) (v : List Int) : Res (Heap × Nat) :=
  match h.buf s with
  | none => .ub
  | some b =>
    if off + m ≤ b.data.length then
      let d := b.data.take off ++ v ++ b.data.drop (off + m)
      if d.length ≤ b.cap then .ok (⟨upd h.buf s (some ⟨d, b.cap⟩), h.fresh⟩, s)
      else .ok (⟨upd (upd h.buf h.fresh (some ⟨d, max (g.f b.cap) d.length⟩)) s none, h.fresh + 1⟩, h.fresh)
    else .ub

/-- `replace(begin, end, begin2, end2)` (string.hpp:935-941), and with `m = 0` `insert(here, begin, end)` (784-789): the range is copied
to a string of its own first. -/
def replace (g : Grow) (small : Nat) (h : Heap) (s off m p i n : Nat) : Res (Heap × Nat) := do
  let r ← construct g small h p i n
  match r.1.buf r.2 with
  | none => .ub
  | some b => do
    let q ← stdReplace g r.1 s off m b.data
    return (destroy q.1 r.2, q.2)

end Verif.StrAlias
