import Verif.Model.Common

/-!
# Model of several `File` objects writing to one file at the same time (`include/cybozu/file.hpp`, Linux)

The objects (numbered by `Nat`) may belong to threads or to processes.  An object opened with `std::ios::app` has `O_APPEND` (file.hpp:113-114): the
system puts the bytes of each `::write` at the end of the file as it is then, in one step.  An object opened without it, and an appending
object on Windows (100-103, 129-130), writes at its own position.  `::write` may accept fewer bytes than it was given.  Failing calls of `::write` end in
an exception (C54) and are not modelled here; interrupted ones (`EINTR`, 264) change nothing and are left out.
-/
namespace Verif.Appenders

abbrev Bytes := List UInt8

/-- The file, the position of each object, what is left of the `write` each is in, and as history: the texts each object was asked to write, and what
the calls of `::write` accepted, in order. -/
structure St where
  file : Bytes
  pos : Nat → Nat
  rest : Nat → Option Bytes
  asked : Nat → List Bytes
  pieces : List (Nat × Bytes)

/-- Function update. -/
def upd {α : Type} (f : Nat → α) (i : Nat) (v : α) : Nat → α := fun j => if j = i then v else f j

/-- The bytes of a file after `b` was written at `p`; a gap is filled with zeros. -/
def place (file : Bytes) (p : Nat) (b : Bytes) : Bytes :=
  (file ++ List.replicate (p - file.length) 0).take p ++ b ++ file.drop (p + b.length)

/-- All objects are open, appending ones at the end (file.hpp:129-130), the others at the beginning
(as they empty the file when it is opened, 115-116, `old` is empty if there are such). -/
def St.start (old : Bytes) (app : Nat → Bool) : St := ⟨old, fun i => if app i then old.length else 0, fun _ => none, fun _ => [], []⟩

/-- The steps of object `i`.  `app`: which objects have `O_APPEND`; `full`: every `::write` accepts all its bytes. -/
inductive Step (app : Nat → Bool) (full : Bool) : St → St → Prop where
  /-- `write(buf, bufSize)` is called (file.hpp:251-253) -/
  | call {s i text} : s.rest i = none → Step app full s { s with rest := upd s.rest i (some text), asked := upd s.asked i (s.asked i ++ [text]) }
  /-- `::write(hdl_, p, size)` accepts `n` bytes at the end of the file (file.hpp:254-255, 260, 266-267) -/
  | append {s i r n} : app i = true → s.rest i = some r → r ≠ [] → n ≤ min 0x7fffffff r.length → (full = true → n = min 0x7fffffff r.length) →
      Step app full s { s with
        file := s.file ++ r.take n, pos := upd s.pos i (s.file.length + n), rest := upd s.rest i (some (r.drop n)), pieces := s.pieces ++ [(i, r.take n)] }
  /-- `::write(hdl_, p, size)` accepts `n` bytes at the position of the object (file.hpp:254-255, 260, 266-267) -/
  | over {s i r n} : app i = false → s.rest i = some r → r ≠ [] → n ≤ min 0x7fffffff r.length → (full = true → n = min 0x7fffffff r.length) →
      Step app full s { s with
        file := place s.file (s.pos i) (r.take n), pos := upd s.pos i (s.pos i + n), rest := upd s.rest i (some (r.drop n)),
        pieces := s.pieces ++ [(i, r.take n)] }
  /-- the loop ends (file.hpp:254, 269) -/
  | ret {s i} : s.rest i = some [] → Step app full s { s with rest := upd s.rest i none }

/-- Executions. -/
inductive Steps (app : Nat → Bool) (full : Bool) : St → St → Prop where
  | refl {s} : Steps app full s s
  | tail {s s' s''} : Steps app full s s' → Step app full s' s'' → Steps app full s s''

end Verif.Appenders
