import Verif.Proof.PartialIO

/-!
# C54: partial writes and reads are completed

`Dev.out` is what the descriptor accepted so far (every byte of every successful `::write`, in order), `Dev.rest`
what it can still deliver.
-/
namespace Verif.Props.PartialIO
open Verif.PartialIO

/-- `o, d'` is a correct end (or intermediate state) of writing `buf` to `d`: done - the descriptor received exactly the
bytes of the buffer, once and in order; failed - one of the system calls made failed, and the descriptor received a
prefix; running - it has received a prefix.  In particular never `ub`. -/
def GoodWrite (buf : List UInt8) (d : Dev) (o : Outcome) (d' : Dev) : Prop :=
  (o = .done ∧ d'.out = d.out ++ buf) ∨
  ((o = .failed ∧ (∃ i, d.calls ≤ i ∧ i < d'.calls ∧ d.ans i = .error)) ∨ o = .running) ∧
    ∃ sent, sent <+: buf ∧ d'.out = d.out ++ sent

theorem goodWrite (fuel : Nat) (buf : List UInt8) (d : Dev) (hb : buf.length < 2 ^ 64) :
    GoodWrite buf d (File.writeLoop fuel buf 0 buf.length d).1 (File.writeLoop fuel buf 0 buf.length d).2 := by
  obtain ⟨o, d', n, e, hn, ho, _, _, hc, hx⟩ := write_inv buf hb fuel 0 buf.length d (by omega)
  rw [show ((0 : Nat) : Int) = 0 from rfl] at e
  rw [e]
  rw [List.drop_zero] at ho
  obtain ⟨h1, rfl⟩ | ⟨h1, hc0, h2⟩ | h1 := hx
  · exact .inl ⟨h1, by simp only; rw [ho, List.take_length]⟩
  · exact .inr ⟨.inl ⟨h1, d'.calls - 1, by omega, by simp only; omega, h2⟩, _, List.take_prefix _ _, ho⟩
  · exact .inr ⟨.inr h1, _, List.take_prefix _ _, ho⟩

/-- `File::write`, for every sequence of answers of the system. -/
theorem C54_file_write (fuel : Nat) (buf : List UInt8) (d : Dev) (hb : buf.length < 2 ^ 64) :
    GoodWrite buf d (File.write fuel buf d).1 (File.write fuel buf d).2 := goodWrite fuel buf d hb

/-- `Socket::write`, for every sequence of answers of the system. -/
theorem C54_socket_write (fuel : Nat) (buf : List UInt8) (d : Dev) (hb : buf.length < 2 ^ 64) :
    GoodWrite buf d (Socket.write fuel buf d).1 (Socket.write fuel buf d).2 := by
  have := socket_eq buf hb fuel 0 buf.length d (by omega)
  rw [show ((0 : Nat) : Int) = 0 from rfl] at this
  rw [Socket.write, this]
  exact goodWrite fuel buf d hb

/-- Both end when the system does not answer "interrupted" or "0 bytes" for ever. -/
theorem C54_write_terminates (buf : List UInt8) (d : Dev) (hb : buf.length < 2 ^ 64)
    (hf : ∀ i, ∃ j, i ≤ j ∧ d.ans j ≠ .eintr ∧ d.ans j ≠ .move 0) :
    ∃ fuel, (File.write fuel buf d).1 ≠ .running ∧ (Socket.write fuel buf d).1 ≠ .running := by
  obtain ⟨fuel, h⟩ := write_term buf hb d.ans hf buf.length 0 d (by omega) rfl
  refine ⟨fuel, h, ?_⟩
  have := socket_eq buf hb fuel 0 buf.length d (by omega)
  rw [show ((0 : Nat) : Int) = 0 from rfl] at this h
  rw [Socket.write, this]
  exact h

/-- Without errors everything is written. -/
theorem C54_write_all (buf : List UInt8) (d : Dev) (hb : buf.length < 2 ^ 64) (he : ∀ i, d.ans i ≠ .error)
    (hf : ∀ i, ∃ j, i ≤ j ∧ d.ans j ≠ .eintr ∧ d.ans j ≠ .move 0) :
    ∃ fuel, (File.write fuel buf d).1 = .done ∧ (File.write fuel buf d).2.out = d.out ++ buf ∧
      (Socket.write fuel buf d).1 = .done ∧ (Socket.write fuel buf d).2.out = d.out ++ buf := by
  obtain ⟨fuel, h1, h2⟩ := C54_write_terminates buf d hb hf
  refine ⟨fuel, ?_⟩
  obtain ⟨a, b⟩ | ⟨⟨_, i, _, _, hi⟩ | hr, _⟩ := C54_file_write fuel buf d hb
  · obtain ⟨a', b'⟩ | ⟨⟨_, i, _, _, hi⟩ | hr, _⟩ := C54_socket_write fuel buf d hb
    · exact ⟨a, b, a', b'⟩
    · exact absurd hi (he i)
    · exact absurd hr h2
  · exact absurd hi (he i)
  · exact absurd hr h1

/-- `Socket::read(buf, n)` that returns filled exactly the `n` bytes with the next `n` bytes of the peer, in order,
and took no more from the descriptor; the rest of the buffer is untouched.  If it throws, a system call failed, it
answered 0 although asked for more, or the peer sent fewer than `n` bytes. -/
theorem C54_socket_read (fuel n : Nat) (dst : List UInt8) (d : Dev) (hn : n ≤ dst.length) :
    ∃ o dst' d', Socket.read fuel dst n d = (o, dst', d') ∧
      ((o = .done ∧ n ≤ d.rest.length ∧ dst' = d.rest.take n ++ dst.drop n ∧ d'.rest = d.rest.drop n) ∨
       (o = .failed ∧ ((∃ i, d.calls ≤ i ∧ i < d'.calls ∧ (d.ans i = .error ∨ d.ans i = .move 0)) ∨ d.rest.length < n)) ∨
       o = .running) := by
  obtain ⟨o, dst', d', k, e, h1, h2, h3, h4, _, hx⟩ := socket_read_inv fuel dst 0 n d (by omega)
  refine ⟨o, dst', d', e, ?_⟩
  obtain ⟨ho, rfl⟩ | ⟨ho, hc, hx⟩ | ho := hx
  · exact .inl ⟨ho, h2, by simpa using h4, h3⟩
  · refine .inr (.inl ⟨ho, ?_⟩)
    obtain hx | hx | hx := hx
    · exact .inl ⟨_, by omega, by omega, .inl hx⟩
    · exact .inl ⟨d'.calls - 1, by omega, by omega, .inr hx⟩
    · exact .inr (by omega)
  · exact .inr (.inr ho)

/-- It ends when the system does not answer "interrupted" for ever. -/
theorem C54_socket_read_terminates (n : Nat) (dst : List UInt8) (d : Dev) (hn : n ≤ dst.length)
    (hf : ∀ i, ∃ j, i ≤ j ∧ d.ans j ≠ .eintr) : ∃ fuel, (Socket.read fuel dst n d).1 ≠ .running := by
  obtain ⟨f0, h⟩ := socket_read_term d.ans hf n dst 0 d (by omega) rfl
  exact ⟨f0, h f0 (Nat.le_refl _)⟩

/-- `File::read(buf, n)` that returns filled exactly the `n` bytes; if it throws, a system call failed. -/
theorem C54_file_read (fuel n : Nat) (dst : List UInt8) (d : Dev) (hn : n ≤ dst.length) :
    ∃ o dst' d', File.read fuel dst n d = (o, dst', d') ∧
      ((o = .done ∧ n ≤ d.rest.length ∧ dst' = d.rest.take n ++ dst.drop n ∧ d'.rest = d.rest.drop n) ∨
       (o = .failed ∧ ∃ i, d.calls ≤ i ∧ i < d'.calls ∧ d.ans i = .error) ∨ o = .running) := by
  obtain ⟨o, dst', d', k, e, h1, h2, h3, h4, _, hx⟩ := file_read_inv fuel dst 0 n d (by omega)
  refine ⟨o, dst', d', e, ?_⟩
  obtain ⟨ho, rfl⟩ | ⟨ho, hc, hx⟩ | ho := hx
  · exact .inl ⟨ho, h2, by simpa using h4, h3⟩
  · exact .inr (.inl ⟨ho, d'.calls - 1, by omega, by omega, hx⟩)
  · exact .inr (.inr ho)

/-- It ends when the file has enough bytes and the system makes progress again and again. -/
theorem C54_file_read_terminates (n : Nat) (dst : List UInt8) (d : Dev) (hn : n ≤ dst.length) (hl : n ≤ d.rest.length)
    (hf : ∀ i, ∃ j, i ≤ j ∧ d.ans j ≠ .eintr ∧ d.ans j ≠ .move 0) : ∃ fuel, (File.read fuel dst n d).1 ≠ .running := by
  obtain ⟨f0, h⟩ := file_read_term d.ans hf n dst 0 d (by omega) hl rfl
  exact ⟨f0, h f0 (Nat.le_refl _)⟩

/-- FINDING: `File::read` of more bytes than the file has never returns and never throws, unless a system call fails:
the end of the file (0 bytes) is not recognised (file.hpp:294-298). -/
theorem C54_finding_file_read_eof (fuel n : Nat) (dst : List UInt8) (d : Dev) (hn : n ≤ dst.length)
    (hl : d.rest.length < n) (he : ∀ i, d.ans i ≠ .error) : (File.read fuel dst n d).1 = .running := by
  obtain ⟨o, dst', d', e, hx⟩ := C54_file_read fuel n dst d hn
  rw [e]
  obtain ⟨_, h, _⟩ | ⟨_, i, _, _, h⟩ | h := hx
  · omega
  · exact absurd h (he i)
  · exact h

/-! The hypotheses are met by concrete systems. -/

/-- Interrupted, then 2 bytes at a time with interruptions in between. -/
def choppy : Nat → Ans := fun i => if i % 3 = 0 then .eintr else .move (i % 3)

example : ∀ i, ∃ j, i ≤ j ∧ choppy j ≠ .eintr ∧ choppy j ≠ .move 0 := by
  intro i
  refine ⟨3 * i + 1, by omega, ?_, ?_⟩ <;> simp [choppy, show (3 * i + 1) % 3 = 1 by omega]

example : (File.write 20 [1, 2, 3, 4, 5, 6, 7] ⟨[9], [], choppy, 0⟩).1 = .done ∧
    (File.write 20 [1, 2, 3, 4, 5, 6, 7] ⟨[9], [], choppy, 0⟩).2.out = [9, 1, 2, 3, 4, 5, 6, 7] := by decide +kernel

example : (Socket.read 20 [0, 0, 0, 0, 0] 4 ⟨[], [1, 2, 3, 4, 5, 6], choppy, 0⟩).1 = .done ∧
    (Socket.read 20 [0, 0, 0, 0, 0] 4 ⟨[], [1, 2, 3, 4, 5, 6], choppy, 0⟩).2.1 = [1, 2, 3, 4, 0] := by decide +kernel

example : (Socket.read 20 [0, 0, 0, 0, 0] 4 ⟨[], [1, 2, 3], choppy, 0⟩).1 = .failed := by decide +kernel

end Verif.Props.PartialIO

#print axioms Verif.Props.PartialIO.C54_file_write
#print axioms Verif.Props.PartialIO.C54_socket_write
#print axioms Verif.Props.PartialIO.C54_write_terminates
#print axioms Verif.Props.PartialIO.C54_write_all
#print axioms Verif.Props.PartialIO.C54_socket_read
#print axioms Verif.Props.PartialIO.C54_socket_read_terminates
#print axioms Verif.Props.PartialIO.C54_file_read
#print axioms Verif.Props.PartialIO.C54_file_read_terminates
#print axioms Verif.Props.PartialIO.C54_finding_file_read_eof
