import Verif.Proof.Stream
set_option linter.unusedSimpArgs false

/-! # C22: streams -/
namespace Verif.Props.Stream
open Verif Verif.Stream Verif.Spec.Stream

/-- C22.  However the stream fragments its data, `read(buf, size, is)` puts the next `size` bytes into the buffer, leaves
what is behind them in the buffer alone and advances the stream by exactly `size`; it throws exactly when fewer than
`size` bytes are left. -/
theorem C22_read (buf : List UInt8) (size : Nat) (s : Src) (hb : size ≤ buf.length) :
    (size ≤ s.rest.length → ∃ s', read buf size s = .ok (s.rest.take size ++ buf.drop size, s') ∧ s'.rest = s.rest.drop size) ∧
    (read buf size s = .throw ↔ s.rest.length < size) := by
  refine ⟨fun h => ?_, fun h => ?_, read_throw buf size s hb⟩
  · obtain ⟨s', h1, h2, _⟩ := read_ok buf size s hb h
    exact ⟨s', h1, h2⟩
  · rcases Nat.lt_or_ge s.rest.length size with hl | hl
    · exact hl
    · obtain ⟨s', h1, _⟩ := read_ok buf size s hb hl
      rw [h1] at h; cases h

/-- C22.  The variant with a flag: the flag says whether all bytes came; whatever was delivered is in the buffer and nothing
behind the first `size` bytes is touched. -/
theorem C22_read_flag (buf : List UInt8) (size : Nat) (s : Src) (hb : size ≤ buf.length) :
    ∃ s', readFlag buf size s =
        .ok (decide (size ≤ s.rest.length), s.rest.take size ++ buf.drop (min size s.rest.length), s') ∧
      s'.rest = s.rest.drop size := by
  obtain ⟨s', e1, e2, _⟩ := readLoop_spec (size + 1) buf 0 size s (by omega) (by omega)
  refine ⟨s', ?_, e2⟩
  rw [readFlag, e1]
  simp [splice]

/-- C22.  Two reads in a row see one byte sequence: fragmentation is invisible to a program made of reads. -/
theorem C22_fragmentation_invisible (buf : List UInt8) (size : Nat) (s t : Src) (hb : size ≤ buf.length) (h : s.rest = t.rest) :
    (∃ s' t' r, read buf size s = .ok (r, s') ∧ read buf size t = .ok (r, t') ∧ s'.rest = t'.rest) ∨
    (read buf size s = .throw ∧ read buf size t = .throw) := by
  rcases Nat.lt_or_ge s.rest.length size with hl | hl
  · right
    exact ⟨read_throw buf size s hb hl, read_throw buf size t hb (by rw [← h]; exact hl)⟩
  · left
    obtain ⟨s', a1, a2, _⟩ := read_ok buf size s hb hl
    obtain ⟨t', b1, b2, _⟩ := read_ok buf size t hb (by rw [← h]; exact hl)
    exact ⟨s', t', _, a1, by rw [b1, h], by rw [a2, b2, h]⟩

/-- C22.  `readChar`: the next byte, or false and the character untouched at the end. -/
theorem C22_read_char (c : UInt8) (s : Src) :
    (∀ x xs, s.rest = x :: xs → ∃ s', readChar c s = .ok (true, x, s') ∧ s'.rest = xs) ∧
    (s.rest = [] → ∃ s', readChar c s = .ok (false, c, s') ∧ s'.rest = []) := by
  constructor
  · intro x xs h
    have ha : s.amount 1 = 1 := by rw [Src.amount, h]; simp
    refine ⟨s.next 1, ?_, by simp [Src.next, ha, h]⟩
    rw [readChar, readSome, ha, h]
    simp [store_ok, splice, at?]
  · intro h
    have ha : s.amount 1 = 0 := by rw [amount_zero]; exact .inr h
    refine ⟨s.next 1, ?_, by simp [Src.next, h]⟩
    rw [readChar, readSome, ha, h]
    simp [store_ok, splice, at?]

/-- C22.  `MemoryInputStream::readSome` is such a stream: it delivers the next bytes of its memory, as many as asked for
if there are, and nothing outside its memory is read. -/
theorem C22_memory_input (m : MemIn) (buf : List UInt8) (off size : Nat) (h1 : m.pos ≤ m.size) (h2 : m.size ≤ m.data.length)
    (h3 : m.size < 2 ^ 64) (hb : off + size ≤ buf.length) :
    let n := min size (m.size - m.pos)
    m.readSome buf off size = .ok (splice buf off (((m.data.take m.size).drop m.pos).take n), n, { m with pos := m.pos + n }) ∧
      m.pos + n ≤ m.size := by
  intro n
  have hroom : (m.size + 2 ^ 64 - m.pos) % 2 ^ 64 = m.size - m.pos := by omega
  have hn : (if size > m.size - m.pos then m.size - m.pos else size) = n := by simp only [n]; split <;> omega
  refine ⟨?_, by omega⟩
  rw [MemIn.readSome]
  simp only [hroom, hn]
  have ht : ((m.data.take m.size).drop m.pos).take n = (m.data.drop m.pos).take n := by
    rw [List.drop_take, List.take_take, Nat.min_eq_left (by omega)]
  rw [if_pos (by omega), store_ok _ _ _ (by rw [List.length_take]; omega), ht]
  rfl

/-- C22.  `StringInputStream::readSome` likewise. -/
theorem C22_string_input (data buf : List UInt8) (pos off size : Nat) (h1 : pos ≤ data.length) (h3 : data.length < 2 ^ 64)
    (hb : off + size ≤ buf.length) :
    let n := min size (data.length - pos)
    StrIn.readSome data pos buf off size = .ok (splice buf off ((data.drop pos).take n), n, pos + n) ∧ pos + n ≤ data.length := by
  intro n
  have hroom : (data.length + 2 ^ 64 - pos) % 2 ^ 64 = data.length - pos := by omega
  have hn : (if size > data.length - pos then data.length - pos else size) = n := by simp only [n]; split <;> omega
  refine ⟨?_, by omega⟩
  rw [StrIn.readSome]
  simp only [hroom, hn]
  rw [if_pos (by omega), store_ok _ _ _ (by rw [List.length_take]; omega)]
  rfl

/-- C22.  Each of the three library streams answers 0 only when nothing is asked for or nothing is left, as the model of
a stream assumes; `std::istream` is asked for at most 2^31-1 bytes. -/
theorem C22_zero_only_at_end (rest : List UInt8) (size : Nat) :
    (IStream.amount rest size = 0 ↔ size = 0 ∨ rest = []) ∧ IStream.amount rest size ≤ size ∧
      IStream.amount rest size ≤ rest.length := by
  have h := List.length_eq_zero_iff (l := rest)
  rw [IStream.amount]
  split <;> (refine ⟨⟨fun h' => ?_, fun h' => ?_⟩, by omega, by omega⟩)
  · rw [← h]; omega
  · rcases h' with h' | h'
    · omega
    · rw [h']; simp
  · rw [← h]; omega
  · rcases h' with h' | h'
    · omega
    · rw [h']; simp

/-- C22.  Any history of writes to a `MemoryOutputStream`: each write is taken completely or not at all, exactly when it
fits; the memory is the accepted bytes in order followed by what it held; nothing at or behind `size_` is written. -/
theorem C22_memory_output (ws : List (List UInt8)) : ∀ (m : MemOut), m.pos ≤ m.size → m.size ≤ m.mem.length → m.size < 2 ^ 64 →
    ∃ bs m', m.run ws = .ok (bs, m') ∧
      m'.mem = splice m.mem m.pos (fitting (m.size - m.pos) ws).flatten ∧
      m'.pos = m.pos + (fitting (m.size - m.pos) ws).flatten.length ∧ m'.pos ≤ m.size ∧ m'.size = m.size ∧
      ((ws.zip bs).filter (·.2)).map (·.1) = fitting (m.size - m.pos) ws ∧ bs.length = ws.length := by
  induction ws with
  | nil => intro m h1 h2 h3; exact ⟨[], m, rfl, by simp [fitting, splice_nil], by simp [fitting], h1, rfl, rfl, rfl⟩
  | cons w ws ih =>
    intro m h1 h2 h3
    have hroom : (m.size + 2 ^ 64 - m.pos) % 2 ^ 64 = m.size - m.pos := by omega
    rw [MemOut.run, MemOut.writeFlag]
    simp only [hroom]
    by_cases hw : w.length > m.size - m.pos
    · obtain ⟨bs, m', e1, e2, e3, e4, e5, e6, e7⟩ := ih m h1 h2 h3
      rw [if_pos hw, fitting, if_neg (by omega)]
      refine ⟨false :: bs, m', ?_, e2, e3, e4, e5, ?_, by simp [e7]⟩
      · simp only [Res.ok_bind, e1, Res.pure_eq]
      · simpa using e6
    · rw [if_neg hw, store_ok _ _ _ (by omega)]
      obtain ⟨bs, m', e1, e2, e3, e4, e5, e6, e7⟩ := ih { m with mem := splice m.mem m.pos w, pos := m.pos + w.length }
        (by simp only; omega) (by simp only; rw [splice_length _ _ _ (by omega)]; omega) h3
      simp only at e2 e3 e4 e5 e6
      rw [fitting, if_pos (by omega)]
      rw [show m.size - (m.pos + w.length) = m.size - m.pos - w.length by omega] at e2 e3 e6
      refine ⟨true :: bs, m', ?_, ?_, ?_, e4, e5, ?_, by simp [e7]⟩
      · simp only [Res.ok_bind, e1, Res.pure_eq]
      · rw [e2, List.flatten_cons, splice_splice]
        omega
      · rw [e3, List.flatten_cons, List.length_append]; omega
      · simp [← e6]

/-- C22.  The throwing variant: an oversized write throws and a fitting one is stored. -/
theorem C22_memory_write (m : MemOut) (w : List UInt8) (h1 : m.pos ≤ m.size) (h2 : m.size ≤ m.mem.length) (h3 : m.size < 2 ^ 64) :
    (m.pos + w.length ≤ m.size → m.write w = .ok { m with mem := splice m.mem m.pos w, pos := m.pos + w.length }) ∧
    (m.write w = .throw ↔ m.size < m.pos + w.length) := by
  have hroom : (m.size + 2 ^ 64 - m.pos) % 2 ^ 64 = m.size - m.pos := by omega
  rw [MemOut.write, MemOut.writeFlag]
  simp only [hroom]
  by_cases hw : w.length > m.size - m.pos
  · rw [if_pos hw]
    exact ⟨fun h => by omega, by simp; omega⟩
  · rw [if_neg hw, store_ok _ _ _ (by omega)]
    exact ⟨fun _ => by simp, by simp; omega⟩

/-! Concrete cases. -/

-- one byte at a time, and all at once
example : (read [9, 9, 9, 9] 3 ⟨[1, 2, 3, 4], fun _ => 0, 0⟩).bind (fun p => .ok (p.1, p.2.rest, p.2.calls)) =
    .ok ([1, 2, 3, 9], [4], 3) := by decide +kernel
example : (read [9, 9, 9, 9] 3 ⟨[1, 2, 3, 4], fun _ => 99, 0⟩).bind (fun p => .ok (p.1, p.2.rest, p.2.calls)) =
    .ok ([1, 2, 3, 9], [4], 1) := by decide +kernel
example : (MemOut.mk [9, 9, 9, 9] 3 0).pos ≤ (MemOut.mk [9, 9, 9, 9] 3 0).size ∧ fitting 3 [[1, 2], [3, 4], [5]] = [[1, 2], [5]] := by
  decide
example : (MemIn.mk [1, 2, 3] 3 1).pos ≤ 3 ∧ 0 + 5 ≤ (List.replicate 5 (0 : UInt8)).length := by decide

#print axioms C22_read
#print axioms C22_read_flag
#print axioms C22_fragmentation_invisible
#print axioms C22_read_char
#print axioms C22_memory_input
#print axioms C22_string_input
#print axioms C22_zero_only_at_end
#print axioms C22_memory_output
#print axioms C22_memory_write

end Verif.Props.Stream
