import Verif.Proof.Ssl
import Verif.Spec.Ssl
set_option linter.unusedSimpArgs false
/-!
# C77: the TLS client socket completes partial transfers and releases what it holds

`Conn.out` is what OpenSSL took so far, `Conn.rest` what the peer sends before it closes.
-/
namespace Verif.Props.Ssl
open Verif.Ssl Verif.SslSpec
open Verif.PartialIO (Outcome)

/-- `write`, whatever OpenSSL answers: if it returns, exactly the bytes of the buffer were taken, once and in order, and no write
is left unfinished; if it throws, OpenSSL reported an error of the connection, never a repetition with other arguments; what was
taken is always a beginning of the buffer. -/
theorem C77_write (fuel : Nat) (buf : List UInt8) (d : Conn) (hb : buf.length < 2 ^ 64) (hs : d.shut = false)
    (hp : d.pending = none) :
    ∃ o d' sent, write fuel buf d = (o, d') ∧ sent <+: buf ∧ d'.out = d.out ++ sent ∧ d'.rest = d.rest ∧
      (o = .done ∧ sent = buf ∧ d'.pending = none ∨
        o = .failed ∧ (∃ i, d.calls ≤ i ∧ i < d'.calls ∧ d.ans i = .error) ∨
        o = .running) := by
  obtain ⟨o, d', n, e, hn, ho, hr, hans, _, hc, hx⟩ := write_inv buf hb fuel 0 buf.length d (by omega) ⟨hs, .inl hp⟩
  rw [show ((0 : Nat) : Int) = 0 from rfl] at e
  rw [List.drop_zero] at ho
  refine ⟨o, d', buf.take n, e, List.take_prefix _ _, ho, hr, ?_⟩
  obtain ⟨h1, rfl, h3, h4⟩ | ⟨h1, h2, h3⟩ | h1 := hx
  · refine .inl ⟨h1, List.take_length, ?_⟩
    rcases Nat.eq_zero_or_pos buf.length with hz | hz
    · rw [h4 hz, hp]
    · exact h3 hz
  · exact .inr (.inl ⟨h1, d'.calls - 1, by omega, by omega, h3⟩)
  · exact .inr (.inr h1)

/-- Without errors of the connection and if OpenSSL does not ask for a repetition for ever, everything is written. -/
theorem C77_write_all (buf : List UInt8) (d : Conn) (hb : buf.length < 2 ^ 64) (hs : d.shut = false) (hp : d.pending = none)
    (he : ∀ i, d.ans i ≠ .error) (hf : ∀ i, ∃ j, i ≤ j ∧ d.ans j ≠ .wantRead ∧ d.ans j ≠ .wantWrite) :
    ∃ fuel, (write fuel buf d).1 = .done ∧ (write fuel buf d).2.out = d.out ++ buf := by
  obtain ⟨fuel, h⟩ := write_term buf hb d.ans hf buf.length 0 d (by omega) ⟨hs, .inl hp⟩ rfl
  rw [show ((0 : Nat) : Int) = 0 from rfl] at h
  refine ⟨fuel, ?_⟩
  obtain ⟨o, d', sent, e, _, ho, _, hx⟩ := C77_write fuel buf d hb hs hp
  rw [e]
  rw [show writeLoop fuel buf 0 buf.length d = write fuel buf d from rfl, e] at h
  obtain ⟨h1, rfl, _⟩ | ⟨_, i, _, _, hi⟩ | h1 := hx
  · exact ⟨h1, ho⟩
  · exact absurd hi (he i)
  · exact absurd h1 h

/-- `readSome` for a buffer that is not empty: if it returns `r`, the next `r` bytes of the peer are in the buffer and the rest of
the buffer is untouched; 0 means that the peer has closed and nothing is left. -/
theorem C77_readSome (fuel p n : Nat) (dst : List UInt8) (d : Conn) (hn : p + n ≤ dst.length) (h0 : 0 < n) :
    ∃ o r dst' d', readSome fuel dst p n d = (o, r, dst', d') ∧
      (o = .done ∧ r ≤ n ∧ dst' = dst.take p ++ d.rest.take r ++ dst.drop (p + r) ∧ r ≤ d.rest.length ∧
          d'.rest = d.rest.drop r ∧ (r = 0 → d.rest = []) ∨
        o = .failed ∧ dst' = dst ∧ (∃ i, d.calls ≤ i ∧ i < d'.calls ∧ d.ans i = .error) ∨
        o = .running) := by
  obtain ⟨o, r, dst', d', e, h1, h2, _, h3, hx⟩ := readSome_inv fuel dst p n d hn
  refine ⟨o, r, dst', d', e, ?_⟩
  obtain ⟨ho, hc, hr, hr', hz, hrest, hdst⟩ | ⟨ho, hc, hd, hrest, he⟩ | ⟨ho, hd, hrest⟩ := hx
  · exact .inl ⟨ho, hr, hdst, hr', hrest, fun h => by rcases hz h with h | h; omega; exact h⟩
  · exact .inr (.inl ⟨ho, hd, d'.calls - 1, by omega, by omega, he⟩)
  · exact .inr (.inr ho)

/-- `read(buf, n)` that returns filled exactly the `n` bytes with the next `n` bytes of the peer and took no more; if it throws,
OpenSSL reported an error of the connection. -/
theorem C77_read (fuel n : Nat) (dst : List UInt8) (d : Conn) (hn : n ≤ dst.length) :
    ∃ o dst' d', read fuel dst n d = (o, dst', d') ∧
      (o = .done ∧ n ≤ d.rest.length ∧ dst' = d.rest.take n ++ dst.drop n ∧ d'.rest = d.rest.drop n ∨
        o = .failed ∧ (∃ i, d.calls ≤ i ∧ i < d'.calls ∧ d.ans i = .error) ∨
        o = .running) := by
  obtain ⟨o, dst', d', k, e, h1, h2, h3, h4, _, _, _, hx⟩ := read_inv fuel dst 0 n d (by omega)
  refine ⟨o, dst', d', e, ?_⟩
  obtain ⟨ho, rfl⟩ | ⟨ho, hc, hx⟩ | ho := hx
  · exact .inl ⟨ho, h2, by simpa using h4, h3⟩
  · exact .inr (.inl ⟨ho, d'.calls - 1, by omega, by omega, hx⟩)
  · exact .inr (.inr ho)

/-- If the peer sends enough, there is no error and OpenSSL does not ask for a repetition for ever, `read` returns. -/
theorem C77_read_all (n : Nat) (dst : List UInt8) (d : Conn) (hn : n ≤ dst.length) (hr : n ≤ d.rest.length)
    (he : ∀ i, d.ans i ≠ .error) (hf : ∀ i, ∃ j, i ≤ j ∧ d.ans j ≠ .wantRead ∧ d.ans j ≠ .wantWrite) :
    ∃ fuel, (read fuel dst n d).1 = .done ∧ (read fuel dst n d).2.1 = d.rest.take n ++ dst.drop n := by
  obtain ⟨f, h⟩ := read_term d.ans hf n dst 0 d (by omega) hr rfl
  have h := h f (Nat.le_refl _)
  refine ⟨f, ?_⟩
  obtain ⟨o, dst', d', e, hx⟩ := C77_read f n dst d hn
  rw [show readLoop f dst 0 n d = read f dst n d from rfl, e] at h
  rw [e]
  obtain ⟨ho, _, hd, _⟩ | ⟨_, i, _, _, hi⟩ | ho := hx
  · exact ⟨ho, hd⟩
  · exact absurd hi (he i)
  · exact absurd ho h

/-- Finding: `read` never ends, neither returning nor throwing, when the peer closes in time before `n` bytes: `readSome`
answers 0 again and again.  `Socket::read` throws there. -/
theorem C77_finding_read_hangs (n : Nat) (dst : List UInt8) (d : Conn) (hn : n ≤ dst.length) (hr : d.rest.length < n)
    (he : ∀ i, d.ans i ≠ .error) (fuel : Nat) : (read fuel dst n d).1 = .running := by
  obtain ⟨o, dst', d', e, hx⟩ := C77_read fuel n dst d hn
  rw [e]
  obtain ⟨_, h, _⟩ | ⟨_, i, _, _, hi⟩ | ho := hx
  · omega
  · exact absurd hi (he i)
  · exact ho

/-! ## The life of the object -/

theorem acc_append {s s1 s2 : Option Nat × Bool} {l l' : List Ev} (h : AcceptsAll s l s1) (h' : AcceptsAll s1 l' s2) :
    AcceptsAll s (l ++ l') s2 := by
  induction h with
  | nil => exact h'
  | cons h _ ih => exact .cons h (ih h')

theorem acc_connect (s : Sock) (n : Net) (hs : s.ssl = true) :
    AcceptsAll (s.fd, true) (connect s n).2.2 ((connect s n).2.1.fd, true) ∧ (connect s n).2.1.ssl = true := by
  obtain ⟨fd, ssl⟩ := s
  obtain ⟨so, c, sf, h⟩ := n
  subst hs
  cases fd with
  | some f => exact ⟨.nil _, rfl⟩
  | none =>
    cases so with
    | none => exact ⟨.nil _, rfl⟩
    | some f =>
      cases c with
      | false => exact ⟨.cons (.socket f) (.nil _), rfl⟩
      | true =>
        cases sf with
        | false => exact ⟨.cons (.socket f) (.cons (.setFd f) (.nil _)), rfl⟩
        | true =>
          cases h with
          | false => exact ⟨.cons (.socket f) (.cons (.setFd f) (.cons (.handshake f) (.nil _))), rfl⟩
          | true => exact ⟨.cons (.socket f) (.cons (.setFd f) (.cons (.handshake f) (.nil _))), rfl⟩

theorem acc_close (dt : Bool) (s : Sock) (sh : Int) (c : Bool) (hs : s.ssl = true) :
    AcceptsAll (s.fd, true) (close dt s sh c).2.2 (none, true) ∧ (close dt s sh c).2.1 = ⟨none, true⟩ := by
  obtain ⟨fd, ssl⟩ := s
  subst hs
  cases fd with
  | none => exact ⟨.nil _, rfl⟩
  | some f =>
    simp only [close]
    split <;> exact ⟨.cons (.shutdown f) (.cons (.closeSocket f) (.nil _)), rfl⟩

theorem acc_run (l : List Op) : ∀ s : Sock, s.ssl = true →
    AcceptsAll (s.fd, true) (run s l).2 ((run s l).1.fd, true) ∧ (run s l).1.ssl = true := by
  induction l with
  | nil => intro s hs; exact ⟨.nil _, hs⟩
  | cons o l ih =>
    intro s hs
    cases o with
    | connect n =>
      obtain ⟨h1, h2⟩ := acc_connect s n hs
      obtain ⟨h3, h4⟩ := ih _ h2
      exact ⟨acc_append h1 h3, h4⟩
    | close dt sh c =>
      obtain ⟨h1, h2⟩ := acc_close dt s sh c hs
      obtain ⟨h3, h4⟩ := ih (close dt s sh c).2.1 (by rw [h2])
      refine ⟨acc_append h1 ?_, h4⟩
      rw [h2] at h3
      simpa [run, h2] using h3

/-- Whatever is called in whatever order with whatever answers: every socket is closed exactly once, the `SSL` object is made and
freed exactly once and used only in between and with an open socket, and after the destructor nothing is left. -/
theorem C77_life (ops : List Op) (sh : Int) (c : Bool) (s : Sock) (evs : List Ev) (h : construct true = (.ok s, evs)) :
    AcceptsAll (none, false) (evs ++ (run s ops).2 ++ destruct (run s ops).1 sh c) (none, false) := by
  rw [construct] at h
  simp at h
  obtain ⟨rfl, rfl⟩ := h
  obtain ⟨h1, h2⟩ := acc_run ops ⟨none, true⟩ rfl
  obtain ⟨h3, _⟩ := acc_close true (run ⟨none, true⟩ ops).1 sh c h2
  refine acc_append (acc_append (.cons .new (.nil _)) h1) ?_
  rw [destruct, h2]
  exact acc_append h3 (.cons .free (.nil _))

/-- A failed constructor leaves nothing. -/
theorem C77_construct_fails : construct false = (.error (), []) := rfl

/-- `connect` returns exactly if nothing was connected before and all calls succeed. -/
theorem C77_connect (s : Sock) (n : Net) :
    (connect s n).1 = true ↔ s.fd = none ∧ n.socket?.isSome ∧ n.connectOk ∧ n.setFdOk ∧ n.handshakeOk := by
  obtain ⟨fd, ssl⟩ := s
  obtain ⟨so, c, sf, h⟩ := n
  cases fd <;> cases so <;> cases c <;> cases sf <;> cases h <;> simp [connect]

/-- `close` always leaves the object without a socket, also when it throws; it returns if told not to throw, and otherwise
exactly if there was no socket or both calls succeeded. -/
theorem C77_close (dt : Bool) (s : Sock) (sh : Int) (c : Bool) :
    (close dt s sh c).2.1.fd = none ∧
      ((close dt s sh c).1 = true ↔ dt = true ∨ s.fd = none ∨ sh = 1 ∧ c = true) := by
  obtain ⟨fd, ssl⟩ := s
  cases fd <;> cases dt <;> cases c <;> simp [close]

/-- Finding: the usual end of a connection throws.  `SSL_shutdown` answers 0 when its close notify is sent and that of the peer has
not come yet, and `close()` takes this for a failure. -/
theorem C77_finding_close_throws (s : Sock) (fd : Nat) (h : s.fd = some fd) : (close false s 0 true).1 = false := by
  simp [close, h]

/-- Finding: after a connection that failed the socket stays open, so the next `connect` throws until `close` is called, which in
turn throws, as `SSL_shutdown` fails without a handshake. -/
theorem C77_finding_failed_connect (fd : Nat) (n n' : Net) (h : n.socket? = some fd) (hf : n.connectOk = false) :
    (connect ⟨none, true⟩ n).1 = false ∧ (connect (connect ⟨none, true⟩ n).2.1 n').1 = false ∧
      (close false (connect ⟨none, true⟩ n).2.1 (-1) true).1 = false := by
  simp [connect, close, h, hf]

/-- Finding: an object cannot be used for a second connection.  `close` sends the close notify with the one `SSL` object, which is
neither cleared nor replaced when `connect` is called again and returns; every `write` then throws. -/
theorem C77_finding_second_connection (n n' : Net) (fd fd' : Nat) (h : n.socket? = some fd) (h' : n'.socket? = some fd')
    (ok : n.connectOk ∧ n.setFdOk ∧ n.handshakeOk) (ok' : n'.connectOk ∧ n'.setFdOk ∧ n'.handshakeOk) :
    (let r := run ⟨none, true⟩ [.connect n, .close false 1 true]
     (connect r.1 n').1 = true ∧ notifySent (r.2 ++ (connect r.1 n').2.2) = true ∧ Ev.free ∉ (connect r.1 n').2.2 ∧
       Ev.new ∉ (connect r.1 n').2.2) ∧
    ∀ (fuel : Nat) (buf : List UInt8) (d : Conn), d.shut = true → buf ≠ [] → (write (fuel + 1) buf d).1 = .failed := by
  obtain ⟨a, b, c⟩ := ok
  obtain ⟨a', b', c'⟩ := ok'
  constructor
  · simp [run, connect, close, h, h', a, b, c, a', b', c', notifySent]
  · intro fuel buf d hs hb
    have hl : 0 < buf.length := List.length_pos_iff.2 hb
    rw [write, writeLoop, if_pos hl]
    simp only [wrap_size, Int.toNat_natCast]
    rw [if_pos (by omega), Conn.write, if_pos hs]
    simp

/-! ## Cases -/

/-- A connection that takes two bytes, asks for a repetition, and so on. -/
def demo : Conn := ⟨[], [1, 2, 3], fun i => if i % 2 = 0 then .move 1 else .wantWrite, 0, none, false⟩

example : (write 10 [10, 20, 30, 40, 50] demo).1 = .done ∧ (write 10 [10, 20, 30, 40, 50] demo).2.out = [10, 20, 30, 40, 50] ∧
    (write 10 [10, 20, 30, 40, 50] demo).2.calls = 5 := by decide

example : (∀ i, demo.ans i ≠ .error) ∧ (∀ i, ∃ j, i ≤ j ∧ demo.ans j ≠ .wantRead ∧ demo.ans j ≠ .wantWrite) := by
  constructor
  · intro i
    simp only [demo]
    split <;> simp
  · intro i
    refine ⟨2 * i, by omega, ?_, ?_⟩ <;> simp [demo]

example : read 9 [0, 0, 0, 9] 3 demo |>.2.1 = [1, 2, 3, 9] := by decide

example : (run ⟨none, true⟩ [.connect ⟨some 5, true, true, true⟩, .close false 1 true]).2 =
    [.socket 5, .setFd 5, .handshake, .shutdown, .closeSocket 5] := by decide

end Verif.Props.Ssl

#print axioms Verif.Props.Ssl.C77_write
#print axioms Verif.Props.Ssl.C77_write_all
#print axioms Verif.Props.Ssl.C77_read_all
#print axioms Verif.Props.Ssl.C77_life
