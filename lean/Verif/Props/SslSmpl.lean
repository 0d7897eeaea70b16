import Verif.Model.SslSmpl
import Verif.Spec.SslSmpl
import Verif.Props.Ssl
set_option linter.unusedSimpArgs false
/-!
# C123: the program `ssl_smpl`
-/
namespace Verif.Props.SslSmpl
open Verif.SslSmpl Verif.Ssl Verif.Spec.SslSmpl
open Verif.PartialIO (Outcome wrapInt)

theorem shown_before (p : List UInt8) : BeforeNul p (shown p) := by
  unfold shown
  induction p with
  | nil => exact ⟨by simp, .inl rfl⟩
  | cons c p ih =>
    rw [List.takeWhile_cons]
    by_cases hc : c = 0
    · subst hc
      exact ⟨by simp, .inr ⟨p, by simp⟩⟩
    · rw [if_pos (by simpa using hc)]
      refine ⟨?_, ?_⟩
      · rw [List.mem_cons, not_or]
        exact ⟨fun e => hc e.symm, ih.1⟩
      · rcases ih.2 with h | ⟨r, h⟩
        · exact .inl (by rw [h])
        · refine .inr ⟨r, ?_⟩
          rw [List.cons_append, ← h]

/-- The loop: what was read so far is shown piece by piece; it ends by itself exactly when everything was read. -/
theorem body_inv (fuel : Nat) : ∀ (buf : List UInt8) (d : Conn), 1024 ≤ buf.length →
    ∃ o text n d' ps got left, body fuel buf d = (o, text, n, d') ∧ d.rest = got ++ left ∧ d'.rest = left ∧ Pieces 1024 ps got ∧ Shows ps text ∧
      n = got.length ∧ d'.out = d.out ∧ d'.ans = d.ans ∧
      (o = .done ∧ left = [] ∨ o = .failed ∧ (∃ i, d.calls ≤ i ∧ d.ans i = .error) ∨ o = .running) := by
  induction fuel with
  | zero =>
    intro buf d _
    exact ⟨_, _, _, _, [], [], d.rest, rfl, by simp, rfl, .nil, .nil, rfl, rfl, rfl, .inr (.inr rfl)⟩
  | succ fuel ih =>
    intro buf d hb
    obtain ⟨o, r, buf', d', e, h1, h2, -, h3, hx⟩ := readSome_inv (fuel + 1) buf 0 1024 d (by omega)
    rw [body, e]
    obtain ⟨rfl, hc, hr, hr', hz, hrest, hbuf⟩ | ⟨rfl, hc, rfl, hrest, he⟩ | ⟨rfl, rfl, hrest⟩ := hx
    · dsimp only
      by_cases h0 : r = 0
      · rw [if_pos h0]
        subst h0
        have hd : d.rest = [] := by
          rcases hz rfl with h | h
          · omega
          · exact h
        exact ⟨_, _, _, _, [], [], [], rfl, by simp [hd], by simp [hrest, hd], .nil, .nil, rfl, h2, h1, .inl ⟨rfl, rfl⟩⟩
      · rw [if_neg h0]
        have hl : buf'.length = buf.length := by
          rw [hbuf]
          simp only [List.take_zero, List.nil_append, List.length_append, List.length_take, List.length_drop]
          omega
        have ht : buf'.take r = d.rest.take r := by
          rw [hbuf, List.take_zero, List.nil_append, List.take_left' (by rw [List.length_take]; omega)]
        obtain ⟨o, text, n, d'', ps, got, left, e', g1, g2, g3, g4, g5, g6, g7, g8⟩ := ih buf' d' (by omega)
        rw [e', ht]
        refine ⟨_, _, _, _, d.rest.take r :: ps, d.rest.take r ++ got, left, rfl, ?_, g2, .cons ?_ ?_ g3, .cons (shown_before _) g4, ?_,
          g6.trans h2, g7.trans h1, ?_⟩
        · rw [List.append_assoc, ← g1, hrest, List.take_append_drop]
        · intro e
          have := congrArg List.length e
          rw [List.length_take, List.length_nil] at this
          omega
        · rw [List.length_take]; omega
        · rw [List.length_append, List.length_take, g5]; dsimp only; omega
        · rcases g8 with h | ⟨h, i, hi, hi'⟩ | h
          · exact .inl h
          · exact .inr (.inl ⟨h, i, by omega, by rw [← h1]; exact hi'⟩)
          · exact .inr (.inr h)
    · exact ⟨_, _, _, _, [], [], d.rest, rfl, by simp, hrest, .nil, .nil, rfl, h2, h1, .inr (.inl ⟨rfl, _, by omega, he⟩)⟩
    · exact ⟨_, _, _, _, [], [], d.rest, rfl, by simp, hrest, .nil, .nil, rfl, h2, h1, .inr (.inr rfl)⟩

/-- C123: whatever OpenSSL answers, if the program ends with the status 0, exactly the request was sent and everything that the server sent was read;
the number shown is its length (as an `int`) and the text is what was read, in pieces of at most 1024 bytes, each up to its first NUL.  It ends with
the status 1 only for an error of the connection, and shows then, in the same way, what it has read. -/
theorem C123_session (fw fb : Nat) (buf path : List UInt8) (d : Conn) (hb : 1024 ≤ buf.length) (hp : path.length < 2 ^ 63) (hs : d.shut = false)
    (hq : d.pending = none) :
    ∃ v d' ps got left, session fw fb buf path d = (v, d') ∧ d.rest = got ++ left ∧ d'.rest = left ∧ Pieces 1024 ps got ∧ Shows ps v.text ∧
      (v.status = some 0 ∧ left = [] ∧ d'.out = d.out ++ ([71, 69, 84, 32] ++ path ++ [32, 72, 84, 84, 80, 47, 49, 46, 48, 13, 10, 13, 10]) ∧
          v.total = some (wrapInt 32 (d.rest.length : Nat)) ∨
        v.status = some 1 ∧ v.total = none ∧ (∃ i, d.calls ≤ i ∧ d.ans i = .error) ∨
        v.status = none ∧ v.total = none) := by
  have hl : (request path).length < 2 ^ 64 := by simp only [request, List.length_append, List.length_cons, List.length_nil]; omega
  obtain ⟨o, d1, n, e, hn, ho, hr, hans, hsh, hc, hx⟩ := write_inv (request path) hl fw 0 (request path).length d (by omega) ⟨hs, .inl hq⟩
  rw [show ((0 : Nat) : Int) = 0 from rfl] at e
  have e : write fw (request path) d = (o, d1) := e
  rw [List.drop_zero] at ho
  rw [session, e]
  obtain ⟨rfl, rfl, h3, h4⟩ | ⟨rfl, h2, h3⟩ | rfl := hx
  · rw [List.take_length] at ho
    obtain ⟨o, text, k, d2, ps, got, left, e', g1, g2, g3, g4, g5, g6, g7, g8⟩ := body_inv fb buf d1 hb
    dsimp only
    rw [e']
    rw [hr] at g1
    rcases g8 with ⟨rfl, h⟩ | ⟨rfl, i, hi, hi'⟩ | rfl
    · refine ⟨_, _, ps, got, left, rfl, g1, g2, g3, g4, .inl ⟨rfl, h, ?_, ?_⟩⟩
      · rw [g6, ho]; rfl
      · dsimp only
        rw [g1, h, List.append_nil, g5]
    · exact ⟨_, _, ps, got, left, rfl, g1, g2, g3, g4, .inr (.inl ⟨rfl, rfl, i, by omega, by rw [← hans]; exact hi'⟩)⟩
    · exact ⟨_, _, ps, got, left, rfl, g1, g2, g3, g4, .inr (.inr ⟨rfl, rfl⟩)⟩
  · exact ⟨_, _, [], [], d.rest, rfl, by simp, hr, .nil, .nil, .inr (.inl ⟨rfl, rfl, d1.calls - 1, by omega, h3⟩)⟩
  · exact ⟨_, _, [], [], d.rest, rfl, by simp, hr, .nil, .nil, .inr (.inr ⟨rfl, rfl⟩)⟩

theorem shows_no_nul {ps : List (List UInt8)} {got text : List UInt8} (h : Pieces 1024 ps got) : Shows ps text → 0 ∉ got → text = got := by
  induction h generalizing text with
  | nil => intro h _; cases h; rfl
  | @cons p t ps h0 hn h ih =>
    intro hs hz
    cases hs with
    | @cons _ s t' _ hb hs =>
      rw [List.mem_append, not_or] at hz
      rw [ih hs hz.2]
      rcases hb.2 with e | ⟨r, e⟩
      · rw [e]
      · exact absurd (by rw [e]; simp) hz.1

/-- C123: an answer without NUL is shown as it is. -/
theorem C123_text (fw fb : Nat) (buf path : List UInt8) (d : Conn) (hb : 1024 ≤ buf.length) (hp : path.length < 2 ^ 63) (hs : d.shut = false)
    (hq : d.pending = none) (hz : 0 ∉ d.rest) (h : (session fw fb buf path d).1.status = some 0) :
    (session fw fb buf path d).1.text = d.rest ∧
      (d.rest.length < 2 ^ 31 → (session fw fb buf path d).1.total = some (d.rest.length : Int)) := by
  obtain ⟨v, d', ps, got, left, e, g1, g2, g3, g4, g5⟩ := C123_session fw fb buf path d hb hp hs hq
  rw [e] at h ⊢
  simp only at h ⊢
  rcases g5 with ⟨_, h1, h2, h3⟩ | ⟨h1, _⟩ | ⟨h1, _⟩
  · subst h1
    rw [List.append_nil] at g1
    rw [g1] at hz ⊢
    refine ⟨shows_no_nul g3 g4 hz, fun hl => ?_⟩
    rw [h3, g1]
    simp only [Option.some.injEq]
    exact Int.bmod_eq_of_le (by omega) (by omega)
  · rw [h1] at h; cases h
  · rw [h1] at h; cases h

theorem body_term (ans : Nat → Ans) (hf : ∀ i, ∃ j, i ≤ j ∧ ans j ≠ .wantRead ∧ ans j ≠ .wantWrite) (n : Nat) : ∀ (buf : List UInt8) (d : Conn),
    1024 ≤ buf.length → d.rest.length ≤ n → d.ans = ans → ∃ f0, ∀ f, f0 ≤ f → (body f buf d).1 ≠ .running := by
  induction n using Nat.strongRecOn with
  | _ n ih =>
    intro buf d hb hn hd
    obtain ⟨j, hj, hn1, hn2⟩ := hf d.calls
    obtain ⟨f1, hr1⟩ := readSome_term j buf 0 1024 (by omega) (j - d.calls) d (by omega) (by rw [hd]; exact hn1) (by rw [hd]; exact hn2)
    obtain ⟨o, r, buf', d', e, h1, h2, _, h3, hx⟩ := readSome_inv f1 buf 0 1024 d (by omega)
    rw [e] at hr1
    have hstep : ∀ f, f1 ≤ f + 1 → readSome (f + 1) buf 0 1024 d = (o, r, buf', d') := by
      intro f hf1
      rw [readSome_le f1 (f + 1) hf1 buf 0 1024 d (by omega) (by rw [e]; exact hr1), e]
    obtain ⟨rfl, hc, hr, hr', hz, hrest, hbuf⟩ | ⟨rfl, _⟩ | ⟨rfl, _⟩ := hx
    · by_cases h0 : r = 0
      · refine ⟨f1 + 1, fun f hf0 => ?_⟩
        obtain ⟨g, rfl⟩ : ∃ g, f = g + 1 := ⟨f - 1, by omega⟩
        rw [body, hstep g (by omega)]
        dsimp only
        rw [if_pos h0]
        simp
      · have hl : buf'.length = buf.length := by
          rw [hbuf]
          simp only [List.take_zero, List.nil_append, List.length_append, List.length_take, List.length_drop]
          omega
        obtain ⟨f2, h2⟩ := ih (n - r) (by omega) buf' d' (by omega) (by rw [hrest, List.length_drop]; omega) (by rw [h1, hd])
        refine ⟨f1 + f2 + 1, fun f hf0 => ?_⟩
        obtain ⟨g, rfl⟩ : ∃ g, f = g + 1 := ⟨f - 1, by omega⟩
        rw [body, hstep g (by omega)]
        dsimp only
        rw [if_neg h0]
        exact h2 g (by omega)
    · refine ⟨f1 + 1, fun f hf0 => ?_⟩
      obtain ⟨g, rfl⟩ : ∃ g, f = g + 1 := ⟨f - 1, by omega⟩
      rw [body, hstep g (by omega)]
      simp
    · exact absurd rfl hr1

/-- C123: without errors of the connection, and if OpenSSL does not ask for a repetition for ever, the program ends with the status 0. -/
theorem C123_ends (buf path : List UInt8) (d : Conn) (hb : 1024 ≤ buf.length) (hp : path.length < 2 ^ 63) (hs : d.shut = false)
    (hq : d.pending = none) (he : ∀ i, d.ans i ≠ .error) (hf : ∀ i, ∃ j, i ≤ j ∧ d.ans j ≠ .wantRead ∧ d.ans j ≠ .wantWrite) :
    ∃ fw fb, (session fw fb buf path d).1.status = some 0 := by
  have hl : (request path).length < 2 ^ 64 := by simp only [request, List.length_append, List.length_cons, List.length_nil]; omega
  obtain ⟨fw, h1, -⟩ := Props.Ssl.C77_write_all (request path) d hl hs hq he hf
  obtain ⟨o, d1, n, e, hn, ho, hr, hans, hsh, hc, hx⟩ := write_inv (request path) hl fw 0 (request path).length d (by omega) ⟨hs, .inl hq⟩
  have e : write fw (request path) d = (o, d1) := e
  rw [e] at h1
  dsimp only at h1
  subst h1
  obtain ⟨fb, h2⟩ := body_term d.ans hf d1.rest.length buf d1 hb (Nat.le_refl _) hans
  have h2 := h2 fb (Nat.le_refl _)
  obtain ⟨o, text, k, d2, ps, got, left, e', g1, g2, g3, g4, g5, g6, g7, g8⟩ := body_inv fb buf d1 hb
  rw [e'] at h2
  refine ⟨fw, fb, ?_⟩
  rw [session, e]
  dsimp only
  rw [e']
  rcases g8 with ⟨rfl, h⟩ | ⟨rfl, i, hi, hi'⟩ | rfl
  · rfl
  · exact absurd (by rw [← hans]; exact hi') (he i)
  · exact absurd rfl h2

/-- C123: with fewer than two arguments, or when no connection is made, the status is 1 and nothing is sent. -/
theorem C123_no_connection (fw fb : Nat) (buf : List UInt8) (argv : List (List UInt8)) (sslNew : Bool) (net : Net) (d : Conn)
    (h : argv.length < 2 ∨ sslNew = false ∨ net.socket? = none ∨ net.connectOk = false ∨ net.setFdOk = false ∨ net.handshakeOk = false) :
    main fw fb buf argv sslNew net d = (⟨[], none, some 1⟩, d) := by
  unfold main
  split
  · cases sslNew with
    | false => rfl
    | true =>
      have : (connect ⟨none, true⟩ net).1 = false := by
        unfold connect
        rw [if_neg (by simp)]
        cases hn : net.socket? with
        | none => rfl
        | some fd =>
          dsimp only
          simp only [List.length_cons, hn, reduceCtorEq, false_or] at h
          by_cases h1 : net.connectOk = false
          · rw [if_pos (by simp [h1])]
          · rw [if_neg (by simpa using h1)]
            by_cases h2 : net.setFdOk = false
            · rw [if_pos (by simp [h2])]
            · rw [if_neg (by simpa using h2)]
              have h3 : net.handshakeOk = false := by
                rcases h with h | h | h | h
                · omega
                · exact absurd h h1
                · exact absurd h h2
                · exact h
              rw [if_pos (by simp [h3])]
      dsimp only [construct]
      rw [if_pos rfl]
      dsimp only
      rw [this]
      rfl
  · rfl

/-- C123: otherwise the first argument is the host and the second the path of the request. -/
theorem C123_main (fw fb : Nat) (buf host path : List UInt8) (more : List (List UInt8)) (net : Net) (d : Conn) (fd : Nat) (h0 : net.socket? = some fd)
    (h1 : net.connectOk = true) (h2 : net.setFdOk = true) (h3 : net.handshakeOk = true) :
    main fw fb buf (host :: path :: more) true net d = session fw fb buf path d := by
  unfold main
  simp [construct, connect, h0, h1, h2, h3]

/-- A buffer. -/
def buf0 : List UInt8 := List.replicate 1024 0

/-- A connection on which OpenSSL moves at most `k + 1` bytes, after a request for a repetition, and the server sends `A`, NUL, `B`. -/
def conn (k : Nat) : Conn := ⟨[], [65, 0, 66], fun i => if i = 0 then .wantWrite else .move (if i = 1 then 99 else k), 0, none, false⟩

example : (session 5 5 buf0 [47] (conn 1)).1.status = some 0 ∧ (session 5 5 buf0 [47] (conn 1)).2.out = request [47] := by decide +kernel

/-- C123 (finding): what is shown of an answer with a NUL depends on how it was cut into pieces on its way. -/
theorem C123_finding_nul : (session 5 5 buf0 [47] (conn 99)).1.text = [65] ∧ (session 5 5 buf0 [47] (conn 0)).1.text = [65, 66] ∧
    (session 5 5 buf0 [47] (conn 99)).1.total = some 3 ∧ (session 5 5 buf0 [47] (conn 0)).1.total = some 3 := by decide +kernel

/-- C123 (finding): the number for an answer of `2^31` bytes or more is not its length. -/
theorem C123_finding_total (fw fb : Nat) (buf path : List UInt8) (d : Conn) (hb : 1024 ≤ buf.length) (hp : path.length < 2 ^ 63)
    (hs : d.shut = false) (hq : d.pending = none) (hl : 2 ^ 31 ≤ d.rest.length) :
    (session fw fb buf path d).1.total ≠ some (d.rest.length : Int) := by
  obtain ⟨v, d', ps, got, left, e, g1, g2, g3, g4, g5⟩ := C123_session fw fb buf path d hb hp hs hq
  rw [e]
  dsimp only
  rcases g5 with ⟨_, h1, h2, h3⟩ | ⟨_, h1, _⟩ | ⟨_, h1⟩
  · rw [h3]
    intro hc
    simp only [Option.some.injEq] at hc
    have := Int.bmod_lt (x := (d.rest.length : Int)) (m := 2 ^ 32) (by decide)
    unfold wrapInt at hc
    rw [hc] at this
    omega
  · rw [h1]; simp
  · rw [h1]; simp

#print axioms C123_session
#print axioms C123_text
#print axioms C123_ends
#print axioms C123_no_connection
#print axioms C123_main
#print axioms C123_finding_nul
#print axioms C123_finding_total

end Verif.Props.SslSmpl
