import Verif.Spec.SocketSetup
set_option linter.unusedSimpArgs false
/-!
# C80: a socket is set up as asked
-/
namespace Verif.Props.SocketSetup
open Verif Verif.SocketAddr Verif.SocketSetup Verif.SocketSetupSpec

theorem query_ok (sd : Option Nat) (sel : Except Nat Nat) (he : ∀ e, sel = .error e → 0 < e) (b : Bool) :
    queryAccept sd sel = .ok b ↔ ∃ fd n, sd = some fd ∧ fd < 1024 ∧ sel = .ok n ∧ b = decide (0 < n) := by
  unfold queryAccept queryAcceptNoThrow
  cases sd with
  | none => simp [EBADF]
  | some fd =>
    by_cases h : fd ≥ FD_SETSIZE
    · have : ¬ fd < 1024 := by simpa [FD_SETSIZE] using h
      simp [h, EMFILE, this]
    · have h' : fd < 1024 := by simpa [FD_SETSIZE] using h
      cases sel with
      | ok n =>
        simp only [if_neg h, show ¬ ((n : Int) < 0) by omega, if_false, Res.ok.injEq]
        constructor
        · rintro rfl; exact ⟨fd, n, rfl, h', rfl, by simp⟩
        · rintro ⟨fd', n', _, _, hn, rfl⟩; cases hn; simp
      | error e =>
        have := he e rfl
        simp only [if_neg h]
        rw [if_pos (by omega)]
        simp

/-- `queryAccept` returns true exactly if the system says that the descriptor is ready, false at the end of the time, and throws
for an object without descriptor, a descriptor that `select` cannot take, and an error of the system. -/
theorem C80_query (sd : Option Nat) (sel : Except Nat Nat) (he : ∀ e, sel = .error e → 0 < e) (b : Bool) :
    (queryAccept sd sel = .ok b ↔ ∃ fd n, sd = some fd ∧ fd < 1024 ∧ sel = .ok n ∧ b = decide (0 < n)) ∧
      ((¬ ∃ fd n, sd = some fd ∧ fd < 1024 ∧ sel = .ok n) → queryAccept sd sel = .throw) := by
  refine ⟨query_ok sd sel he b, fun h => ?_⟩
  have : queryAcceptNoThrow sd sel < 0 := by
    unfold queryAcceptNoThrow
    cases sd with
    | none => exact (by decide : -EBADF < 0)
    | some fd =>
      simp only
      split
      · decide
      · rename_i hfd
        have : fd < 1024 := by simpa [FD_SETSIZE] using hfd
        cases sel with
        | ok n => exact absurd ⟨fd, n, rfl, this, rfl⟩ h
        | error e =>
          have := he e rfl
          simp only
          omega
  rw [queryAccept, if_pos this]

/-- What `queryAcceptNoThrow` says: the number the system says, or the negative number of the error: EBADF (9) without descriptor, EMFILE
(24) for a descriptor that `select` cannot take. -/
theorem C80_query_number (fd : Nat) (sel : Except Nat Nat) :
    queryAcceptNoThrow none sel = -9 ∧ (1024 ≤ fd → queryAcceptNoThrow (some fd) sel = -24) ∧
      (fd < 1024 → (∀ n, sel = .ok n → queryAcceptNoThrow (some fd) sel = n) ∧
        ∀ e, sel = .error e → queryAcceptNoThrow (some fd) sel = -(e : Int)) := by
  refine ⟨rfl, fun h => by simp [queryAcceptNoThrow, FD_SETSIZE, h, EMFILE], fun h => ⟨?_, ?_⟩⟩ <;> rintro x rfl <;>
    simp [queryAcceptNoThrow, FD_SETSIZE, show ¬ 1024 ≤ fd by omega]

/-- The time given to the system is the time asked for, in seconds and microseconds within their ranges. -/
theorem C80_time (msec : Int) (h : 0 ≤ msec) :
    (timeval msec).1 * 1000000 + (timeval msec).2 = msec * 1000 ∧ 0 ≤ (timeval msec).1 ∧
      0 ≤ (timeval msec).2 ∧ (timeval msec).2 < 1000000 := by
  have h1 : msec.tdiv 1000 = msec / 1000 := Int.tdiv_eq_ediv_of_nonneg h
  have h2 : msec.tmod 1000 = msec % 1000 := Int.tmod_eq_emod_of_nonneg h
  simp only [timeval, h1, h2]
  omega

/-- `connect` returns exactly if the object had no descriptor, the connection stands, and the mode could be switched there and
back; the object then has the new descriptor and it blocks. -/
theorem C80_connect (s : Sock) (msec : Int) (n : Net) (he : ∀ e, n.select = .error e → 0 < e) :
    (connect s msec n).1 = true ↔ s.sd = none ∧ ∃ fd, n.socket? = some fd ∧ Connected msec fd n ∧
      (msec ≠ 0 → n.nonblock = true ∧ n.block = true) ∧ (connect s msec n).2 = ⟨some fd, true⟩ := by
  obtain ⟨sd, bl⟩ := s
  cases sd with
  | some x => simp [connect]
  | none =>
    cases hs : n.socket? with
    | none => simp [connect, hs]
    | some fd =>
      by_cases h0 : msec = 0
      · cases hc : n.con <;> simp [connect, hs, h0, hc, Connected]
      · cases hn : n.nonblock with
        | false => simp [connect, hs, h0, hn]
        | true =>
          cases hb : n.block with
          | false =>
            have hlast : (connect ⟨none, bl⟩ msec n).1 = false := by
              simp only [connect, hs, h0, hn, hb]
              cases hc : n.con with
              | ok => simp
              | fail => simp
              | inProgress =>
                simp
                split
                · split <;> rfl
                · rfl
            simp [hlast, h0]
          | true =>
            cases hc : n.con with
            | ok => simp [connect, hs, h0, hn, hb, hc, Connected]
            | fail => simp [connect, hs, h0, hn, hb, hc, Connected]
            | inProgress =>
              have hq := query_ok (some fd) n.select he true
              by_cases hq1 : queryAccept (some fd) n.select = .ok true
              · obtain ⟨fd', k, h1, h2, h3, h4⟩ := hq.1 hq1
                cases h1
                have hk : 0 < k := by simpa using h4.symm
                cases hso : n.soErr with
                | none => simp [connect, hs, h0, hn, hb, hc, Connected, hq1, hso]
                | some e =>
                  by_cases hz : e = 0
                  · have hcn : Connected msec fd n := .inr ⟨h0, hc, h2, ⟨k, h3, hk⟩, by rw [hso, hz]⟩
                    have hr : connect ⟨none, bl⟩ msec n = (true, ⟨some fd, true⟩) := by
                      simp [connect, hs, h0, hn, hb, hc, hq1, hso, hz]
                    rw [hr]
                    simp [hcn]
                  · simp [connect, hs, h0, hn, hb, hc, Connected, hq1, hso, hz]
              · have hne : (connect ⟨none, bl⟩ msec n).1 = false := by
                  simp only [connect, hs, h0, hn, hb, hc]
                  simp [hq1]
                rw [hne]
                simp only [Bool.false_eq_true, false_iff]
                rintro ⟨_, fd', h1, hcon, _⟩
                cases h1
                rcases hcon with hcon | ⟨_, _, hlt, ⟨k, hk, hpos⟩, _⟩
                · rw [hc] at hcon; cases hcon
                · exact hq1 (hq.2 ⟨fd, k, rfl, hlt, hk, by simp [hpos]⟩)

/-- Whatever happens, a descriptor the system gave is in the object, so that the destructor closes it, and one that was there stays. -/
theorem C80_connect_keeps (s : Sock) (msec : Int) (n : Net) :
    (∀ fd, s.sd = some fd → connect s msec n = (false, s)) ∧
      (s.sd = none → (connect s msec n).2.sd = n.socket?) := by
  obtain ⟨sd, bl⟩ := s
  cases sd with
  | some x => simp [connect]
  | none =>
    refine ⟨by simp, fun _ => ?_⟩
    cases hs : n.socket? with
    | none => simp [connect, hs]
    | some fd =>
      simp only [connect, hs]
      simp only [Option.isSome_none, Bool.false_eq_true, if_false]
      repeat' split
      all_goals rfl

/-- Finding: a connection that fails leaves the descriptor open in the object and, with a time limit, not blocking; `isValid()` is
true and another `connect` throws until `close` is called. -/
theorem C80_finding_failed_connect (bl : Bool) (msec : Int) (n n' : Net) (fd : Nat) (msec' : Int) (h0 : msec ≠ 0)
    (hs : n.socket? = some fd) (hn : n.nonblock = true) (hc : n.con = .fail) :
    connect ⟨none, bl⟩ msec n = (false, ⟨some fd, false⟩) ∧ (connect (connect ⟨none, bl⟩ msec n).2 msec' n').1 = false := by
  simp [connect, h0, hs, hn, hc]

/-- Finding: with a time limit, a descriptor of 1024 or more cannot be connected unless at once, whatever the peer does. -/
theorem C80_finding_large_descriptor (bl : Bool) (msec : Int) (n : Net) (fd : Nat) (h0 : msec ≠ 0) (hs : n.socket? = some fd)
    (hc : n.con = .inProgress) (hf : 1024 ≤ fd) : (connect ⟨none, bl⟩ msec n).1 = false := by
  have hq : queryAccept (some fd) n.select = .throw := by
    simp [queryAccept, queryAcceptNoThrow, FD_SETSIZE, hf, EMFILE]
  cases hn : n.nonblock <;> simp [connect, h0, hs, hn, hc, hq]

/-- `bind` that returns made a listening socket of the family asked for at the port: IPv6 if it is allowed, restricted to IPv6 exactly if
IPv4 is not allowed; the address is the wildcard with the port in network order. -/
theorem C80_bind_partial (port : BitVec 16) (mode : BitVec 32) (a : Srv) (h : (bind port mode a).1 = true) :
    ∃ fd, a.socket? = some fd ∧ (bind port mode a).2.1 = some fd ∧
      (mode.getLsbD 1 = true → (bind port mode a).2.2 = [.socket 10, .option 1 2 1,
        .option 41 26 (if mode.getLsbD 0 then 0 else 1), .bind ([10, 0] ++ [UInt8.ofNat (port.toNat / 256),
          UInt8.ofNat (port.toNat % 256)] ++ List.replicate 24 0), .listen]) ∧
      (mode.getLsbD 1 = false → (bind port mode a).2.2 = [.socket 2, .option 1 2 1,
        .bind ([2, 0] ++ [UInt8.ofNat (port.toNat / 256), UInt8.ofNat (port.toNat % 256)] ++ List.replicate 12 0), .listen]) := by
  have b2 : ∀ m : BitVec 32, (m &&& 2#32 != 0#32) = m.getLsbD 1 := by
    intro m
    have : m &&& 2#32 = if m.getLsbD 1 then 2#32 else 0#32 := by
      apply BitVec.eq_of_getLsbD_eq
      intro i hi
      have hb : (2#32).getLsbD i = decide (i = 1) := by
        have : ∀ i : Fin 32, (2#32).getLsbD i = decide ((i : Nat) = 1) := by decide
        exact this ⟨i, hi⟩
      rw [BitVec.getLsbD_and, hb]
      by_cases h : i = 1
      · subst h; cases m.getLsbD 1 <;> decide
      · cases m.getLsbD 1 <;> simp [h, hb]
    rw [this]
    cases m.getLsbD 1 <;> decide
  have b1 : ∀ m : BitVec 32, (m &&& 1#32 != 0#32) = m.getLsbD 0 := by
    intro m
    have : m &&& 1#32 = if m.getLsbD 0 then 1#32 else 0#32 := by
      apply BitVec.eq_of_getLsbD_eq
      intro i hi
      have hb : (1#32).getLsbD i = decide (i = 0) := by
        have : ∀ i : Fin 32, (1#32).getLsbD i = decide ((i : Nat) = 0) := by decide
        exact this ⟨i, hi⟩
      rw [BitVec.getLsbD_and, hb]
      by_cases h : i = 0
      · subst h; cases m.getLsbD 0 <;> decide
      · cases m.getLsbD 0 <;> simp [h, hb]
    rw [this]
    cases m.getLsbD 0 <;> decide
  obtain ⟨so, r, v, bd, li⟩ := a
  cases so with
  | none => simp [SocketSetup.bind] at h
  | some fd =>
    refine ⟨fd, rfl, ?_⟩
    unfold SocketSetup.bind at h ⊢
    rw [b2] at h ⊢
    rw [b1] at h ⊢
    generalize mode.getLsbD 1 = m1 at h ⊢
    generalize mode.getLsbD 0 = m0 at h ⊢
    cases r <;> cases bd <;> cases li <;> cases v <;> cases m1 <;> simp [afInet, afInet6, bindAddr] at h ⊢

/-- If `bind` throws because `::bind` or `::listen` failed, the descriptor is closed and the object has none; in every other case a
descriptor the system gave is in the object. -/
theorem C80_bind_keeps (port : BitVec 16) (mode : BitVec 32) (a : Srv) (fd : Nat) (h : a.socket? = some fd) :
    ((bind port mode a).2.1 = some fd ∧ Ev.close fd ∉ (bind port mode a).2.2) ∨
      ((bind port mode a).1 = false ∧ (bind port mode a).2.1 = none ∧ (bind port mode a).2.2.count (.close fd) = 1) := by
  obtain ⟨so, r, v, bd, li⟩ := a
  simp only at h
  subst h
  unfold SocketSetup.bind
  generalize (mode &&& 2#32 != 0#32) = v6
  generalize (mode &&& 1#32 != 0#32) = v4
  cases r <;> cases v6 <;> cases v <;> cases bd <;> cases li <;> simp

/-- `bind` returns exactly if the system agrees to every call it makes: to `IPV6_V6ONLY` only when IPv6 is wanted. -/
theorem C80_bind_returns (port : BitVec 16) (mode : BitVec 32) (a : Srv) :
    (bind port mode a).1 = true ↔ a.socket?.isSome ∧ a.reuse = true ∧ (mode &&& 2#32 ≠ 0#32 → a.v6only = true) ∧ a.bind = true ∧ a.listen = true := by
  obtain ⟨so, r, v, bd, li⟩ := a
  unfold SocketSetup.bind
  have : (mode &&& 2#32 ≠ 0#32) ↔ (mode &&& 2#32 != 0#32) = true := by simp
  rw [this]
  generalize (mode &&& 2#32 != 0#32) = v6
  generalize (mode &&& 1#32 != 0#32) = v4
  cases so <;> cases r <;> cases v6 <;> cases v <;> cases bd <;> cases li <;> simp
example : (bind 80 3#32 ⟨some 5, true, true, true, true⟩).1 = true := by decide

/-- Finding: with neither family allowed (`mode` 0) `bind` listens on IPv4 as if it were allowed. -/
theorem C80_finding_no_mode (port : BitVec 16) (a : Srv) : bind port 0#32 a = bind port 1#32 a := rfl

/-- `accept` returns exactly if a connection was taken and, if an address is wanted, it is an IPv4 or IPv6 address of the right length,
which the object then holds; a descriptor the system gave is in the client whatever happens. -/
theorem C80_accept (fd? : Option Nat) (addr : Option Addr) :
    (accept fd? addr).2.1 = fd? ∧
    ((accept fd? addr).1 = true ↔ fd?.isSome = true ∧
      ∀ a, addr = some a → (a.sa = 2 ∧ a.addrlen = 16 ∨ a.sa = 10 ∧ a.addrlen = 28) ∧
        (accept fd? addr).2.2 = some { a with family := a.sa }) := by
  cases addr with
  | none => simp [accept]
  | some a =>
    simp only [accept, Addr.verify, afInet, afInet6]
    by_cases h1 : a.addrlen = 16 ∧ a.sa = 2
    · simp [h1]
    · by_cases h2 : a.addrlen = 28 ∧ a.sa = 10
      · simp [h2]
      · simp only [h1, h2, if_false]
        simp only [Bool.false_eq_true, false_iff, true_and]
        rintro ⟨_, h⟩
        have := (h a rfl).1
        omega

/-- `waitForClose` of an open socket returns exactly if the sending side could be shut down and the peer closed without sending
anything more. -/
theorem C80_waitForClose (fd : Nat) (sh : Bool) (r : Res Nat) :
    waitForClose none sh r = true ∧ (waitForClose (some fd) sh r = true ↔ sh = true ∧ r = .ok 0) := by
  refine ⟨rfl, ?_⟩
  cases sh <;> cases r <;> simp [waitForClose]

/-- A time limit of `msec` ≥ 0 is accepted and read back as `msec`, up to the precision of the kernel: never less, and more by less
than its tick. -/
theorem C80_timeout (tick : Int) (k : Int × Int → Option (Int × Int)) (hk : Timer tick k) (msec : Int) (h : 0 ≤ msec)
    (hb : msec + tick < 2 ^ 31) (ht : 0 ≤ tick) :
    ∃ t, setTimeout k msec = .ok t ∧ msec ≤ getTimeout t ∧ (getTimeout t - msec) * 1000 < tick + 1000 := by
  obtain ⟨h1, h2, h3, h4⟩ := C80_time msec h
  obtain ⟨s', u', e, g1, g2, g3, g4, g5⟩ := hk.stores _ _ h2 h3 h4
  have hd : u'.tdiv 1000 = u' / 1000 := Int.tdiv_eq_ediv_of_nonneg g2
  refine ⟨(s', u'), by rw [setTimeout, show timeval msec = ((timeval msec).1, (timeval msec).2) from rfl, e], ?_⟩
  have hg : getTimeout (s', u') = s' * 1000 + u' / 1000 := by
    unfold getTimeout
    rw [hd]
    refine Int.bmod_eq_of_le ?_ ?_
    · simp only [Nat.reducePow, Int.cast_ofNat_Int]; omega
    · simp only [Nat.reducePow, Int.cast_ofNat_Int]; omega
  rw [hg]
  omega

/-- With a kernel precise to the microsecond it is read back exactly. -/
theorem C80_timeout_exact (k : Int × Int → Option (Int × Int)) (hk : Timer 1 k) (msec : Int) (h : 0 ≤ msec)
    (hb : msec + 1 < 2 ^ 31) : ∃ t, setTimeout k msec = .ok t ∧ getTimeout t = msec := by
  obtain ⟨h1, h2, h3, h4⟩ := C80_time msec h
  obtain ⟨s', u', e, g1, g2, g3, g4, g5⟩ := hk.stores _ _ h2 h3 h4
  have hd : u'.tdiv 1000 = u' / 1000 := Int.tdiv_eq_ediv_of_nonneg g2
  refine ⟨(s', u'), by rw [setTimeout, show timeval msec = ((timeval msec).1, (timeval msec).2) from rfl, e], ?_⟩
  unfold getTimeout
  rw [hd, Int.bmod_eq_of_le]
  · omega
  · simp only [Nat.reducePow, Int.cast_ofNat_Int]; omega
  · simp only [Nat.reducePow, Int.cast_ofNat_Int]; omega

/-- A negative time that is not a whole number of seconds is refused. -/
theorem C80_timeout_negative (tick : Int) (k : Int × Int → Option (Int × Int)) (hk : Timer tick k) (msec : Int) (h : msec < 0)
    (hm : msec.tmod 1000 ≠ 0) : setTimeout k msec = .throw := by
  have hn : msec.tmod 1000 < 0 := by
    have := Int.neg_tmod (a := -msec) (b := 1000)
    rw [Int.neg_neg] at this
    have h2 : 0 ≤ (-msec).tmod 1000 := Int.tmod_nonneg _ (by omega)
    omega
  rw [setTimeout, timeval, hk.refuses _ _ (.inl (by omega))]

theorem byte_at (p i : Nat) : (UInt8.ofNat (p / 256 ^ i)).toNat = p / 256 ^ i % 256 := by simp

/-- Finding: `setLinger` gives the kernel the bytes of a pointer: the two numbers it sees are the halves of an address on the
stack, whatever the arguments. -/
theorem C80_finding_linger (p : BitVec 64) (onoff linger : BitVec 16) :
    lingerOf (setLinger p onoff linger) = (p.toNat % 2 ^ 32, p.toNat / 2 ^ 32) := by
  have hp := p.isLt
  have : setLinger p onoff linger = [UInt8.ofNat (p.toNat / 256 ^ 0), UInt8.ofNat (p.toNat / 256 ^ 1),
      UInt8.ofNat (p.toNat / 256 ^ 2), UInt8.ofNat (p.toNat / 256 ^ 3), UInt8.ofNat (p.toNat / 256 ^ 4),
      UInt8.ofNat (p.toNat / 256 ^ 5), UInt8.ofNat (p.toNat / 256 ^ 6), UInt8.ofNat (p.toNat / 256 ^ 7)] := rfl
  rw [this, lingerOf]
  simp only [List.take_succ_cons, List.take_zero, List.drop_succ_cons, List.drop_zero, le32, List.getElem?_cons_zero,
    List.getElem?_cons_succ, Option.getD_some, byte_at]
  generalize p.toNat = q at *
  simp only [Nat.reducePow] at *
  rw [Prod.mk.injEq]
  omega

/-! ## Cases -/

example : (connect ⟨none, true⟩ 500 ⟨some 7, true, .inProgress, .ok 1, some 0, true⟩) = (true, ⟨some 7, true⟩) := by decide

example : Timer 4000 (fun t => if 0 ≤ t.2 ∧ t.2 < 1000000 then
    some ((t.1 * 1000000 + (t.2 + 3999) / 4000 * 4000) / 1000000, (t.1 * 1000000 + (t.2 + 3999) / 4000 * 4000) % 1000000)
    else none) where
  stores s u hs h0 h1 := by
    refine ⟨_, _, if_pos ⟨h0, h1⟩, ?_, ?_, ?_, ?_, ?_⟩ <;> omega
  refuses s u h := by
    simp
    omega

example : (bind 8080#16 3#32 ⟨some 4, true, true, true, true⟩).1 = true ∧
    (bind 8080#16 3#32 ⟨some 4, true, true, true, false⟩).2.1 = none := by decide

/-- Lingering is switched on although it should be off. -/
example : (lingerOf (setLinger 0x7ffd12345678#64 0 0)).1 ≠ 0 := by decide

end Verif.Props.SocketSetup

#print axioms Verif.Props.SocketSetup.C80_connect
#print axioms Verif.Props.SocketSetup.C80_bind_partial
#print axioms Verif.Props.SocketSetup.C80_timeout
#print axioms Verif.Props.SocketSetup.C80_finding_linger
#print axioms Verif.Props.SocketSetup.C80_bind_returns
