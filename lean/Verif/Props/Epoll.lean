import Verif.Model.Epoll
import Verif.Spec.Epoll
set_option linter.unusedSimpArgs false
/-!
# C104: queryAccept with epoll
-/
namespace Verif.Props.Epoll
open Verif.Epoll Verif.Spec.Epoll

theorem block_waits (r s : Option Nat) (l : Nat) :
    ∃ v t, block r (some l) s = some (v, t) ∧ Waits r s l (waitRet v) t := by
  have hb : ∀ x y : Nat, Before (some x) y ↔ x < y := fun x y => by simp [Before]
  have hn : ∀ y, ¬ Before none y := fun y => by simp [Before]
  have yb : ∀ x y : Nat, By (some x) y ↔ x ≤ y := fun x y => by simp [By]
  have yn : ∀ y, ¬ By none y := fun y => by simp [By]
  unfold block
  rcases r with _ | r <;> rcases s with _ | s <;> simp only [earlier]
  · refine ⟨.ok 0, l, by simp, .timeout (yn _) (hn _)⟩
  · by_cases h : l ≤ s
    · refine ⟨.ok 0, l, ?_, .timeout (yn _) (by rw [hb]; omega)⟩
      rw [show min l s = l by omega]; simp
    · refine ⟨.error EINTR, s, ?_, .signal s rfl (by omega) (yn _)⟩
      rw [show min l s = s by omega]; simp [show l ≠ s by omega]
  · by_cases h : r ≤ l
    · refine ⟨.ok 1, r, ?_, .ready r rfl h (hn _)⟩
      rw [show min r l = r by omega]; simp
    · refine ⟨.ok 0, l, ?_, .timeout (by rw [yb]; omega) (hn _)⟩
      rw [show min r l = l by omega]; simp [show r ≠ l by omega]
  · by_cases h : r ≤ min l s
    · refine ⟨.ok 1, r, ?_, .ready r rfl (by omega) (by rw [hb]; omega)⟩
      rw [show min r (min l s) = r by omega]; simp
    · by_cases h' : l ≤ s
      · refine ⟨.ok 0, l, ?_, .timeout (by rw [yb]; omega) (by rw [hb]; omega)⟩
        rw [show min r (min l s) = l by omega]; simp [show r ≠ l by omega]
      · refine ⟨.error EINTR, s, ?_, .signal s rfl (by omega) (by rw [yb]; omega)⟩
        rw [show min r (min l s) = s by omega]; simp [show r ≠ s by omega, show l ≠ s by omega]

theorem epollWait_in (w : World) (m : Int) :
    epollWait w EPOLLIN m = block w.readable (if m < 0 then none else some m.toNat) w.signal := by
  unfold epollWait
  simp [EPOLLIN, EPOLLOUT]
  cases w.readable <;> rfl

theorem epollWait_out (w : World) (m : Int) :
    epollWait w EPOLLOUT m = block w.writable (if m < 0 then none else some m.toNat) w.signal := by
  unfold epollWait
  simp [EPOLLIN, EPOLLOUT]
  cases w.writable <;> rfl

theorem epollWait_eq (w : World) (c : Bool) (m : Int) : epollWait w (if c then EPOLLIN else EPOLLOUT) m =
    block (if c then w.readable else w.writable) (if m < 0 then none else some m.toNat) w.signal := by
  cases c
  · exact epollWait_out w m
  · exact epollWait_in w m

/-- For a time of at least a millisecond: the answer is that of waiting for the socket to be readable (or writable) within this
time, and it comes in time. -/
theorem C104_waits (fd efd : Nat) (msec : Int) (h : 1 ≤ msec) (c : Bool) (a : Ans) (w : World) (hc : a.create = .ok efd)
    (ha : a.add = .ok ()) :
    ∃ o v, queryAcceptNoThrow (some fd) msec c a w = some o ∧ o.ret = .ok v ∧
      Waits (if c then w.readable else w.writable) w.signal msec.toNat v o.time := by
  obtain ⟨v, t, h1, h2⟩ := block_waits (if c then w.readable else w.writable) w.signal msec.toNat
  have hm : waitMsec msec = msec := by unfold waitMsec; rw [if_neg (by omega), if_neg (by omega)]
  have hw : epollWait w (if c then EPOLLIN else EPOLLOUT) (waitMsec msec) = some (v, t) := by
    rw [epollWait_eq, hm, if_neg (show ¬ msec < 0 by omega), h1]
  exact ⟨_, _, by simp only [queryAcceptNoThrow, hc, ha, hw]; rfl, rfl, h2⟩

/-- `Waits` leaves no choice, so `C104_waits` says what is returned and when. -/
theorem C104_waits_unique (r s : Option Nat) (l : Nat) (v v' : Int) (t t' : Nat) (h : Waits r s l v t) (h' : Waits r s l v' t') :
    v = v' ∧ t = t' := by
  cases h <;> cases h' <;> simp_all [By, Before] <;> omega

/-- The version with `select` gives the same answer in the same time, for the descriptors it can take. -/
theorem C104_same (fd efd : Nat) (msec : Int) (h : 1 ≤ msec) (c : Bool) (a : Ans) (w : World) (hc : a.create = .ok efd)
    (ha : a.add = .ok ()) (hf : fd < 1024) :
    ∃ o v, queryAcceptNoThrow (some fd) msec c a w = some o ∧ o.ret = .ok v ∧
      selectAccept (some fd) msec c w = some (v, o.time) := by
  obtain ⟨o, v, h1, h2, h3⟩ := C104_waits fd efd msec h c a w hc ha
  refine ⟨o, v, h1, h2, ?_⟩
  obtain ⟨v', t', e1, e2⟩ := block_waits (if c then w.readable else w.writable) w.signal msec.toNat
  obtain ⟨e3, e4⟩ := C104_waits_unique _ _ _ _ _ _ _ h3 e2
  have ht : (SocketSetup.timeval msec).1 = msec / 1000 ∧ (SocketSetup.timeval msec).2 = msec % 1000 * 1000 := by
    simp only [SocketSetup.timeval]
    exact ⟨Int.tdiv_eq_ediv_of_nonneg (by omega), by rw [Int.tmod_eq_emod_of_nonneg (by omega)]⟩
  have hs : select w c (SocketSetup.timeval msec) = some (v', t') := by
    unfold select
    rw [ht.1, ht.2, if_neg (by omega), ← e1]
    congr 2
    omega
  unfold selectAccept
  simp only [SocketSetup.FD_SETSIZE, ge_iff_le, show ¬ 1024 ≤ fd by omega, if_false, hs]
  rw [e3, e4]

/-- However the call ends, by a number or an exception, the instance it made is closed, last of all, and if the socket was
entered it is removed before. -/
theorem C104_closed (fd efd : Nat) (msec : Int) (c : Bool) (a : Ans) (w : World) (o : Out) (hc : a.create = .ok efd)
    (h : queryAcceptNoThrow (some fd) msec c a w = some o) :
    ∃ l, o.evs = .create efd :: l ++ [.close efd] ∧ (∀ e, .close e ∉ l) ∧ (∀ e, .create e ∉ l) ∧
      (a.add = .ok () → ∃ l', l = l' ++ [.del efd fd]) := by
  unfold queryAcceptNoThrow at h
  simp only [hc] at h
  cases ha : a.add with
  | error e =>
    simp only [ha, Option.some.injEq] at h
    subst h
    exact ⟨[_], rfl, by simp, by simp, by simp⟩
  | ok u =>
    simp only [ha] at h
    split at h
    · cases h
    · simp only [Option.some.injEq] at h
      subst h
      exact ⟨[_, _, _], rfl, by simp, by simp, fun _ => ⟨[_, _], rfl⟩⟩

/-- Without a socket, or without an instance, nothing is done and the error is returned; `queryAccept` throws. -/
theorem C104_refused (fd : Nat) (msec : Int) (c : Bool) (a : Ans) (w : World) :
    queryAcceptNoThrow none msec c a w = some ⟨.ok (-9), [], 0⟩ ∧ queryAccept none msec c a w = some .throw ∧
      ∀ e, a.create = .error e → queryAcceptNoThrow (some fd) msec c a w = some ⟨.ok (-e), [], 0⟩ ∧
        (0 < e → queryAccept (some fd) msec c a w = some .throw) := by
  refine ⟨rfl, rfl, fun e he => ?_⟩
  have : queryAcceptNoThrow (some fd) msec c a w = some ⟨.ok (-e), [], 0⟩ := by simp [queryAcceptNoThrow, he]
  refine ⟨this, fun hp => ?_⟩
  simp [queryAccept, this, hp]

/-- `queryAccept` is true exactly if the socket is ready in time, false exactly at the end of the time, and throws exactly at a
signal. -/
theorem C104_queryAccept (fd efd : Nat) (msec : Int) (h : 1 ≤ msec) (c : Bool) (a : Ans) (w : World) (hc : a.create = .ok efd)
    (ha : a.add = .ok ()) : ∃ v t, Waits (if c then w.readable else w.writable) w.signal msec.toNat v t ∧
      queryAccept (some fd) msec c a w = some (if v = 1 then .ok true else if v = 0 then .ok false else .throw) := by
  obtain ⟨o, v, h1, h2, h3⟩ := C104_waits fd efd msec h c a w hc ha
  refine ⟨v, o.time, h3, ?_⟩
  simp only [queryAccept, h1, h2, Res.ok_bind]
  generalize msec.toNat = l at h3
  generalize o.time = t at h3
  cases h3 <;> simp

/-- Finding: with the time 0 the version with `select` answers at once; with epoll the call waits without limit, for ever if the
socket is not used. -/
theorem C104_finding_zero (fd efd : Nat) (c : Bool) (a : Ans) (hc : a.create = .ok efd) (ha : a.add = .ok ()) (hf : fd < 1024) :
    queryAcceptNoThrow (some fd) 0 c a ⟨none, none, none⟩ = none ∧ selectAccept (some fd) 0 c ⟨none, none, none⟩ = some (0, 0) := by
  constructor
  · simp only [queryAcceptNoThrow, hc, ha, epollWait_eq]
    cases c <;> rfl
  · simp only [selectAccept, SocketSetup.FD_SETSIZE, ge_iff_le, show ¬ 1024 ≤ fd by omega, if_false]
    cases c <;> rfl

/-- Finding: a negative time is refused by `select` (EINVAL, 22); with epoll -1 means not to wait at all, and any other to wait
without limit. -/
theorem C104_finding_negative (fd efd : Nat) (msec : Int) (h : msec < 0) (c : Bool) (a : Ans) (hc : a.create = .ok efd)
    (ha : a.add = .ok ()) (hf : fd < 1024) :
    selectAccept (some fd) msec c ⟨none, none, none⟩ = some (-22, 0) ∧
      (msec = -1 → ∃ o, queryAcceptNoThrow (some fd) msec c a ⟨none, none, none⟩ = some o ∧ o.ret = .ok 0 ∧ o.time = 0) ∧
      (msec ≠ -1 → queryAcceptNoThrow (some fd) msec c a ⟨none, none, none⟩ = none) := by
  refine ⟨?_, ?_, ?_⟩
  · have ht : (SocketSetup.timeval msec).1 < 0 ∨ (SocketSetup.timeval msec).2 < 0 := by
      simp only [SocketSetup.timeval]
      have := Int.mul_tdiv_add_tmod msec 1000
      omega
    simp only [selectAccept, SocketSetup.FD_SETSIZE, ge_iff_le, show ¬ 1024 ≤ fd by omega, if_false, select, if_pos ht]
    rfl
  · rintro rfl
    simp only [queryAcceptNoThrow, hc, ha, epollWait_eq]
    cases c <;> exact ⟨_, rfl, rfl, rfl⟩
  · intro hm
    have e : waitMsec msec = msec := by unfold waitMsec; rw [if_neg (by omega), if_neg hm]
    simp only [queryAcceptNoThrow, hc, ha, epollWait_eq, e, if_pos h]
    cases c <;> rfl

/-- Finding: `queryAcceptNoThrow` throws if the socket cannot be entered. -/
theorem C104_finding_throws (fd efd e : Nat) (msec : Int) (c : Bool) (a : Ans) (w : World) (hc : a.create = .ok efd)
    (ha : a.add = .error e) : ∃ o, queryAcceptNoThrow (some fd) msec c a w = some o ∧ o.ret = .throw := by
  simp only [queryAcceptNoThrow, hc, ha]
  exact ⟨_, rfl, rfl⟩

/-- What is asked of the kernel and in which order: `EPOLLIN` is 1 and `EPOLLOUT` 4 (sys/epoll.h).  A refused registration takes no time; the
version with `select` refuses a closed socket at once. -/
theorem C104_calls (fd efd : Nat) (msec : Int) (h : 1 ≤ msec) (c : Bool) (a : Ans) (w : World) (hc : a.create = .ok efd) :
    (a.add = .ok () → ∃ o, queryAcceptNoThrow (some fd) msec c a w = some o ∧
      o.evs = [.create efd, .add efd fd (if c then 1 else 4), .wait efd msec, .del efd fd, .close efd]) ∧
    (∀ e, a.add = .error e → ∃ o, queryAcceptNoThrow (some fd) msec c a w = some o ∧ o.time = 0 ∧
      o.evs = [.create efd, .add efd fd (if c then 1 else 4), .close efd]) ∧
    selectAccept none msec c w = some (-9, 0) := by
  have hm : waitMsec msec = msec := by unfold waitMsec; rw [if_neg (by omega), if_neg (by omega)]
  refine ⟨fun ha => ?_, fun e ha => ?_, rfl⟩
  · obtain ⟨o, v, h1, -, -⟩ := C104_waits fd efd msec h c a w hc ha
    refine ⟨o, h1, ?_⟩
    simp only [queryAcceptNoThrow, hc, ha] at h1
    cases hw : epollWait w (if c = true then EPOLLIN else EPOLLOUT) (waitMsec msec) with
    | none => rw [hw] at h1; cases h1
    | some q =>
      rw [hw] at h1
      obtain ⟨r, t⟩ := q
      simp only [Option.some.injEq] at h1
      rw [← h1, hm]
      cases c <;> rfl
  · simp only [queryAcceptNoThrow, hc, ha]
    exact ⟨_, rfl, rfl, by cases c <;> rfl⟩

/-! ## Cases -/

example : ∃ o, queryAcceptNoThrow (some 2000) 500 true ⟨.ok 7, .ok ()⟩ ⟨some 300, none, some 400⟩ = some o ∧ o.ret = .ok 1 ∧
    o.time = 300 ∧ o.evs = [.create 7, .add 7 2000 1, .wait 7 500, .del 7 2000, .close 7] := ⟨_, rfl, rfl, rfl, rfl⟩
example : queryAccept (some 5) 500 false ⟨.ok 7, .ok ()⟩ ⟨some 300, none, some 400⟩ = some .throw := by decide
example : queryAccept (some 5) 350 false ⟨.ok 7, .ok ()⟩ ⟨some 300, none, some 400⟩ = some (.ok false) := by decide
example : Waits (some 300) (some 400) 500 1 300 := .ready 300 rfl (by decide) (by simp [Before])

#print axioms C104_waits
#print axioms C104_same
#print axioms C104_closed
#print axioms C104_finding_zero

end Verif.Props.Epoll
