import Verif.Model.SocketServ

/-!
# C160: the server of the socket sample
-/
set_option linter.unusedSimpArgs false

namespace Verif.Props.SocketServ
open Verif.SocketServ

/-- A client that is accepted, has a well-formed address (if that is looked at) and sends `b` (nothing, if it closes). -/
def Fine (verbose : Bool) (v : Visit) (b : Bytes) : Prop :=
  v.ready = true ∧ v.fd.isSome = true ∧ (verbose = true → v.addr = true) ∧ v.send = true ∧ v.recv = true ∧ v.bytes = some b

/-- The lines for one client. -/
def lines (verbose : Bool) (b : Bytes) : List Line :=
  (if verbose then [.addr] else []) ++ [.got ((b.take 128).takeWhile (fun c => decide (c ≠ 0))) (min b.length 128)]

theorem pass_fine {verbose : Bool} {v : Visit} {b : Bytes} (h : Fine verbose v b) (w : World) :
    pass verbose v w = (true, { w with out := w.out ++ lines verbose b }) := by
  obtain ⟨h1, h2, h3, h4, h5, h6⟩ := h
  obtain ⟨fd, hf⟩ := Option.isSome_iff_exists.1 h2
  cases verbose
  · simp [pass, h1, hf, h4, h5, h6, lines, shown, Nat.min_comm]
  · simp [pass, h1, hf, h3 rfl, h4, h5, h6, lines, shown, Nat.min_comm]

/-- C160: clients that behave are served one after another: for each its line (and address) is printed, with the first bytes it sent, at most 128 and up
to the first NUL; and the server goes on waiting with no other descriptor open than before. -/
theorem C160_served {verbose : Bool} {sd : Nat} (vs : List (Visit × Bytes)) (h : ∀ x ∈ vs, Fine verbose x.1 x.2) (w : World) :
    serve verbose sd (vs.map (·.1)) w = (true, { w with out := w.out ++ (vs.map (fun x => lines verbose x.2)).flatten }) := by
  induction vs generalizing w with
  | nil => simp [serve]
  | cons x vs ih =>
    simp only [List.map_cons, serve, pass_fine (h x List.mem_cons_self)]
    rw [ih (fun y hy => h y (List.mem_cons_of_mem _ hy))]
    simp

theorem pass_fds {verbose : Bool} {v : Visit} {w : World} : (pass verbose v w).2.fds = w.fds := by
  simp only [pass]
  split
  · rfl
  · split
    · rfl
    · simp only
      split
      · simp
      · split
        · cases verbose <;> simp
        · split
          · cases verbose <;> simp
          · split <;> cases verbose <;> simp

/-- C160: whatever happens, no descriptor is lost: while the server waits only its own is open, and none is after an exception has ended it. -/
theorem C160_no_leak {verbose : Bool} {sd : Nat} (vs : List Visit) (out : List Line) :
    (serve verbose sd vs ⟨[sd], out⟩).2.fds = if (serve verbose sd vs ⟨[sd], out⟩).1 then [sd] else [] := by
  induction vs generalizing out with
  | nil => simp [serve]
  | cons v vs ih =>
    have hf := pass_fds (verbose := verbose) (v := v) (w := ⟨[sd], out⟩)
    rcases hr : pass verbose v ⟨[sd], out⟩ with ⟨g, fds, out'⟩
    rw [hr] at hf
    simp only at hf
    subst hf
    cases g
    · have e : serve verbose sd (v :: vs) ⟨[sd], out⟩ = (false, ⟨[], out'⟩) := by simp [serve, hr]
      rw [e]; rfl
    · have e : serve verbose sd (v :: vs) ⟨[sd], out⟩ = serve verbose sd vs ⟨[sd], out'⟩ := by simp [serve, hr]
      rw [e]; exact ih out'

theorem pass_iff {verbose : Bool} {v : Visit} {w : World} : (pass verbose v w).1 = true ↔ ∃ b, Fine verbose v b := by
  constructor
  · intro h
    simp only [pass] at h
    obtain ⟨ready, fd, addr, send, recv, bytes⟩ := v
    cases ready <;> cases fd <;> cases addr <;> cases send <;> cases recv <;> cases bytes <;> cases verbose <;> simp_all [Fine]
  · rintro ⟨b, h⟩
    rw [pass_fine h]

/-- C160: the server still waits exactly if every client so far behaved. -/
theorem C160_alive {verbose : Bool} {sd : Nat} (vs : List Visit) (w : World) :
    (serve verbose sd vs w).1 = true ↔ ∀ v ∈ vs, ∃ b, Fine verbose v b := by
  induction vs generalizing w with
  | nil => simp [serve]
  | cons v vs ih =>
    have hp := pass_iff (verbose := verbose) (v := v) (w := w)
    simp only [serve]
    generalize pass verbose v w = r at hp
    obtain ⟨g, w'⟩ := r
    simp only at hp
    cases g
    · constructor
      · intro h; cases h
      · intro h; exact absurd (hp.2 (h v List.mem_cons_self)) (by simp)
    · simp only [List.mem_cons, forall_eq_or_imp, ih w']
      exact ⟨fun h => ⟨hp.1 rfl, h⟩, fun h => h.2⟩

/-- C160, finding: one client that connects and sends nothing within the time limit, or resets the connection, ends the server; all others that come
later are not served. -/
theorem C160_finding_one_client (verbose : Bool) (sd fd : Nat) (vs later : List Visit) (w : World) :
    (serve verbose sd (vs ++ ⟨true, some fd, true, true, true, none⟩ :: later) w).1 = false := by
  cases h : (serve verbose sd (vs ++ ⟨true, some fd, true, true, true, none⟩ :: later) w).1 with
  | false => rfl
  | true =>
    obtain ⟨b, hb⟩ := (C160_alive _ _).1 h ⟨true, some fd, true, true, true, none⟩ (by simp)
    exact absurd hb.2.2.2.2.2 (by simp)

/-- The hypotheses of `C160_served` are met by two clients, the second of which sends a NUL. -/
example : serve true 3 [⟨true, some 4, true, true, true, some [97, 98]⟩, ⟨true, some 4, true, true, true, some [99, 0, 100]⟩] ⟨[3], []⟩ =
    (true, ⟨[3], [.addr, .got [97, 98] 2, .addr, .got [99] 3]⟩) := by decide

#print axioms C160_served
#print axioms C160_no_leak
#print axioms C160_alive
#print axioms C160_finding_one_client

end Verif.Props.SocketServ
