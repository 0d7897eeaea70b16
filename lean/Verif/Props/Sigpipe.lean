import Verif.Model.Sigpipe

/-!
# C157: writing to a connection that is gone
-/
set_option linter.unusedSimpArgs false

namespace Verif.Props.Sigpipe
open Verif.Sigpipe
open Verif.PartialIO (wrapInt subSize)

/-- The answers as those of C54, for a process that is not killed: that the other end is gone is an error like others. -/
def plainAns : Ans → Verif.PartialIO.Ans
  | .move k => .move k
  | .eintr => .eintr
  | _ => .error

/-- The connection as a device of C54. -/
def plain (c : Conn) : Verif.PartialIO.Dev := ⟨c.out, [], fun i => plainAns (c.ans i), c.calls⟩

/-- The outcomes as those of C54. -/
def plainSent : Sent → Verif.PartialIO.Outcome
  | .done => .done
  | .running => .running
  | .ub => .ub
  | _ => .failed

theorem wrapInt_neg_one : wrapInt 32 (-1) = -1 := by decide

theorem write_move (c : Conn) (k : Nat) (bytes : List UInt8) (h : c.ans c.calls = .move k) : (plain c).write bytes =
    (((min k bytes.length : Nat) : Int), false, plain { c with out := c.out ++ bytes.take (min k bytes.length), calls := c.calls + 1 }) := by
  simp [Verif.PartialIO.Dev.write, plain, h, plainAns]

theorem loop_plain (disp : Disp) (hd : disp ≠ .dfl) (fuel : Nat) (buf : List UInt8) (p : Int) (size : Nat) (c : Conn) :
    Verif.PartialIO.Socket.writeLoop fuel buf p size (plain c) =
      (plainSent (writeLoop disp fuel buf p size c).1, plain (writeLoop disp fuel buf p size c).2) ∧
    (writeLoop disp fuel buf p size c).1 ≠ .killed := by
  induction fuel generalizing p size c with
  | zero => exact ⟨rfl, by simp [writeLoop]⟩
  | succ fuel ih =>
    simp only [writeLoop, Verif.PartialIO.Socket.writeLoop]
    split
    · split
      · cases hc : c.ans c.calls with
        | gone =>
          simp only [Verif.PartialIO.Dev.write, plain, hc, plainAns, wrapInt_neg_one]
          simp [hd, plainSent]
        | error =>
          simp only [Verif.PartialIO.Dev.write, plain, hc, plainAns, wrapInt_neg_one]
          simp [plainSent]
        | eintr =>
          have := ih p size { c with calls := c.calls + 1 }
          simp only [Verif.PartialIO.Dev.write, plain, hc, plainAns, wrapInt_neg_one] at this ⊢
          simpa using this
        | move k =>
          rw [write_move c k _ hc]
          simp only
          split
          · rename_i h; simp at h
          · split
            · exact ⟨by simp [plainSent], by simp⟩
            · exact ih _ _ _
      · exact ⟨rfl, by simp⟩
    · exact ⟨rfl, by simp⟩

/-- C157: once the signal is not at its default, `Socket::write` does exactly what C54 says for a system whose call fails when the other end is gone:
the process is not killed. -/
theorem C157_write (disp : Disp) (hd : disp ≠ .dfl) (fuel : Nat) (buf : List UInt8) (c : Conn) :
    Verif.PartialIO.Socket.write fuel buf (plain c) =
      (plainSent (writeLoop disp fuel buf 0 buf.length c).1, plain (writeLoop disp fuel buf 0 buf.length c).2) ∧
    (writeLoop disp fuel buf 0 buf.length c).1 ≠ .killed := loop_plain disp hd fuel buf 0 buf.length c

/-- The program does not make the signal deadly itself. -/
def Tame (as : List Act) : Prop := ∀ a ∈ as, a ≠ .signal .dfl

theorem run_tame (as : List Act) (ht : Tame as) (p : Proc) (hp : p.alive = true) (hd : p.disp ≠ .dfl) :
    (run p as).alive = true ∧ (run p as).disp ≠ .dfl ∧ (run p as).sent.length = p.sent.length + (as.filter (fun a => a matches .write ..)).length := by
  induction as generalizing p with
  | nil => exact ⟨hp, hd, rfl⟩
  | cons a as ih =>
    have ht' : Tame as := fun x hx => ht x (List.mem_cons_of_mem _ hx)
    simp only [run, hp, if_true]
    cases a with
    | init => simpa [step] using ih ht' (step p .init) hp (by simp [step])
    | signal d =>
      have : d ≠ .dfl := fun h => ht (.signal d) List.mem_cons_self (by rw [h])
      simpa [step] using ih ht' (step p (.signal d)) hp this
    | write fuel buf c =>
      have := ih ht' (step p (.write fuel buf c)) (by simp [step, (C157_write p.disp hd fuel buf c).2]) hd
      simpa [step, Nat.add_assoc, Nat.add_comm] using this
    | exec => simpa [step] using ih ht' (step p .exec) hp hd

theorem run_append (as bs : List Act) (p : Proc) (h : (run p as).alive = true) : run p (as ++ bs) = run (run p as) bs := by
  induction as generalizing p with
  | nil => rfl
  | cons a as ih =>
    simp only [List.cons_append, run] at h ⊢
    split
    · rename_i hp; rw [if_pos hp] at h; exact ih _ h
    · rename_i hp; rw [if_neg hp] at h; exact absurd h hp

theorem run_quiet (as : List Act) (hq : ∀ a ∈ as, ¬ (a matches .write ..)) (p : Proc) (hp : p.alive = true) : (run p as).alive = true := by
  induction as generalizing p with
  | nil => exact hp
  | cons a as ih =>
    simp only [run, hp, if_true]
    refine ih (fun x hx => hq x (List.mem_cons_of_mem _ hx)) _ ?_
    cases a with
    | write => exact absurd rfl (hq _ List.mem_cons_self)
    | _ => exact hp

theorem sent_quiet (as : List Act) (hq : ∀ a ∈ as, ¬ (a matches .write ..)) (p : Proc) (hp : p.alive = true) : (run p as).sent = p.sent := by
  induction as generalizing p with
  | nil => rfl
  | cons a as ih =>
    simp only [run, hp, if_true]
    cases a with
    | write => exact absurd rfl (hq _ List.mem_cons_self)
    | _ => exact ih (fun x hx => hq x (List.mem_cons_of_mem _ hx)) _ hp

/-- C157: whatever disposition a program was started with and whatever its static objects did before, as long as they did not write to a socket: it
survives all its writes to connections that are gone, each write comes to an end of its own, if the program does not set the signal to the default. -/
theorem C157_survives (d : Disp) (before after : List Act) (hb : ∀ a ∈ before, ¬ (a matches .write ..)) (ha : Tame after) :
    let p := run (Proc.start d) (before ++ .init :: after)
    p.alive = true ∧ p.sent.length = (after.filter (fun a => a matches .write ..)).length := by
  intro p
  have h1 := run_quiet before hb (Proc.start d) rfl
  have h2 := sent_quiet before hb (Proc.start d) rfl
  have h3 : p = run (step (run (Proc.start d) before) .init) after := by
    show run (Proc.start d) (before ++ .init :: after) = _
    rw [run_append _ _ _ h1]
    simp [run, h1]
  have := run_tame after ha (step (run (Proc.start d) before) .init) h1 (by simp [step])
  rw [h3]
  refine ⟨this.1, ?_⟩
  rw [this.2.2]
  have h4 : (step (run (Proc.start d) before) .init).sent = [] := h2
  simp [h4]

theorem gone_loop (disp : Disp) (fuel : Nat) (buf : List UInt8) (c : Conn) (hb : buf ≠ []) (hg : c.ans c.calls = .gone) :
    writeLoop disp (fuel + 1) buf 0 buf.length c = (if disp = .dfl then .killed else .failed, { c with calls := c.calls + 1 }) := by
  have h0 : buf.length > 0 := List.length_pos_iff.2 hb
  have hw : wrapInt 32 ((min 0x7fffffff buf.length : Nat) : Int) = ((min 0x7fffffff buf.length : Nat) : Int) := by
    simp only [wrapInt]
    exact Int.bmod_eq_of_le (by omega) (by omega)
  simp only [writeLoop, h0, if_true, hg]
  have hm : (min 2147483647 (buf.length : Int)) = ((min 2147483647 buf.length : Nat) : Int) := by omega
  rw [hm, hw, if_pos (by refine ⟨Int.le_refl 0, by omega, ?_⟩; simp only [Int.toNat_natCast]; simp; omega)]

/-- C157: a write of at least one byte to a connection that is gone ends in an exception and sends nothing. -/
theorem C157_gone (disp : Disp) (hd : disp ≠ .dfl) (fuel : Nat) (buf : List UInt8) (hb : buf ≠ []) (c : Conn) (hg : c.ans c.calls = .gone) :
    (writeLoop disp (fuel + 1) buf 0 buf.length c).1 = .failed ∧ (writeLoop disp (fuel + 1) buf 0 buf.length c).2.out = c.out := by
  simp [gone_loop _ _ _ _ hb hg, hd]

/-- C157, finding: a static object that writes to a socket that is gone before `it_` is constructed kills the process; their order is unspecified. -/
theorem C157_finding_static (fuel : Nat) (buf : List UInt8) (hb : buf ≠ []) (c : Conn) (hg : c.ans c.calls = .gone) (after : List Act) :
    (run (Proc.start .dfl) (.write (fuel + 1) buf c :: .init :: after)).alive = false := by
  simp [run, step, Proc.start, gone_loop _ _ _ _ hb hg]

/-- C157, finding: including the header replaces the handler a static object of the program has installed before. -/
theorem C157_finding_handler (d : Disp) : (run (Proc.start d) [.signal .handler, .init]).disp = .ign := by
  simp [run, step, Proc.start]

theorem started_ign (as : List Act) (hs : ∀ a ∈ as, ∀ d, a ≠ .signal d) (p : Proc) (hp : p.alive = true) (hd : p.disp = .ign) :
    ∃ l, (run p as).started = p.started ++ l ∧ (∀ x ∈ l, x = .ign) ∧ l.length = (as.filter (fun a => a matches .exec)).length := by
  induction as generalizing p with
  | nil => exact ⟨[], by simp [run], by simp, rfl⟩
  | cons a as ih =>
    have hs' : ∀ x ∈ as, ∀ d, x ≠ .signal d := fun x hx => hs x (List.mem_cons_of_mem _ hx)
    simp only [run, hp, if_true]
    cases a with
    | init => simpa [step] using ih hs' (step p .init) hp (by simp [step])
    | signal d => exact absurd rfl (hs _ List.mem_cons_self d)
    | write fuel buf c =>
      simpa [step] using ih hs' (step p (.write fuel buf c)) (by simp [step, (C157_write p.disp (by simp [hd]) fuel buf c).2]) hd
    | exec =>
      obtain ⟨l, h1, h2, h3⟩ := ih hs' (step p .exec) hp hd
      refine ⟨.ign :: l, ?_, ?_, ?_⟩
      · rw [h1]; simp [step, hd, execDisp]
      · intro x hx
        rcases List.mem_cons.1 hx with hx | hx
        · exact hx
        · exact h2 x hx
      · simp [h3]

/-- C157, finding: every program that is started from one that includes the header is started with the signal ignored, though the system would start
it with the default: it does not end when its reader does. -/
theorem C157_finding_child (d : Disp) (as : List Act) (hs : ∀ a ∈ as, ∀ d, a ≠ .signal d) :
    let p := run (Proc.start d) (.init :: as)
    p.started.length = (as.filter (fun a => a matches .exec)).length ∧ ∀ x ∈ p.started, x = .ign := by
  obtain ⟨l, h1, h2, h3⟩ := started_ign as hs (step (Proc.start d) .init) rfl rfl
  intro p
  have h0 : p = run (step (Proc.start d) .init) as := by simp [p, run, Proc.start]
  rw [h0, h1]
  exact ⟨by simpa [step, Proc.start] using h3, by simpa [step, Proc.start] using h2⟩

/-- The hypotheses of `C157_survives` are met by a program that writes twice to a connection that is gone after two bytes; both writes throw. -/
example : (run (Proc.start .dfl) ([.signal .handler] ++ .init :: [.write 9 [1, 2, 3] ⟨[], fun i => if i = 0 then .move 2 else .gone, 0⟩, .exec,
    .write 9 [4] ⟨[], fun _ => .gone, 0⟩])).sent = [.failed, .failed] := by decide

#print axioms C157_write
#print axioms C157_survives
#print axioms C157_gone
#print axioms C157_finding_static
#print axioms C157_finding_handler
#print axioms C157_finding_child

end Verif.Props.Sigpipe
