import Verif.Props.LineStream
import Verif.Model.LineFail

/-!
# C166: calling `next` of a line stream on after an exception

The model is `Model/LineStream`, which keeps the object after an exception; `Model/LineFail` adds readers that throw.
-/
set_option linter.unusedSimpArgs false

namespace Verif.Props.LineRecover
open Verif.LineStream Verif.Stream Verif.Spec.Stream Verif.Spec.LineStream
open Verif.Props.LineStream (Reach)

/-- An exception of the loop: the end was noted, or the object is such that the loop throws again and changes nothing.  The first of the two happens
exactly if there is no line end within the first `maxLineSize * 2` bytes. -/
theorem loop_throw (fuel : Nat) : ∀ (s s' : LS), Inv s → s.eof = false → nextLoop fuel s = .ok (.throw, s') →
    (s'.eof = true ∧ 10 ∉ (pending s).take (s.maxLineSize * 2)) ∨
    (s'.eof = false ∧ pending s' = pending s ∧ 10 ∈ (pending s).take (s.maxLineSize * 2) ∧ ∀ f, nextLoop (f + 1) s' = .ok (.throw, s')) := by
  induction fuel with
  | zero => intro s s' _ _ h; rw [nextLoop] at h; cases h
  | succ fuel ih =>
    intro s s' hi he h
    have hn := hi.next
    have hsz := hi.size
    have hfirst := h
    rw [nextLoop] at h
    rcases memchr_spec s.buf 10 (s.bufSize - s.next) s.next (by omega) with ⟨h1, h2⟩ | ⟨q, a, b, h1, h2, h3, h4⟩
    · rw [h1] at h
      simp only [Res.ok_bind] at h
      obtain ⟨s1, e1, i1, m1, r1, eo1, n1, b1, l1, t1⟩ := compact_spec s hi
      rw [e1] at h
      simp only [Res.ok_bind] at h
      have hw : 10 ∉ s1.buf.take s1.bufSize := by rw [t1]; exact h2
      have hp : pending s = s1.buf.take s1.bufSize ++ s1.reader.rest := by rw [pending, t1, r1]
      have hl1 : (s1.buf.take s1.bufSize).length = s1.bufSize := by rw [List.length_take]; have := i1.size; omega
      obtain ⟨a1, a2⟩ := amount_le s1.reader (s1.buf.length - s1.bufSize)
      have i1s := i1.size
      have ht : (s1.reader.rest.take (s1.reader.amount (s1.buf.length - s1.bufSize))).length =
        s1.reader.amount (s1.buf.length - s1.bufSize) := by rw [List.length_take]; omega
      rw [readSome, store_ok _ _ _ (by omega)] at h
      simp only [Res.ok_bind, Res.pure_eq] at h
      by_cases hz : s1.reader.amount (s1.buf.length - s1.bufSize) = 0
      · left
        rw [if_pos hz, atEnd] at h
        constructor
        · simp only at h
          split at h
          · cases h
          · split at h
            · cases h; rfl
            · cases h
        · rw [hp]
          rcases (amount_zero _ _).mp hz with hf | hf
          · have hfull : s1.bufSize = s.maxLineSize * 2 := by have := i1.len; rw [m1] at this; omega
            rw [← hfull, List.take_left' hl1]
            exact hw
          · rw [hf, List.append_nil]
            exact fun hmem => hw (List.mem_of_mem_take hmem)
      · rw [if_neg hz] at h
        have g := ih { s1 with
            buf := splice s1.buf s1.bufSize (s1.reader.rest.take (s1.reader.amount (s1.buf.length - s1.bufSize)))
            reader := s1.reader.next (s1.buf.length - s1.bufSize)
            bufSize := s1.bufSize + s1.reader.amount (s1.buf.length - s1.bufSize) } s'
          ⟨by simp only; rw [splice_length _ _ _ (by omega)]; exact i1.len, by simp only; omega,
            by simp only; rw [splice_length _ _ _ (by omega)]; omega⟩ (by simp only; rw [eo1, he]) h
        have hpp : pending { s1 with
            buf := splice s1.buf s1.bufSize (s1.reader.rest.take (s1.reader.amount (s1.buf.length - s1.bufSize)))
            reader := s1.reader.next (s1.buf.length - s1.bufSize)
            bufSize := s1.bufSize + s1.reader.amount (s1.buf.length - s1.bufSize) } = pending s := by
          rw [hp, pending, slice]
          simp only [n1, List.drop_zero, Nat.sub_zero, Src.next, splice]
          rw [List.take_left' (by rw [List.length_append, hl1, ht]), List.append_assoc, List.take_append_drop]
        rw [hpp] at g
        simp only [m1] at g
        exact g
    · right
      have hs : s' = s := by
        rw [h1] at h
        simp only [Res.ok_bind, found] at h
        split at h
        · cases hc : at? s.buf (q - 1) with
          | ok c =>
            rw [hc] at h
            simp only [Res.ok_bind, Res.pure_eq] at h
            split at h <;> split at h <;> cases h <;> rfl
          | throw => rw [hc] at h; cases h
          | ub => rw [hc] at h; cases h
        · simp only [Res.ok_bind, Res.pure_eq] at h
          split at h <;> cases h
          rfl
      subst hs
      refine ⟨he, rfl, ?_, ?_⟩
      · rw [pending, slice, h2, List.append_assoc, List.cons_append]
        have hlen : a.length < s'.maxLineSize * 2 := by
          have := congrArg List.length h2
          rw [List.length_take, List.length_drop, List.length_append, List.length_cons] at this
          have := hi.len
          omega
        rw [List.take_append]
        apply List.mem_append_right
        obtain ⟨k, hk⟩ : ∃ k, s'.maxLineSize * 2 - a.length = k + 1 := ⟨s'.maxLineSize * 2 - a.length - 1, by omega⟩
        rw [hk, List.take_succ_cons]
        exact List.mem_cons_self
      · intro f
        rw [nextLoop, h1]
        rw [nextLoop, h1] at hfirst
        exact hfirst

/-- What `n` further calls answer, each with the fuel given. -/
def answers (fuel : Nat) : (n : Nat) → LS → Res (List Answer)
  | 0, _ => .ok []
  | n + 1, s => do
    let (a, s) ← nextStr fuel s
    let l ← answers fuel n s
    return a :: l

theorem answers_const (fuel : Nat) (a : Answer) (s : LS) (h : nextStr fuel s = .ok (a, s)) (n : Nat) :
    answers fuel n s = .ok (List.replicate n a) := by
  induction n with
  | zero => rfl
  | succ n ih => rw [answers, h]; simp only [Res.ok_bind, ih, Res.pure_eq]; rfl

theorem reach_inv (max : Nat) (bytes : List UInt8) (hm : 2 ≤ max) (s : LS) (hr : Reach max bytes s) : Inv s ∧ s.maxLineSize = max := by
  induction hr with
  | new r h => exact ⟨(create_inv r max).1, rfl⟩
  | call s s' fuel l _ hf hc ih =>
    obtain ⟨i1, i2⟩ := ih
    by_cases he : s.eof = true
    · rw [nextStr_eof fuel s he] at hc; injection hc with hc; injection hc with hc _; cases hc
    · have he : s.eof = false := by simpa using he
      obtain ⟨a, s1, g1, g2, g3, _⟩ := nextStr_spec fuel s i1 he (by omega) hf
      rw [g1] at hc
      injection hc with hc; injection hc with _ hc2
      subst hc2
      exact ⟨g2, by rw [g3, i2]⟩

/-- C166.  After an exception no line comes any more, however often `next` is called.  If a line end is within the first `2 * max` bytes that are left,
every call throws again, and nothing is lost: `getRemain` and the reader have the same bytes as before.  Otherwise every call says false, and `getRemain`
is empty.  Which of the two does not depend on how the reader fragments its data. -/
theorem C166_after (max : Nat) (bytes : List UInt8) (hm : 2 ≤ max) (s : LS) (hr : Reach max bytes s) (fuel : Nat) (s' : LS)
    (h : nextStr fuel s = .ok (.throw, s')) (f n : Nat) :
    if 10 ∈ (getRemain s ++ s.reader.rest).take (2 * max)
    then answers (f + 1) n s' = .ok (List.replicate n .throw) ∧ getRemain s' ++ s'.reader.rest = getRemain s ++ s.reader.rest
    else answers (f + 1) n s' = .ok (List.replicate n .none) ∧ getRemain s' = [] := by
  obtain ⟨hi, hmax⟩ := reach_inv max bytes hm s hr
  by_cases he : s.eof = true
  · rw [nextStr_eof fuel s he] at h; injection h with h; injection h with h _; cases h
  have he : s.eof = false := by simpa using he
  have hg : ∀ s : LS, s.eof = false → getRemain s ++ s.reader.rest = pending s := by
    intro s h; rw [getRemain, if_neg (by simp [h]), pending]
  have hl : nextLoop fuel s = .ok (.throw, s') := by
    rw [nextStr, next, if_neg (by simp [he])] at h
    cases hx : nextLoop fuel s with
    | ok p =>
      rw [hx] at h
      obtain ⟨o, s1⟩ := p
      cases o with
      | line b e =>
        simp only [Res.ok_bind] at h
        split at h <;> cases h
      | none => cases h
      | throw => cases h; rfl
    | throw => rw [hx] at h; cases h
    | ub => rw [hx] at h; cases h
  rw [hg s he, Nat.mul_comm 2 max, ← hmax]
  rcases loop_throw fuel s s' hi he hl with ⟨h1, h2⟩ | ⟨h1, h2, h3, h4⟩
  · rw [if_neg h2]
    exact ⟨answers_const _ _ _ (nextStr_eof _ _ h1) n, by rw [getRemain, if_pos h1]⟩
  · rw [if_pos h3]
    refine ⟨answers_const _ _ _ ?_ n, by rw [hg s' h1, h2]⟩
    rw [nextStr, next, if_neg (by simp [h1]), h4]
    rfl

/-- C166 (finding).  A program that catches the exception to skip the line never gets past it: for every line longer than the limit that has its line end
within twice the limit, whatever follows, every further call throws. -/
theorem C166_finding_stuck (max : Nat) (hm : 2 ≤ max) (a rest : List UInt8) (ha : 10 ∉ a) (h1 : max + 1 < a.length) (h2 : a.length < 2 * max)
    (r : Src) (hr : r.rest = a ++ 10 :: rest) (fuel : Nat) (hf : r.rest.length + 2 ≤ fuel) (n : Nat) :
    answers fuel n (create r max) = .ok (List.replicate n .throw) := by
  cases n with
  | zero => rfl
  | succ n =>
    have hn := Reach.new (max := max) r rfl
    obtain ⟨_, x, s', hx, hc⟩ := Verif.Props.LineStream.C23_every_call max r.rest hm _ hn rfl fuel hf
    have hp : getRemain (create r max) ++ (create r max).reader.rest = a ++ 10 :: rest := by
      have := (create_inv r max).2
      rw [pending] at this
      rw [getRemain, if_neg (by simp [create]), this, hr]
    rw [hp, lines_line a rest ha] at hc
    have hlong : max < (stripCR a).length := by
      rw [stripCR]; split
      · rw [List.length_dropLast]; omega
      · omega
    have hthrow : x = .throw := by
      rcases hc with ⟨h, _⟩ | ⟨_, _, _, _, h⟩ | ⟨l, ls, h, h', _⟩
      · cases h
      · exact h
      · injection h with h _
        rw [h] at hlong; omega
    subst hthrow
    obtain ⟨f, rfl⟩ : ∃ f, fuel = f + 1 := ⟨fuel - 1, by omega⟩
    have := C166_after max r.rest hm _ hn _ _ hx f n
    rw [hp, if_pos] at this
    · rw [answers, hx]
      simp only [Res.ok_bind, this.1, Res.pure_eq]
      rfl
    · rw [List.take_append]
      apply List.mem_append_right
      obtain ⟨k, hk⟩ : ∃ k, 2 * max - a.length = k + 1 := ⟨2 * max - a.length - 1, by omega⟩
      rw [hk, List.take_succ_cons]
      exact List.mem_cons_self

/-- C166 (finding).  A longer line ends the stream: for every line that has no line end within twice the limit, whatever follows, the first call throws and
all others say false, so the lines that follow are lost without a further exception. -/
theorem C166_finding_lost (max : Nat) (hm : 2 ≤ max) (a rest : List UInt8) (ha : 10 ∉ a) (h2 : 2 * max ≤ a.length)
    (r : Src) (hr : r.rest = a ++ 10 :: rest) (fuel : Nat) (hf : r.rest.length + 2 ≤ fuel) (n : Nat) :
    answers fuel (n + 1) (create r max) = .ok (.throw :: List.replicate n .none) := by
  have hn := Reach.new (max := max) r rfl
  obtain ⟨_, x, s', hx, hc⟩ := Verif.Props.LineStream.C23_every_call max r.rest hm _ hn rfl fuel hf
  have hp : getRemain (create r max) ++ (create r max).reader.rest = a ++ 10 :: rest := by
    have := (create_inv r max).2
    rw [pending] at this
    rw [getRemain, if_neg (by simp [create]), this, hr]
  rw [hp, lines_line a rest ha] at hc
  have hlong : max < (stripCR a).length := by
    rw [stripCR]; split
    · rw [List.length_dropLast]; omega
    · omega
  have hthrow : x = .throw := by
    rcases hc with ⟨h, _⟩ | ⟨_, _, _, _, h⟩ | ⟨l, ls, h, h', _⟩
    · cases h
    · exact h
    · injection h with h _
      rw [h] at hlong; omega
  subst hthrow
  obtain ⟨f, rfl⟩ : ∃ f, fuel = f + 1 := ⟨fuel - 1, by omega⟩
  have := C166_after max r.rest hm _ hn _ _ hx f n
  rw [hp, if_neg] at this
  · rw [answers, hx]
    simp only [Res.ok_bind, this.1, Res.pure_eq]
  · rw [List.take_append_of_le_length h2]
    exact fun h => ha (List.mem_of_mem_take h)

theorem fail_plain (fuel : Nat) : ∀ s : LS, LineFail.nextLoop (fun _ => false) fuel s = (nextLoop fuel s).bind fun p => .ok (some p.1, p.2) := by
  induction fuel with
  | zero => intro s; rfl
  | succ fuel ih =>
    intro s
    rw [LineFail.nextLoop, nextLoop]
    cases memchr s.buf 10 (s.bufSize - s.next) s.next with
    | throw => rfl
    | ub => rfl
    | ok e =>
      cases e with
      | some e => cases h : found s e <;> simp only [Res.ok_bind, h] <;> rfl
      | none =>
        simp only [Res.ok_bind]
        cases compact s with
        | throw => rfl
        | ub => rfl
        | ok s1 =>
          simp only [Res.ok_bind, Bool.false_eq_true, if_false]
          cases readSome s1.buf s1.bufSize (s1.buf.length - s1.bufSize) s1.reader with
          | throw => rfl
          | ub => rfl
          | ok r =>
            simp only [Res.ok_bind]
            split
            · rfl
            · exact ih _

/-- C166.  With a reader that never throws this is the `next` of C23. -/
theorem C166_reader_same (fuel : Nat) (s : LS) : LineFail.next (fun _ => false) fuel s = (next fuel s).bind fun p => .ok (some p.1, p.2) := by
  rw [LineFail.next, next]
  split
  · rfl
  · exact fail_plain fuel s

theorem fail_keeps (fails : Nat → Bool) (fuel : Nat) : ∀ (s s' : LS), Inv s → s.eof = false → LineFail.nextLoop fails fuel s = .ok (none, s') →
    Inv s' ∧ s'.eof = false ∧ pending s' = pending s ∧ s'.maxLineSize = s.maxLineSize := by
  induction fuel with
  | zero => intro s s' _ _ h; rw [LineFail.nextLoop] at h; cases h
  | succ fuel ih =>
    intro s s' hi he h
    have hn := hi.next
    have hsz := hi.size
    rw [LineFail.nextLoop] at h
    rcases memchr_spec s.buf 10 (s.bufSize - s.next) s.next (by omega) with ⟨h1, h2⟩ | ⟨q, a, b, h1, h2, h3, h4⟩
    · rw [h1] at h
      simp only [Res.ok_bind] at h
      obtain ⟨s1, e1, i1, m1, r1, eo1, n1, b1, l1, t1⟩ := compact_spec s hi
      rw [e1] at h
      simp only [Res.ok_bind] at h
      have hp : pending s = s1.buf.take s1.bufSize ++ s1.reader.rest := by rw [pending, t1, r1]
      have hl1 : (s1.buf.take s1.bufSize).length = s1.bufSize := by rw [List.length_take]; have := i1.size; omega
      obtain ⟨a1, a2⟩ := amount_le s1.reader (s1.buf.length - s1.bufSize)
      have i1s := i1.size
      have ht : (s1.reader.rest.take (s1.reader.amount (s1.buf.length - s1.bufSize))).length =
        s1.reader.amount (s1.buf.length - s1.bufSize) := by rw [List.length_take]; omega
      split at h
      · cases h
        refine ⟨⟨i1.len, i1.next, i1.size⟩, by simp only; rw [eo1, he], ?_, m1⟩
        rw [hp, pending, slice]
        simp only [n1, List.drop_zero, Nat.sub_zero]
      · rw [readSome, store_ok _ _ _ (by omega)] at h
        simp only [Res.ok_bind, Res.pure_eq] at h
        by_cases hz : s1.reader.amount (s1.buf.length - s1.bufSize) = 0
        · rw [if_pos hz] at h
          cases h
        · rw [if_neg hz] at h
          have g := ih { s1 with
              buf := splice s1.buf s1.bufSize (s1.reader.rest.take (s1.reader.amount (s1.buf.length - s1.bufSize)))
              reader := s1.reader.next (s1.buf.length - s1.bufSize)
              bufSize := s1.bufSize + s1.reader.amount (s1.buf.length - s1.bufSize) } s'
            ⟨by simp only; rw [splice_length _ _ _ (by omega)]; exact i1.len, by simp only; omega,
              by simp only; rw [splice_length _ _ _ (by omega)]; omega⟩ (by simp only; rw [eo1, he]) h
          have hpp : pending { s1 with
              buf := splice s1.buf s1.bufSize (s1.reader.rest.take (s1.reader.amount (s1.buf.length - s1.bufSize)))
              reader := s1.reader.next (s1.buf.length - s1.bufSize)
              bufSize := s1.bufSize + s1.reader.amount (s1.buf.length - s1.bufSize) } = pending s := by
            rw [hp, pending, slice]
            simp only [n1, List.drop_zero, Nat.sub_zero, Src.next, splice]
            rw [List.take_left' (by rw [List.length_append, hl1, ht]), List.append_assoc, List.take_append_drop]
          rw [hpp] at g
          simp only [m1] at g
          exact g
    · rw [h1] at h
      simp only [Res.ok_bind] at h
      cases hf : found s q with
      | ok r => rw [hf] at h; cases h
      | throw => rw [hf] at h; cases h
      | ub => rw [hf] at h; cases h

/-- Calls of `next` in all of which the reader throws, at places that may differ. -/
inductive Interrupted : LS → LS → Prop where
  | none (s : LS) : Interrupted s s
  | again (s s1 s2 : LS) (fails : Nat → Bool) (fuel : Nat) : LineFail.next fails fuel s = .ok (Option.none, s1) → Interrupted s1 s2 → Interrupted s s2

/-- C166.  An exception of the reader loses nothing: after any number of interrupted calls a loop with a reader that answers again delivers exactly the lines of what was
left before, if they are within the limit. -/
theorem C166_reader_threw (max : Nat) (bytes : List UInt8) (hm : 2 ≤ max) (s s' : LS) (hr : Reach max bytes s) (he : s.eof = false)
    (h : Interrupted s s') (hlim : ∀ l ∈ lines (getRemain s ++ s.reader.rest), l.length ≤ max) (fuel n : Nat)
    (hf : (getRemain s ++ s.reader.rest).length + 2 ≤ fuel) (hn : (getRemain s ++ s.reader.rest).length + 2 ≤ n) :
    getRemain s' ++ s'.reader.rest = getRemain s ++ s.reader.rest ∧ readAll fuel n s' = .ok (lines (getRemain s ++ s.reader.rest)) := by
  obtain ⟨hi, hmax⟩ := reach_inv max bytes hm s hr
  have hg : ∀ s : LS, s.eof = false → getRemain s ++ s.reader.rest = pending s := by
    intro s h; rw [getRemain, if_neg (by simp [h]), pending]
  have key : ∀ s s' : LS, Interrupted s s' → Inv s → s.eof = false →
      Inv s' ∧ s'.eof = false ∧ pending s' = pending s ∧ s'.maxLineSize = s.maxLineSize := by
    intro s s' h
    induction h with
    | none s => intro hi he; exact ⟨hi, he, rfl, rfl⟩
    | again s s1 s2 fails fuel h1 _ ih =>
      intro hi he
      rw [LineFail.next, if_neg (by simp [he])] at h1
      obtain ⟨a1, a2, a3, a4⟩ := fail_keeps fails fuel s s1 hi he h1
      obtain ⟨b1, b2, b3, b4⟩ := ih a1 a2
      exact ⟨b1, b2, by rw [b3, a3], by rw [b4, a4]⟩
  obtain ⟨k1, k2, k3, k4⟩ := key s s' h hi he
  rw [hg s he] at hlim hf hn ⊢
  rw [hg s' k2]
  refine ⟨k3, ?_⟩
  rw [← k3] at hlim hf hn ⊢
  exact readAll_spec fuel n s' k1 k2 (by rw [k4, hmax]; exact hm) hf hn (by rw [k4, hmax]; exact hlim)

/-! Concrete cases: limit 3, the lines `aaaaa` and `aaaaaa`, each followed by `b`. -/
example : answers 12 3 (create ⟨[97, 97, 97, 97, 97, 10, 98, 10], fun _ => 1, 0⟩ 3) = .ok [.throw, .throw, .throw] := by decide +kernel
example : answers 12 3 (create ⟨[97, 97, 97, 97, 97, 97, 10, 98, 10], fun _ => 1, 0⟩ 3) = .ok [.throw, .none, .none] := by decide +kernel
example : (10 : UInt8) ∉ [97, 97, 97, 97, 97] ∧ 3 + 1 < [97, 97, 97, 97, 97].length ∧ [97, 97, 97, 97, 97].length < 2 * 3 := by decide

/-- The reader delivers `a`, then throws: `a` stays in the buffer. -/
example : (LineFail.next (fun i => i == 1) 9 (create ⟨[97, 98, 10], fun _ => 0, 0⟩ 3)).bind (fun p => .ok (p.1, getRemain p.2, p.2.reader.rest)) =
    .ok (none, [97], [98, 10]) := by decide +kernel

end Verif.Props.LineRecover

#print axioms Verif.Props.LineRecover.C166_after
#print axioms Verif.Props.LineRecover.C166_finding_stuck
#print axioms Verif.Props.LineRecover.C166_finding_lost
#print axioms Verif.Props.LineRecover.C166_reader_same
#print axioms Verif.Props.LineRecover.C166_reader_threw
