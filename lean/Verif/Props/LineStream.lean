import Verif.Proof.LineStream
set_option linter.unusedSimpArgs false

/-! # C23: line stream -/
namespace Verif.Props.LineStream
open Verif Verif.Stream Verif.LineStream Verif.Spec.LineStream

/-- C23.  Calling `next` until it says false yields exactly the lines of the byte stream, for every fragmentation, every limit of
at least 2 and every stream whose lines are within the limit.  The loops terminate (any sufficient `fuel`, `n`) and stay inside
the buffer. -/
theorem C23_lines (r : Src) (max fuel n : Nat) (hm : 2 ≤ max) (hlim : ∀ l ∈ lines r.rest, l.length ≤ max)
    (hf : r.rest.length + 2 ≤ fuel) (hn : r.rest.length + 2 ≤ n) :
    readAll fuel n (create r max) = .ok (lines r.rest) := by
  obtain ⟨h1, h2⟩ := create_inv r max
  have := readAll_spec fuel n (create r max) h1 rfl hm (by rw [h2]; exact hf) (by rw [h2]; exact hn) (by rw [h2]; exact hlim)
  rw [this, h2]

/-- C23.  Two streams with the same bytes give the same lines however they fragment them. -/
theorem C23_fragmentation_invisible (r r' : Src) (max fuel n : Nat) (hm : 2 ≤ max) (h : r.rest = r'.rest)
    (hlim : ∀ l ∈ lines r.rest, l.length ≤ max) (hf : r.rest.length + 2 ≤ fuel) (hn : r.rest.length + 2 ≤ n) :
    readAll fuel n (create r max) = readAll fuel n (create r' max) := by
  rw [C23_lines r max fuel n hm hlim hf hn, C23_lines r' max fuel n hm (by rw [← h]; exact hlim) (by rw [← h]; exact hf)
    (by rw [← h]; exact hn), h]

/-- The objects a program can have after some calls of `next(std::string&)`, together with the bytes not delivered yet. -/
inductive Reach (max : Nat) (bytes : List UInt8) : LS → Prop where
  | new (r : Src) : r.rest = bytes → Reach max bytes (create r max)
  | call (s s' : LS) (fuel : Nat) (l : List UInt8) : Reach max bytes s → s.reader.rest.length + 2 ≤ fuel →
      nextStr fuel s = .ok (.line l, s') → Reach max bytes s'

/-- C23.  At every moment before the end: the call returns the first line of what is left if it is within the limit, throws if it
is longer, and says false when nothing is left; and after a line, `getRemain` followed by what the reader still has is exactly
what the line leaves over. -/
theorem C23_every_call (max : Nat) (bytes : List UInt8) (hm : 2 ≤ max) (s : LS) (hr : Reach max bytes s) (he : s.eof = false)
    (fuel : Nat) (hf : s.reader.rest.length + 2 ≤ fuel) :
    (getRemain s ++ s.reader.rest) <:+ bytes ∧
    ∃ a s', nextStr fuel s = .ok (a, s') ∧
      ((lines (getRemain s ++ s.reader.rest) = [] ∧ a = .none) ∨
       (∃ l ls, lines (getRemain s ++ s.reader.rest) = l :: ls ∧ max < l.length ∧ a = .throw) ∨
       (∃ l ls, lines (getRemain s ++ s.reader.rest) = l :: ls ∧ l.length ≤ max ∧ a = .line l ∧
         (s'.eof = true ∧ ls = [] ∨ s'.eof = false ∧ lines (getRemain s' ++ s'.reader.rest) = ls))) := by
  have key : ∀ s, Reach max bytes s → Inv s ∧ s.maxLineSize = max ∧ (s.eof = false → pending s <:+ bytes) := by
    intro s hr
    induction hr with
    | new r h =>
      obtain ⟨h1, h2⟩ := create_inv r max
      exact ⟨h1, rfl, fun _ => by rw [h2, h]; exact List.suffix_refl _⟩
    | call s s' fuel l _ hf hc ih =>
      obtain ⟨i1, i2, i3⟩ := ih
      by_cases he : s.eof = true
      · rw [nextStr_eof fuel s he] at hc; injection hc with hc; injection hc with hc _; cases hc
      · have he : s.eof = false := by simpa using he
        obtain ⟨a, s1, g1, g2, g3, g4⟩ := nextStr_spec fuel s i1 he (by omega) hf
        rw [g1] at hc
        injection hc with hc; injection hc with hc1 hc2
        subst hc1; subst hc2
        refine ⟨g2, by rw [g3, i2], fun he' => ?_⟩
        rcases g4 with ⟨_, h, _⟩ | ⟨_, _, _, _, h⟩ | ⟨_, _, _, _, _, h⟩
        · cases h
        · cases h
        · rcases h with ⟨h, _⟩ | ⟨_, _, _, h⟩
          · rw [h] at he'; cases he'
          · exact h.trans (i3 he)
  obtain ⟨i1, i2, i3⟩ := key s hr
  have hg : ∀ s : LS, s.eof = false → getRemain s ++ s.reader.rest = pending s := by
    intro s h; rw [getRemain, if_neg (by simp [h]), pending]
  obtain ⟨a, s', g1, g2, g3, g4⟩ := nextStr_spec fuel s i1 he (by omega) hf
  rw [hg s he]
  refine ⟨i3 he, a, s', g1, ?_⟩
  rw [i2] at g4
  rcases g4 with ⟨h1, h2, _⟩ | ⟨l, ls, h1, h2, h3⟩ | ⟨l, ls, h1, h2, h3, h4⟩
  · exact .inl ⟨h1, h2⟩
  · exact .inr (.inl ⟨l, ls, h1, h2, h3⟩)
  · refine .inr (.inr ⟨l, ls, h1, h2, h3, ?_⟩)
    rcases h4 with ⟨h4, h5⟩ | ⟨h4, h5, _⟩
    · exact .inl ⟨h4, h5⟩
    · exact .inr ⟨h4, by rw [hg s' h4]; exact h5⟩

/-- C23.  After false, `next` says false for ever. -/
theorem C23_end_is_final (s : LS) (fuel : Nat) (he : s.eof = true) : nextStr fuel s = .ok (.none, s) := nextStr_eof fuel s he

/-- Finding for C23: with a limit of 1 the one-character line "a" is refused when it ends in CR LF, because CR and LF do not
fit into the buffer of two bytes. -/
theorem C23_limit_one_refuses :
    (nextStr 9 (create ⟨[97, 13, 10], fun _ => 9, 0⟩ 1)).bind (fun p => .ok p.1) = .ok .throw ∧
    (nextStr 9 (create ⟨[97, 10], fun _ => 9, 0⟩ 1)).bind (fun p => .ok p.1) = .ok (.line [97]) := by decide +kernel

/-- Finding for C23: with a limit of 0 empty lines are lost silently. -/
theorem C23_limit_zero_loses_lines :
    (nextStr 9 (create ⟨[10, 10], fun _ => 9, 0⟩ 0)).bind (fun p => .ok p.1) = .ok .none ∧ lines [10, 10] = [[], []] := by
  decide +kernel

/-- Finding for C23: a too long line followed by others ends the stream when it does not fit into the buffer (the rest is lost),
but is reported again and again when it does. -/
theorem C23_after_too_long :
    (do let (a, s) ← nextStr 9 (create ⟨[97, 97, 97, 97, 97, 10, 98, 10], fun _ => 9, 0⟩ 2)
        let (b, _) ← nextStr 9 s
        return (a, b)) = .ok (.throw, .none) ∧
    (do let (a, s) ← nextStr 9 (create ⟨[97, 97, 97, 10, 98, 10], fun _ => 9, 0⟩ 2)
        let (b, _) ← nextStr 9 s
        return (a, b)) = .ok (.throw, .throw) := by decide +kernel

/-! Concrete cases. -/
example : lines [97, 13, 10, 10, 13, 98, 13] = [[97], [], [13, 98, 13]] := by decide
-- the fragment boundary falls between CR and LF
example : readAll 99 99 (create ⟨[97, 98, 13, 10, 10, 99], fun _ => 2, 0⟩ 2) = .ok [[97, 98], [], [99]] := by decide +kernel
example : ∀ l ∈ lines [97, 98, 13, 10, 10, 99], l.length ≤ 2 := by decide
example : Reach 2 [97, 10] (create ⟨[97, 10], fun _ => 0, 0⟩ 2) := .new _ rfl

#print axioms C23_lines
#print axioms C23_fragmentation_invisible
#print axioms C23_every_call
#print axioms C23_end_is_final

end Verif.Props.LineStream
