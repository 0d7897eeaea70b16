import Verif.Model.LineStream
import Verif.Spec.LineStream
import Verif.Proof.Stream
import Verif.Proof.BitVector
set_option linter.unusedSimpArgs false

/-! Lemmas for C23. -/
namespace Verif.LineStream
open Verif.Stream Verif.Spec.Stream Verif.Spec.LineStream
open Verif.BitVector (setAt? setAt?_ok)

theorem memchr_spec (buf : List UInt8) (c : UInt8) (n : Nat) : ∀ p, p + n ≤ buf.length →
    (memchr buf c n p = .ok none ∧ c ∉ (buf.drop p).take n) ∨
    ∃ q a b, memchr buf c n p = .ok (some q) ∧ (buf.drop p).take n = a ++ c :: b ∧ c ∉ a ∧ q = p + a.length := by
  induction n with
  | zero => intro p h; left; simp [memchr]
  | succ n ih =>
    intro p h
    rw [memchr, at?_eq_ok (by omega)]
    simp only [Res.ok_bind, Res.pure_eq]
    have hd : (buf.drop p).take (n + 1) = buf[p] :: (buf.drop (p + 1)).take n := by
      rw [List.drop_eq_getElem_cons (by omega), List.take_succ_cons]
    rw [hd]
    by_cases hc : buf[p] = c
    · right
      rw [if_pos hc]
      exact ⟨p, [], (buf.drop (p + 1)).take n, rfl, by rw [hc]; rfl, by simp, by simp⟩
    · rw [if_neg hc]
      rcases ih (p + 1) (by omega) with ⟨h1, h2⟩ | ⟨q, a, b, h1, h2, h3, h4⟩
      · left
        refine ⟨h1, ?_⟩
        simp only [List.mem_cons, not_or]
        exact ⟨fun h => hc h.symm, h2⟩
      · right
        refine ⟨q, buf[p] :: a, b, h1, by rw [h2]; rfl, ?_, by simp only [List.length_cons]; omega⟩
        simp only [List.mem_cons, not_or]
        exact ⟨fun h => hc h.symm, h3⟩

theorem moveLoop_spec (buf : List UInt8) (next rem : Nat) (hn : next + rem ≤ buf.length) (cnt : Nat) : ∀ i, i + cnt = rem →
    moveLoop next cnt i (((buf.drop next).take rem).take i ++ buf.drop i) = .ok ((buf.drop next).take rem ++ buf.drop rem) := by
  have hw : ((buf.drop next).take rem).length = rem := by rw [List.length_take, List.length_drop]; omega
  induction cnt with
  | zero =>
    intro i hi
    rw [moveLoop, List.take_of_length_le (by omega), show i = rem by omega]
  | succ cnt ih =>
    intro i hi
    have hl : (((buf.drop next).take rem).take i).length = i := by rw [List.length_take, hw]; omega
    have hx : (((buf.drop next).take rem).take i ++ buf.drop i)[next + i]'(by rw [List.length_append, hl, List.length_drop]; omega) =
        ((buf.drop next).take rem)[i]'(by omega) := by
      rw [List.getElem_append_right (by omega)]
      simp only [List.getElem_drop, List.getElem_take, hl]
      congr 1; omega
    have hi2 : i < buf.length := by omega
    rw [moveLoop, at?_eq_ok (by rw [List.length_append, hl, List.length_drop]; omega)]
    simp only [Res.ok_bind]
    rw [hx, setAt?_ok _ (by rw [List.length_append, hl, List.length_drop]; omega)]
    simp only [Res.ok_bind]
    rw [← ih (i + 1) (by omega)]
    congr 1
    rw [List.set_append_right _ _ (by omega), hl, Nat.sub_self, List.drop_eq_getElem_cons hi2, List.set_cons_zero,
      List.take_add_one, List.getElem?_eq_getElem (by omega : i < ((buf.drop next).take rem).length)]
    simp

/-- The bytes not delivered yet. -/
def pending (s : LS) : List UInt8 := slice s.buf s.next s.bufSize ++ s.reader.rest

/-- What holds between calls. -/
structure Inv (s : LS) : Prop where
  len : s.buf.length = s.maxLineSize * 2
  next : s.next ≤ s.bufSize
  size : s.bufSize ≤ s.buf.length

/-- What the next call should do. -/
inductive Want where
  | line (l rest : List UInt8)
  | last (l : List UInt8)
  | none
  | throw

/-- Whether the call did it. -/
def Meets (max : Nat) (s' : LS) (o : Out) : Want → Prop
  | .line l r => ∃ b e, o = .line b e ∧ b ≤ e ∧ e ≤ s'.buf.length ∧ slice s'.buf b e = l ∧ s'.eof = false ∧ pending s' = r ∧ max = s'.maxLineSize
  | .last l => ∃ b e, o = .line b e ∧ b ≤ e ∧ e ≤ s'.buf.length ∧ slice s'.buf b e = l ∧ s'.eof = true
  | .none => o = .none ∧ s'.eof = true
  | .throw => o = .throw

/-- `w` is what the next call should do on `bytes`. -/
inductive IsWant (max : Nat) : List UInt8 → Want → Prop where
  | line (a r : List UInt8) : 10 ∉ a → (stripCR a).length ≤ max → IsWant max (a ++ 10 :: r) (.line (stripCR a) r)
  | long (a r : List UInt8) : 10 ∉ a → max < (stripCR a).length → IsWant max (a ++ 10 :: r) .throw
  | none : IsWant max [] .none
  | last (a : List UInt8) : 10 ∉ a → a ≠ [] → a.length ≤ max → IsWant max a (.last a)
  | lastLong (a : List UInt8) : 10 ∉ a → max < a.length → IsWant max a .throw

theorem cut (l : List UInt8) : 10 ∉ l ∨ ∃ a r, l = a ++ 10 :: r ∧ 10 ∉ a := by
  by_cases h : (10 : UInt8) ∈ l
  · right
    obtain ⟨a, r, h1, h2⟩ := List.eq_append_cons_of_mem h
    exact ⟨a, r, h1, h2⟩
  · exact .inl h

theorem slice_length (buf : List UInt8) (b e : Nat) (h : e ≤ buf.length) : (slice buf b e).length = e - b := by
  rw [slice, List.length_take, List.length_drop]; omega

theorem found_spec (s : LS) (hi : Inv s) (he : s.eof = false) (a b : List UInt8) (hw : slice s.buf s.next s.bufSize = a ++ 10 :: b)
    (ha : 10 ∉ a) :
    ∃ o s' w, found s (s.next + a.length) = .ok (o, s') ∧ Inv s' ∧ s'.maxLineSize = s.maxLineSize ∧
      IsWant s.maxLineSize (pending s) w ∧ Meets s.maxLineSize s' o w := by
  have hlen : a.length + 1 + b.length = s.bufSize - s.next := by
    rw [← slice_length s.buf s.next s.bufSize hi.size, hw]; simp; omega
  have hn := hi.next
  have hsz := hi.size
  have hsplit : s.buf.drop s.next = a ++ 10 :: (b ++ s.buf.drop s.bufSize) := by
    rw [← List.take_append_drop (s.bufSize - s.next) (s.buf.drop s.next)]
    rw [show (s.buf.drop s.next).take (s.bufSize - s.next) = a ++ 10 :: b from hw, List.drop_drop,
      show s.next + (s.bufSize - s.next) = s.bufSize by omega]
    simp
  have hsl : ∀ n, n ≤ a.length → slice s.buf s.next (s.next + n) = a.take n := by
    intro n hn
    rw [slice, hsplit, show s.next + n - s.next = n by omega, List.take_append_of_le_length hn]
  -- the end of the line
  have hend : (if s.next + a.length > s.next then do
      let c ← at? s.buf (s.next + a.length - 1)
      return if c = 13 then s.next + a.length - 1 else s.next + a.length
    else .ok (s.next + a.length) : Res Nat) = .ok (s.next + (stripCR a).length) ∧ (stripCR a).length ≤ a.length ∧
      a.take (stripCR a).length = stripCR a := by
    by_cases h0 : a = []
    · subst h0; simp [stripCR]
    · have hpos : 0 < a.length := List.length_pos_iff.mpr h0
      have hc : s.buf[s.next + a.length - 1]'(by omega) = a.getLast h0 := by
        have : (s.buf.drop s.next)[a.length - 1]'(by rw [List.length_drop]; omega) = a.getLast h0 := by
          simp only [hsplit]
          rw [List.getElem_append_left (by omega), List.getLast_eq_getElem]
        rw [← this, List.getElem_drop]
        congr 1; omega
      rw [if_pos (by omega), at?_eq_ok (by omega)]
      simp only [Res.ok_bind, Res.pure_eq, hc]
      have hg : a.getLast? = some (a.getLast h0) := List.getLast?_eq_some_getLast h0
      by_cases h13 : a.getLast h0 = 13
      · have hs : stripCR a = a.dropLast := by rw [stripCR, hg, h13]; simp
        rw [if_pos h13, hs, List.length_dropLast]
        exact ⟨by congr 1; omega, by omega, by rw [List.dropLast_eq_take]⟩
      · have hs : stripCR a = a := by rw [stripCR, hg, if_neg (by simpa using h13)]
        rw [if_neg h13, hs]
        exact ⟨rfl, Nat.le_refl _, by simp⟩
  obtain ⟨h1, h2, h3⟩ := hend
  have hpend : pending s = a ++ 10 :: (b ++ s.reader.rest) := by rw [pending, hw]; simp
  rw [found, h1]
  simp only [Res.ok_bind, Res.pure_eq]
  rw [show s.next + (stripCR a).length - s.next = (stripCR a).length by omega, hpend]
  by_cases hm : (stripCR a).length > s.maxLineSize
  · rw [if_pos hm]
    exact ⟨_, _, .throw, rfl, hi, rfl, .long a _ ha hm, rfl⟩
  · rw [if_neg hm]
    refine ⟨_, _, .line (stripCR a) (b ++ s.reader.rest), rfl, ⟨hi.len, ?_, hi.size⟩, rfl, .line a _ ha (by omega), ?_⟩
    · simp only; omega
    · refine ⟨_, _, rfl, by omega, by simp only; omega, ?_, he, ?_, rfl⟩
      · simp only; rw [hsl _ h2, h3]
      · rw [pending, slice]
        simp only
        rw [show s.next + a.length + 1 = s.next + (a.length + 1) by omega, ← List.drop_drop, hsplit,
          show a ++ 10 :: (b ++ s.buf.drop s.bufSize) = (a ++ [10]) ++ (b ++ s.buf.drop s.bufSize) by simp,
          List.drop_left' (by simp), List.take_left' (by omega)]

theorem compact_spec (s : LS) (hi : Inv s) :
    ∃ s1, compact s = .ok s1 ∧ Inv s1 ∧ s1.maxLineSize = s.maxLineSize ∧ s1.reader = s.reader ∧ s1.eof = s.eof ∧ s1.next = 0 ∧
      s1.bufSize = s.bufSize - s.next ∧ s1.buf.length = s.buf.length ∧ s1.buf.take s1.bufSize = slice s.buf s.next s.bufSize := by
  have hn := hi.next
  have hsz := hi.size
  rw [compact]
  by_cases h : s.bufSize - s.next > 0
  · have hm := moveLoop_spec s.buf s.next (s.bufSize - s.next) (by omega) (s.bufSize - s.next) 0 (by omega)
    rw [List.take_zero, List.drop_zero, List.nil_append] at hm
    have hl : ((s.buf.drop s.next).take (s.bufSize - s.next)).length = s.bufSize - s.next := by
      rw [List.length_take, List.length_drop]; omega
    simp only [if_pos h, hm, Res.ok_bind, Res.pure_eq]
    refine ⟨_, rfl, ⟨?_, by simp, ?_⟩, rfl, rfl, rfl, rfl, rfl, ?_, ?_⟩
    · simp only [List.length_append, hl, List.length_drop]; rw [← hi.len]; omega
    · simp only [List.length_append, hl, List.length_drop]; omega
    · simp only [List.length_append, hl, List.length_drop]; omega
    · simp only [List.take_left' hl]; rfl
  · simp only [if_neg h]
    refine ⟨_, rfl, ⟨hi.len, by simp, by simp⟩, rfl, rfl, rfl, rfl, by simp only; omega, rfl, ?_⟩
    simp [slice, show s.bufSize - s.next = 0 by omega]

theorem nextLoop_spec (fuel : Nat) : ∀ (s : LS), Inv s → s.eof = false → 2 ≤ s.maxLineSize → s.reader.rest.length + 2 ≤ fuel →
    ∃ o s' w, nextLoop fuel s = .ok (o, s') ∧ Inv s' ∧ s'.maxLineSize = s.maxLineSize ∧
      IsWant s.maxLineSize (pending s) w ∧ Meets s.maxLineSize s' o w := by
  induction fuel with
  | zero => intro s _ _ _ h; omega
  | succ fuel ih =>
    intro s hi he hm hf
    have hn := hi.next
    have hsz := hi.size
    rw [nextLoop]
    rcases memchr_spec s.buf 10 (s.bufSize - s.next) s.next (by omega) with ⟨h1, h2⟩ | ⟨q, a, b, h1, h2, h3, h4⟩
    · rw [h1]
      simp only [Res.ok_bind]
      obtain ⟨s1, e1, i1, m1, r1, eo1, n1, b1, l1, t1⟩ := compact_spec s hi
      rw [e1]
      simp only [Res.ok_bind]
      have hw : 10 ∉ s1.buf.take s1.bufSize := by rw [t1]; exact h2
      have hp : pending s = s1.buf.take s1.bufSize ++ s1.reader.rest := by rw [pending, t1, r1]
      have hl1 : (s1.buf.take s1.bufSize).length = s1.bufSize := by rw [List.length_take]; have := i1.size; omega
      obtain ⟨a1, a2⟩ := amount_le s1.reader (s1.buf.length - s1.bufSize)
      have i1s := i1.size
      have ht : (s1.reader.rest.take (s1.reader.amount (s1.buf.length - s1.bufSize))).length =
        s1.reader.amount (s1.buf.length - s1.bufSize) := by rw [List.length_take]; omega
      rw [readSome, store_ok _ _ _ (by omega)]
      simp only [Res.ok_bind, Res.pure_eq]
      by_cases hz : s1.reader.amount (s1.buf.length - s1.bufSize) = 0
      · rw [if_pos hz, hz, List.take_zero, splice_nil, atEnd]
        simp only
        by_cases hb0 : s1.bufSize = 0
        · rw [if_pos hb0]
          have hrest : s1.reader.rest = [] := by
            rcases (amount_zero _ _).mp hz with h | h
            · have := i1.len; omega
            · exact h
          refine ⟨_, _, .none, rfl, ⟨i1.len, i1.next, i1.size⟩, m1, ?_, ⟨rfl, rfl⟩⟩
          rw [hp, hb0, hrest]; exact .none
        · rw [if_neg hb0]
          by_cases hbm : s1.bufSize > s1.maxLineSize
          · rw [if_pos hbm]
            refine ⟨_, _, .throw, rfl, ⟨i1.len, i1.next, i1.size⟩, m1, ?_, rfl⟩
            rcases (amount_zero _ _).mp hz with h | h
            · -- the buffer is full
              have hfull : s1.bufSize = s1.maxLineSize * 2 := by have := i1.len; omega
              rw [hp]
              rcases cut s1.reader.rest with hc | ⟨a, r, hc, hc'⟩
              · exact .lastLong _ (by simp [hw, hc]) (by rw [List.length_append]; omega)
              · rw [hc, ← List.append_assoc]
                refine .long _ _ (by simp [hw, hc']) ?_
                have : (s1.buf.take s1.bufSize ++ a).length - 1 ≤ (stripCR (s1.buf.take s1.bufSize ++ a)).length := by
                  rw [stripCR]; split
                  · rw [List.length_dropLast]; omega
                  · omega
                rw [List.length_append] at this
                omega
            · rw [hp, h, List.append_nil]
              exact .lastLong _ hw (by omega)
          · rw [if_neg hbm]
            have hrest : s1.reader.rest = [] := by
              rcases (amount_zero _ _).mp hz with h | h
              · have := i1.len; omega
              · exact h
            refine ⟨_, _, .last (s1.buf.take s1.bufSize), rfl, ⟨i1.len, i1.next, i1.size⟩, m1, ?_,
              ⟨0, s1.bufSize, rfl, by omega, i1.size, by simp [slice], rfl⟩⟩
            rw [hp, hrest, List.append_nil]
            exact .last _ hw (by intro h; rw [h] at hl1; simp at hl1; omega) (by omega)
      · rw [if_neg hz]
        obtain ⟨o, s', w, g1, g2, g3, g4, g5⟩ := ih { s1 with
            buf := splice s1.buf s1.bufSize (s1.reader.rest.take (s1.reader.amount (s1.buf.length - s1.bufSize)))
            reader := s1.reader.next (s1.buf.length - s1.bufSize)
            bufSize := s1.bufSize + s1.reader.amount (s1.buf.length - s1.bufSize) }
          ⟨by simp only; rw [splice_length _ _ _ (by omega)]; exact i1.len, by simp only; omega,
            by simp only; rw [splice_length _ _ _ (by omega)]; omega⟩ (by simp only; rw [eo1, he]) (by simp only; omega)
          (by simp only [Src.next, List.length_drop]; rw [← r1] at hf; omega)
        refine ⟨o, s', w, g1, g2, by rw [g3]; exact m1, ?_, ?_⟩
        · have hpp : pending { s1 with
            buf := splice s1.buf s1.bufSize (s1.reader.rest.take (s1.reader.amount (s1.buf.length - s1.bufSize)))
            reader := s1.reader.next (s1.buf.length - s1.bufSize)
            bufSize := s1.bufSize + s1.reader.amount (s1.buf.length - s1.bufSize) } = pending s := by
            rw [hp, pending, slice]
            simp only [n1, List.drop_zero, Nat.sub_zero, Src.next, splice]
            rw [List.take_left' (by rw [List.length_append, hl1, ht]), List.append_assoc, List.take_append_drop]
          rw [hpp] at g4
          simp only at g4
          rw [m1] at g4
          exact g4
        · simp only at g5
          rw [m1] at g5
          exact g5
    · rw [h1, h4]
      simp only [Res.ok_bind]
      exact found_spec s hi he a b h2 h3

theorem linesFrom_line (a r : List UInt8) (ha : 10 ∉ a) : ∀ cur, linesFrom cur (a ++ 10 :: r) = stripCR (cur ++ a) :: linesFrom [] r := by
  induction a with
  | nil => intro cur; simp [linesFrom]
  | cons c a ih =>
    intro cur
    simp only [List.mem_cons, not_or] at ha
    rw [List.cons_append, linesFrom, if_neg (fun h => ha.1 h.symm), ih ha.2]
    simp

theorem linesFrom_last (a : List UInt8) (ha : 10 ∉ a) : ∀ cur, cur ++ a ≠ [] → linesFrom cur a = [cur ++ a] := by
  induction a with
  | nil => intro cur h; simp at h; simp [linesFrom, h]
  | cons c a ih =>
    intro cur _
    simp only [List.mem_cons, not_or] at ha
    rw [linesFrom, if_neg (fun h => ha.1 h.symm), ih ha.2]
    · simp
    · simp

theorem lines_line (a r : List UInt8) (ha : 10 ∉ a) : lines (a ++ 10 :: r) = stripCR a :: lines r := by
  rw [lines, linesFrom_line a r ha]; rfl

theorem lines_last (a : List UInt8) (ha : 10 ∉ a) (h : a ≠ []) : lines a = [a] := by
  rw [lines, linesFrom_last a ha [] (by simpa using h)]; rfl

/-- Every call of `next(std::string&)` on a stream that is not at its end. -/
theorem nextStr_spec (fuel : Nat) (s : LS) (hi : Inv s) (he : s.eof = false) (hm : 2 ≤ s.maxLineSize)
    (hf : s.reader.rest.length + 2 ≤ fuel) :
    ∃ a s', nextStr fuel s = .ok (a, s') ∧ Inv s' ∧ s'.maxLineSize = s.maxLineSize ∧
      ((lines (pending s) = [] ∧ a = .none ∧ s'.eof = true) ∨
       (∃ l ls, lines (pending s) = l :: ls ∧ s.maxLineSize < l.length ∧ a = .throw) ∨
       (∃ l ls, lines (pending s) = l :: ls ∧ l.length ≤ s.maxLineSize ∧ a = .line l ∧
          ((s'.eof = true ∧ ls = []) ∨ (s'.eof = false ∧ lines (pending s') = ls ∧ (pending s').length < (pending s).length ∧
            (pending s') <:+ pending s)))) := by
  obtain ⟨o, s', w, g1, g2, g3, g4, g5⟩ := nextLoop_spec fuel s hi he hm hf
  rw [nextStr, next, if_neg (by simp [he]), g1]
  simp only [Res.ok_bind, Res.pure_eq]
  generalize hpe : pending s = bytes at g4
  cases g4 with
  | line a r ha hl =>
    obtain ⟨b, e, rfl, h1, h2, h3, h4, h5, h6⟩ := g5
    simp only
    rw [if_pos ⟨h1, h2⟩]
    refine ⟨_, s', rfl, g2, g3, .inr (.inr ⟨stripCR a, lines r, lines_line a r ha, hl, by rw [h3], .inr ⟨h4, by rw [h5], ?_, ?_⟩⟩)⟩
    · rw [h5]; simp; omega
    · rw [h5]; exact ⟨a ++ [10], by simp⟩
  | long a r ha hl =>
    have : o = .throw := g5
    subst this
    exact ⟨_, s', rfl, g2, g3, .inr (.inl ⟨_, _, lines_line a r ha, hl, rfl⟩)⟩
  | none =>
    obtain ⟨rfl, h⟩ := g5
    exact ⟨_, s', rfl, g2, g3, .inl ⟨rfl, rfl, h⟩⟩
  | last a ha hne hl =>
    obtain ⟨b, e, rfl, h1, h2, h3, h4⟩ := g5
    simp only
    rw [if_pos ⟨h1, h2⟩]
    exact ⟨_, s', rfl, g2, g3, .inr (.inr ⟨bytes, [], lines_last _ ha hne, hl, by rw [h3], .inl ⟨h4, rfl⟩⟩)⟩
  | lastLong a ha hl =>
    have : o = .throw := g5
    subst this
    exact ⟨_, s', rfl, g2, g3, .inr (.inl ⟨_, _, lines_last _ ha (by rintro rfl; simp at hl), hl, rfl⟩)⟩

theorem nextStr_eof (fuel : Nat) (s : LS) (he : s.eof = true) : nextStr fuel s = .ok (.none, s) := by
  rw [nextStr, next, if_pos he]; rfl

theorem readAll_spec (fuel n : Nat) : ∀ (s : LS), Inv s → s.eof = false → 2 ≤ s.maxLineSize → (pending s).length + 2 ≤ fuel →
    (pending s).length + 2 ≤ n → (∀ l ∈ lines (pending s), l.length ≤ s.maxLineSize) →
    readAll fuel n s = .ok (lines (pending s)) := by
  induction n with
  | zero => intro s _ _ _ _ h; omega
  | succ n ih =>
    intro s hi he hm hf hn hlim
    have hr : s.reader.rest.length ≤ (pending s).length := by rw [pending, List.length_append]; omega
    obtain ⟨a, s', g1, g2, g3, g4⟩ := nextStr_spec fuel s hi he hm (by omega)
    rw [readAll, g1]
    simp only [Res.ok_bind]
    rcases g4 with ⟨h1, rfl, h3⟩ | ⟨l, ls, h1, h2, rfl⟩ | ⟨l, ls, h1, h2, rfl, h3⟩
    · rw [h1]; rfl
    · have := hlim l (by rw [h1]; simp); omega
    · simp only
      rw [h1]
      rcases h3 with ⟨h4, rfl⟩ | ⟨h4, h5, h6, _⟩
      · obtain ⟨m, rfl⟩ : ∃ m, n = m + 1 := ⟨n - 1, by omega⟩
        rw [readAll, nextStr_eof fuel s' h4]
        rfl
      · rw [ih s' g2 h4 (by omega) (by omega) (by omega) (by rw [h5, g3]; intro l' hl'; exact hlim l' (by rw [h1]; simp [hl']))]
        simp [h5]

theorem create_inv (r : Src) (max : Nat) : Inv (create r max) ∧ pending (create r max) = r.rest := by
  refine ⟨⟨by simp [create], by simp [create], by simp [create]⟩, by simp [pending, create, slice]⟩

end Verif.LineStream
