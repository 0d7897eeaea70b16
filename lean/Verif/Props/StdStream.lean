import Verif.Model.StdStream
import Verif.Props.Stream
set_option linter.unusedSimpArgs false

/-! # C134: reading from `std::istream` and writing to `std::ostream`, with their state flags -/
namespace Verif.Props.StdStream
open Verif Verif.StdStream

/-- The buffer never fails and no flag throws. -/
def Calm (s : IS) : Prop := (∀ i, s.dev i = none) ∧ s.mask = Bits.none

/-- The largest request that is passed on. -/
def cap (size : Nat) : Nat := min size 0x7fffffff

theorem good_iff (b : Bits) : b.good = true ↔ b = Bits.none := by
  rcases b with ⟨_ | _, _ | _, _ | _⟩ <;> simp [Bits.good, Bits.none]

theorem meets_none (b : Bits) : b.meets Bits.none = false := by simp [Bits.meets, Bits.none]

theorem cap_eq (size : Nat) : (if size > 0x7fffffff then 0x7fffffff else size) = cap size := by rw [cap]; split <;> omega

/-- C134.  A request to a calm stream in good state: the next bytes, as many as asked for (at most 2^31-1) or all that are left; no exception;
afterwards the stream is good exactly if everything asked for came or one byte was asked for. -/
theorem C134_good (s : IS) (h : Calm s) (hg : s.st.good = true) (size : Nat) :
    let n := min (cap size) s.rest.length
    let g := readSome s size
    g.threw = false ∧ g.count = n ∧ g.wrote = s.rest.take n ∧ g.is.rest = s.rest.drop n ∧
      (g.is.st.good = true ↔ n = cap size ∨ size = 1) ∧ Calm g.is := by
  intro n g
  have hs := (good_iff _).mp hg
  have hg' : g = readSome s size := rfl
  rw [readSome, cap_eq] at hg'
  simp only [IS.read, hg, h.1, if_true, h.2, meets_none, Bool.false_eq_true, if_false] at hg'
  have hn : n = min (cap size) s.rest.length := rfl
  have hc : cap size = 1 ↔ size = 1 := by rw [cap]; omega
  rw [← hn] at hg'
  by_cases h1 : cap size = 1 ∧ n = 0
  · rw [if_pos h1] at hg'
    rw [hg']
    exact ⟨rfl, rfl, rfl, rfl, by simp [Bits.good, Bits.none]; exact .inr (hc.mp h1.1), h.1, rfl⟩
  · rw [if_neg h1] at hg'
    rw [hg']
    refine ⟨rfl, rfl, rfl, rfl, ?_, h.1, rfl⟩
    rw [hs]
    simp only [Bits.good, Bits.none, Bool.not_false, Bool.and_true, Bool.and_self, Bool.not_eq_true', decide_eq_false_iff_not]
    omega

/-- C134.  A request to a stream that is not good (at its end, failed, or never opened) delivers nothing; it stays not good, except that
a request for one byte makes it good. -/
theorem C134_not_good (s : IS) (h : Calm s) (hg : s.st.good = false) (size : Nat) :
    let g := readSome s size
    g.threw = false ∧ g.count = 0 ∧ g.wrote = [] ∧ g.is.rest = s.rest ∧ (g.is.st.good = true ↔ size = 1) ∧ Calm g.is := by
  intro g
  have hg' : g = readSome s size := rfl
  rw [readSome, cap_eq] at hg'
  simp only [IS.read, hg, h.2, meets_none, Bool.false_eq_true, if_false] at hg'
  have hc : cap size = 1 ↔ size = 1 := by rw [cap]; omega
  by_cases h1 : cap size = 1
  · rw [if_pos ⟨h1, trivial⟩] at hg'
    rw [hg']
    exact ⟨rfl, rfl, rfl, rfl, by simp [Bits.good, Bits.none]; exact hc.mp h1, h.1, rfl⟩
  · rw [if_neg (fun h => h1 h.1)] at hg'
    rw [hg']
    refine ⟨rfl, rfl, rfl, rfl, ?_, h.1, rfl⟩
    simp [Bits.good]
    exact fun h => h1 (hc.mpr h)

/-- What was appended in the course of a history. -/
def grown : List Op → List UInt8
  | [] => []
  | .ask _ :: ops => grown ops
  | .grow l :: ops => l ++ grown ops

/-- C134.  In any history of requests and growth, from any state, the bytes delivered in order followed by what is left are the content and
what was appended: nothing is lost, repeated or reordered. -/
theorem C134_history (ops : List Op) : ∀ s : IS, Calm s → (run s ops).1.flatten ++ (run s ops).2.rest = s.rest ++ grown ops := by
  induction ops with
  | nil => intro s _; simp [run, grown]
  | cons op ops ih =>
    intro s h
    cases op with
    | grow l =>
      have := ih { s with rest := s.rest ++ l } ⟨h.1, h.2⟩
      rw [run, this]; simp [grown]
    | ask n =>
      rw [run]
      cases hg : s.st.good with
      | true =>
        obtain ⟨_, _, h3, h4, _, h6⟩ := C134_good s h hg n
        simp only [List.flatten_cons, List.append_assoc]
        rw [ih _ h6, h3, h4, ← List.append_assoc, List.take_append_drop, grown]
      | false =>
        obtain ⟨_, _, h3, h4, _, h6⟩ := C134_not_good s h hg n
        simp only [List.flatten_cons, List.append_assoc]
        rw [ih _ h6, h3, h4, List.nil_append, grown]

/-- What a queue would answer to the requests. -/
def queue : List UInt8 → List Op → List (List UInt8)
  | _, [] => []
  | q, .ask n :: ops => q.take n :: queue (q.drop n) ops
  | q, .grow l :: ops => queue (q ++ l) ops

/-- C134.  Requests of one byte at a time follow a growing file: they deliver what has been appended, as a queue does. -/
theorem C134_follow (ops : List Op) (h1 : ∀ n, .ask n ∈ ops → n = 1) :
    ∀ s : IS, Calm s → s.st.good = true → (run s ops).1 = queue s.rest ops ∧ (run s ops).2.st.good = true := by
  induction ops with
  | nil => intro s _ hg; exact ⟨rfl, hg⟩
  | cons op ops ih =>
    intro s h hg
    have ih := ih fun n hn => h1 n (by simp [hn])
    cases op with
    | grow l => rw [run, queue]; exact ih _ ⟨h.1, h.2⟩ hg
    | ask n =>
      cases h1 n (by simp)
      obtain ⟨_, _, h3, h4, h5, h6⟩ := C134_good s h hg 1
      have ih := ih _ h6 (h5.mpr (.inr rfl))
      rw [run, queue]
      have hm : min (cap 1) s.rest.length = min 1 s.rest.length := rfl
      rw [hm] at h3 h4
      refine ⟨?_, ih.2⟩
      dsimp only
      rw [ih.1, h3, h4, ← List.take_eq_take_min, ]
      congr 2
      rcases s.rest with _ | ⟨c, l⟩
      · rfl
      · simp

/-- Finding for C134.  After one larger request that came short, larger requests deliver nothing any more, whatever is appended. -/
theorem C134_finding_stuck (s : IS) (h : Calm s) (hg : s.st.good = true) (size : Nat) (h2 : size ≠ 1) (hs : s.rest.length < cap size)
    (ops : List Op) (h1 : ∀ n, .ask n ∈ ops → n ≠ 1) : (run (readSome s size).is ops).1.flatten = [] := by
  obtain ⟨_, _, _, _, h5, h6⟩ := C134_good s h hg size
  have hb : (readSome s size).is.st.good = false := by
    rw [Bool.eq_false_iff]; intro e; have := h5.mp e; omega
  generalize (readSome s size).is = t at h6 hb
  clear h5
  induction ops generalizing t with
  | nil => rfl
  | cons op ops ih =>
    have ih := ih fun n hn => h1 n (by simp [hn])
    cases op with
    | grow l => rw [run]; exact ih _ ⟨h6.1, h6.2⟩ hb
    | ask n =>
      obtain ⟨_, _, g3, _, g5, g6⟩ := C134_not_good t h6 hb n
      rw [run]
      simp only [List.flatten_cons, g3, List.nil_append]
      refine ih _ g6 ?_
      rw [Bool.eq_false_iff]; exact fun e => h1 n (by simp) (g5.mp e)

/-- C134.  `readChar` on a good stream takes the next byte and answers whether there was one. -/
theorem C134_char (s : IS) (h : Calm s) (hg : s.st.good = true) :
    (∀ c r, s.rest = c :: r → (readChar s).1 = some true ∧ (readChar s).2.1 = [c] ∧ (readChar s).2.2.rest = r) ∧
    (s.rest = [] → (readChar s).1 = some false ∧ (readChar s).2.1 = [] ∧ (readChar s).2.2.rest = []) := by
  obtain ⟨h1, h2, h3, h4, _, _⟩ := C134_good s h hg 1
  have hc : cap 1 = 1 := rfl
  rw [hc] at h2 h3 h4
  refine ⟨fun c r e => ?_, fun e => ?_⟩
  · rw [e] at h2 h3 h4
    simp only [List.length_cons, show min 1 (r.length + 1) = 1 by omega] at h2 h3 h4
    refine ⟨?_, h3, h4⟩
    simp only [readChar, h1, h2]; rfl
  · rw [e] at h2 h3 h4
    refine ⟨?_, h3, h4⟩
    simp only [readChar, h1, h2]; rfl

/-- Finding for C134.  `readChar` wipes out every error: after it a calm stream is good, though it is at its end or was never opened, so a loop
`while (is.good()) readChar(..)` does not end. -/
theorem C134_finding_wiped (s : IS) (h : Calm s) : (readChar s).2.2.st.good = true ∧ Calm (readChar s).2.2 ∧
    (s.st.good = false → (readChar s).1 = some false) := by
  cases hg : s.st.good with
  | true =>
    obtain ⟨_, _, _, _, h5, h6⟩ := C134_good s h hg 1
    exact ⟨h5.mpr (.inr rfl), h6, fun e => by cases e⟩
  | false =>
    obtain ⟨h1, h2, _, _, h5, h6⟩ := C134_not_good s h hg 1
    refine ⟨h5.mpr rfl, h6, fun _ => ?_⟩
    rw [readChar]
    simp only [h1, h2]
    rfl

/-- C134.  `read(buf, size)` on a calm stream in good state: all `size` bytes, or false with everything consumed and stored; in the latter case
the stream looks good exactly if a single byte was missing. -/
theorem C134_read (size : Nat) (s : IS) (h : Calm s) (hg : s.st.good = true) :
    ∃ s', Calm s' ∧ s'.rest = s.rest.drop size ∧
      readFlag size s = (false, decide (size ≤ s.rest.length), s.rest.take size, s') ∧
      (size ≤ s.rest.length → s'.st.good = true) ∧ (s.rest.length < size → (s'.st.good = true ↔ size = s.rest.length + 1)) := by
  have key : ∀ (fuel : Nat) (acc : List UInt8) (size : Nat) (s : IS), Calm s → size < fuel →
      (s.st.good = true ∨ s.rest = [] ∧ size ≠ 0) →
      ∃ s', Calm s' ∧ s'.rest = s.rest.drop size ∧
        readLoop fuel acc size s = (false, decide (size ≤ s.rest.length), acc ++ s.rest.take size, s') ∧
        (size ≤ s.rest.length → s'.st.good = true) ∧ (s.rest.length < size → (s'.st.good = true ↔ size = s.rest.length + 1)) := by
    intro fuel
    induction fuel with
    | zero => intro acc size s _ hf; omega
    | succ fuel ih =>
      intro acc size s h hf hs
      rcases Nat.eq_zero_or_pos size with h0 | h0
      · subst h0
        refine ⟨s, h, by simp, by simp [readLoop], fun _ => ?_, fun h => by omega⟩
        rcases hs with hs | hs
        · exact hs
        · exact absurd rfl hs.2
      · cases hg : s.st.good with
        | false =>
          rcases hs with hs | hs
          · rw [hg] at hs; cases hs
          obtain ⟨g1, g2, g3, g4, g5, g6⟩ := C134_not_good s h hg size
          refine ⟨_, g6, by rw [g4, hs.1]; simp, ?_, fun h => by rw [hs.1] at h; simp at h; omega, fun _ => by rw [hs.1]; exact g5⟩
          rw [readLoop, if_pos h0]
          simp only [g1, g2, Bool.false_eq_true, if_false, if_true]
          rw [hs.1]
          simp
          omega
        | true =>
          obtain ⟨g1, g2, g3, g4, g5, g6⟩ := C134_good s h hg size
          have hcap : cap size = size ∨ cap size = 0x7fffffff ∧ size > 0x7fffffff := by rw [cap]; omega
          rw [readLoop, if_pos h0]
          simp only [g1, Bool.false_eq_true, if_false]
          by_cases hr : s.rest = []
          · have : (readSome s size).count = 0 := by rw [g2, hr]; simp
            rw [if_pos this]
            refine ⟨_, g6, by rw [g4, hr]; simp, by rw [hr]; simp; omega, fun h => by rw [hr] at h; simp at h; omega, fun _ => ?_⟩
            rw [g5, hr]
            simp
            omega
          · have hl : 0 < s.rest.length := List.length_pos_iff.mpr hr
            have hc : (readSome s size).count ≠ 0 := by rw [g2]; omega
            rw [if_neg hc]
            generalize hn : min (cap size) s.rest.length = n at g2 g3 g4 g5
            rw [g2, g3]
            have hle : n ≤ size := by omega
            obtain ⟨s', k1, k2, k3, k4, k5⟩ := ih (acc ++ s.rest.take n) (size - n) (readSome s size).is g6 (by omega) (by
              by_cases e : n = cap size
              · exact .inl (g5.mpr (.inl e))
              · right
                rw [g4]
                refine ⟨List.drop_eq_nil_of_le (by omega), by omega⟩)
            have hlen : (readSome s size).is.rest.length = s.rest.length - n := by rw [g4, List.length_drop]
            rw [hlen] at k3 k4 k5
            refine ⟨s', k1, ?_, ?_, fun h => k4 (by omega), fun h => (k5 (by omega)).trans (by omega)⟩
            · rw [k2, g4, List.drop_drop]; congr 1; omega
            · rw [k3, g4, List.append_assoc]
              congr 2
              · rw [decide_eq_decide]; omega
              · congr 2
                have : size = n + (size - n) := by omega
                conv => rhs; rw [this, List.take_add]
  have := key (size + 1) [] size s h (by omega) (.inl hg)
  simpa [readFlag] using this

/-- C134.  Without growth the flags do not matter: a history of requests is answered as by the flagless stream of C22. -/
theorem C134_flagless (sizes : List Nat) : ∀ s : IS, Calm s → (s.st.good = true ∨ s.rest = []) →
    (run s (sizes.map .ask)).1 = (sizes.foldl (fun (r : List (List UInt8) × List UInt8) n =>
      (r.1 ++ [r.2.take (Stream.IStream.amount r.2 n)], r.2.drop (Stream.IStream.amount r.2 n))) ([], s.rest)).1 := by
  have acc : ∀ (sizes : List Nat) (a : List (List UInt8)) (l : List UInt8),
      (sizes.foldl (fun (r : List (List UInt8) × List UInt8) n =>
        (r.1 ++ [r.2.take (Stream.IStream.amount r.2 n)], r.2.drop (Stream.IStream.amount r.2 n))) (a, l)).1 =
      a ++ (sizes.foldl (fun (r : List (List UInt8) × List UInt8) n =>
        (r.1 ++ [r.2.take (Stream.IStream.amount r.2 n)], r.2.drop (Stream.IStream.amount r.2 n))) ([], l)).1 := by
    intro sizes
    induction sizes with
    | nil => intro a l; simp
    | cons n sizes ih =>
      intro a l
      rw [List.foldl_cons, List.foldl_cons, ih, ih ([] ++ _)]
      simp
  have ham : ∀ (l : List UInt8) (n : Nat), Stream.IStream.amount l n = min (cap n) l.length := by
    intro l n; rw [Stream.IStream.amount, cap_eq]
  induction sizes with
  | nil => intro s _ _; rfl
  | cons n sizes ih =>
    intro s h hs
    rw [List.map_cons, run, List.foldl_cons, acc]
    simp only [ham, List.nil_append]
    simp only [ham] at ih
    cases hg : s.st.good with
    | true =>
      obtain ⟨_, _, g3, g4, g5, g6⟩ := C134_good s h hg n
      rw [ih _ g6 ?_, g3, g4]; rfl
      by_cases e : min (cap n) s.rest.length = cap n
      · exact .inl (g5.mpr (.inl e))
      · right; rw [g4]; exact List.drop_eq_nil_of_le (by omega)
    | false =>
      have hr : s.rest = [] := by
        rcases hs with hs | hs
        · rw [hg] at hs; cases hs
        · exact hs
      obtain ⟨_, _, g3, g4, g5, g6⟩ := C134_not_good s h hg n
      rw [ih _ g6 (.inr (by rw [g4, hr])), g3, g4, hr]; simp

/-- Finding for C134.  If the program has asked for exceptions on `failbit` or `eofbit`, a request that comes short throws: the bytes are in the
buffer and gone from the stream, but how many they were is not returned. -/
theorem C134_finding_exceptions (s : IS) (hd : ∀ i, s.dev i = none) (hm : s.mask.fail = true ∨ s.mask.eof = true) (hg : s.st.good = true)
    (size : Nat) (hs : s.rest.length < cap size) :
    (readSome s size).threw = true ∧ (readSome s size).wrote = s.rest ∧ (readSome s size).is.rest = [] := by
  have e : min (cap size) s.rest.length = s.rest.length := by omega
  have hm' : (s.mask.eof || s.mask.fail) = true := by rcases hm with h | h <;> simp [h]
  rw [readSome, cap_eq]
  simp only [IS.read, hg, hd, if_true, e, hs, decide_true]
  have : Bits.meets { s.st with eof := true, fail := true } s.mask = true := by
    simp only [Bits.meets, Bool.true_and]
    rw [hm']; rfl
  rw [this]
  simp

/-- C134.  When the buffer fails, the bytes it has taken are lost: the call reports 0 bytes; the next request for one byte reports 0 and wipes the
error out, and the one after that goes on behind the lost bytes. -/
theorem C134_finding_device_error (s : IS) (hm : s.mask = Bits.none) (hg : s.st.good = true) (k size : Nat) (hk : s.dev s.calls = some k)
    (h2 : size ≠ 1) :
    (readSome s size).count = 0 ∧ (readSome s size).threw = false ∧ (readSome s size).is.st.bad = true ∧
      (readChar (readSome s size).is).1 = some false ∧ (readChar (readSome s size).is).2.2.st.good = true ∧
      (readChar (readSome s size).is).2.2.rest = s.rest.drop (min k (cap size)) := by
  have hc : cap size ≠ 1 := by rw [cap]; omega
  have e : readSome s size = { threw := false, wrote := [], count := 0, is :=
      { s with rest := s.rest.drop (min k (cap size)), st := { s.st with bad := true }, calls := s.calls + 1 } } := by
    rw [readSome, cap_eq]
    simp only [IS.read, hg, hk, if_true]
    simp [hm, Bits.none, hc]
  rw [e]
  simp [readChar, readSome, IS.read, Bits.good, hm, meets_none, Bits.none, Bits.meets]

/-! ## `std::ostream` -/

theorem write_good (s : OS) (hg : s.st.good = true) (buf : List UInt8) : ∃ k, k ≤ buf.length ∧
    write s buf = (decide (k < buf.length), { s with out := s.out ++ buf.take k, st := ⟨false, false, decide (k < buf.length)⟩, calls := s.calls + 1 }) := by
  have hs := (good_iff _).mp hg
  refine ⟨s.taken buf.length, ?_, ?_⟩
  · rw [OS.taken]; split <;> omega
  · rw [write, OS.write, if_pos hg]
    generalize s.taken buf.length = k
    simp only [hs, Bits.none, OS.failed, Bool.false_or]
    cases decide (k < buf.length) <;> simp [Bits.meets]

theorem write_failed (s : OS) (h : s.failed = true) (buf : List UInt8) :
    (write s buf).1 = true ∧ (write s buf).2.failed = true ∧ (write s buf).2.out = s.out := by
  have hg : s.st.good = false := by
    rw [OS.failed] at h
    rw [Bits.good]; cases hf : s.st.fail <;> cases hb : s.st.bad <;> simp [hf, hb] at h ⊢
  rw [write, OS.write, hg]
  simp only [Bool.false_eq_true, if_false]
  split
  · simp [OS.failed]
  · exact ⟨by simp [h], h, rfl⟩

/-- C134.  A history of writes to a good `std::ostream`, whatever the buffer takes: there is a first write that throws (or none); all before it
are in the output completely, in order; of that one a part is; all behind it throw and leave nothing. -/
theorem C134_writes (bs : List (List UInt8)) : ∀ s : OS, s.st.good = true →
    ((writes s bs).1 = List.replicate bs.length false ∧ (writes s bs).2.out = s.out ++ bs.flatten) ∨
    ∃ (pre : List (List UInt8)) (b : List UInt8) (post : List (List UInt8)) (k : Nat), bs = pre ++ b :: post ∧
      (writes s bs).1 = List.replicate pre.length false ++ List.replicate (post.length + 1) true ∧
      (writes s bs).2.out = s.out ++ pre.flatten ++ b.take k ∧ k < b.length := by
  have stuck : ∀ (bs : List (List UInt8)) (s : OS), s.failed = true →
      (writes s bs).1 = List.replicate bs.length true ∧ (writes s bs).2.out = s.out := by
    intro bs
    induction bs with
    | nil => intro s _; exact ⟨rfl, rfl⟩
    | cons b bs ih =>
      intro s h
      obtain ⟨w1, w2, w3⟩ := write_failed s h b
      obtain ⟨i1, i2⟩ := ih _ w2
      rw [writes]
      simp only
      rw [i1, i2, w1, w3]
      exact ⟨rfl, rfl⟩
  induction bs with
  | nil => intro s _; left; simp [writes]
  | cons b bs ih =>
    intro s hg
    obtain ⟨k, hk, e⟩ := write_good s hg b
    rw [writes, e]
    simp only
    by_cases hkl : k < b.length
    · right
      refine ⟨[], b, bs, k, rfl, ?_, ?_⟩
      · rw [(stuck bs _ (by simp [OS.failed, hkl])).1]; simp [List.replicate_succ, hkl]
      · rw [(stuck bs _ (by simp [OS.failed, hkl])).2]; simp [hkl]
    · have : k = b.length := by omega
      subst this
      rcases ih { s with out := s.out ++ b.take b.length, st := ⟨false, false, decide (b.length < b.length)⟩, calls := s.calls + 1 }
        (by simp [Bits.good]) with ⟨i1, i2⟩ | ⟨pre, c, post, k', i1, i2, i3⟩
      · left
        rw [i1, i2]; simp [List.replicate_succ]
      · right
        refine ⟨b :: pre, c, post, k', by rw [i1]; rfl, ?_, ?_⟩
        · rw [i2]; simp [List.replicate_succ]
        · rw [i3.1]; simp [i3.2]

/-- C134.  The variant with a flag does the same to the stream, and its flag is false exactly where the other throws (unless the stream is told
to throw on `badbit` or `failbit` itself). -/
theorem C134_write_flag (s : OS) (buf : List UInt8) (hm : s.mask = Bits.none) :
    (writeFlag s buf).1 = false ∧ (writeFlag s buf).2.1 = !(write s buf).1 ∧ (writeFlag s buf).2.2 = (write s buf).2 := by
  have h : (s.write buf).1 = false := by
    rw [OS.write]
    split
    · simp only [hm, meets_none]
    · split
      · simp only [hm, meets_none]
      · rfl
  simp [writeFlag, write, h]

/-- Finding for C134.  With only `eofbit` set (an `std::iostream` after `>>` has met the end) and a library whose sentry does not mark this, the
write is skipped but no error is reported, by either variant: the data is lost. -/
theorem C134_finding_eof_write (s : OS) (buf : List UInt8) (h : s.st = ⟨true, false, false⟩) (hm : s.marks s.st = false) :
    write s buf = (false, s) ∧ writeFlag s buf = (false, true, s) := by
  rw [h] at hm
  simp [write, writeFlag, OS.write, OS.failed, h, hm, Bits.good]

/-! ## `StringInputStream` on a string that changes -/

/-- C134.  A `StringInputStream` on a string that is appended to delivers like a queue. -/
theorem C134_string_grows (ops : List Op) : ∀ (data : List UInt8) (pos : Nat), pos ≤ data.length → data.length + (grown ops).length < 2 ^ 64 →
    ∃ r, strRun data pos ops = .ok r ∧ r.1 = queue (data.drop pos) ops := by
  induction ops with
  | nil => intro data pos _ _; exact ⟨_, rfl, rfl⟩
  | cons op ops ih =>
    intro data pos h1 h2
    cases op with
    | grow l =>
      rw [grown, List.length_append] at h2
      obtain ⟨r, e1, e2⟩ := ih (data ++ l) pos (by rw [List.length_append]; omega) (by rw [List.length_append]; omega)
      refine ⟨r, by rw [strRun]; exact e1, ?_⟩
      rw [e2, queue, List.drop_append_of_le_length h1]
    | ask n =>
      rw [grown] at h2
      obtain ⟨e1, e2⟩ := Stream.C22_string_input data (List.replicate n 0) pos 0 n h1 (by omega) (by simp)
      obtain ⟨r, f1, f2⟩ := ih data (pos + min n (data.length - pos)) e2 h2
      refine ⟨_, by rw [strRun, e1]; simp only [Res.ok_bind]; rw [f1]; rfl, ?_⟩
      simp only
      rw [f2, queue]
      have hl : ((data.drop pos).take (min n (data.length - pos))).length = min n (data.length - pos) := by
        rw [List.length_take, List.length_drop]; omega
      congr 1
      · rw [Verif.Spec.Stream.splice]
        simp only [List.take_zero, List.nil_append]
        rw [List.take_append_of_le_length (by omega), List.take_of_length_le (by omega)]
        rw [← List.length_drop, ← List.take_eq_take_min]
      · congr 1
        rw [← List.drop_drop, ← List.length_drop]
        by_cases hn : n ≤ (data.drop pos).length
        · rw [Nat.min_eq_left hn]
        · rw [Nat.min_eq_right (by omega), List.drop_length, List.drop_eq_nil_of_le (by omega)]

/-- Finding for C134.  If the string is cut below the position, the next request is undefined: the remaining size wraps round. -/
theorem C134_finding_string_shrinks (data buf : List UInt8) (pos off size : Nat) (h : data.length < pos) :
    Verif.Stream.StrIn.readSome data pos buf off size = .ub := by
  unfold Verif.Stream.StrIn.readSome
  dsimp only
  rw [if_neg (by omega)]

/-! Concrete cases. -/
def three : IS := ⟨[97, 98, 99], Bits.none, Bits.none, fun _ => none, 0⟩
example : Calm three ∧ three.st.good = true ∧ three.rest.length < cap 5 := ⟨⟨fun _ => rfl, rfl⟩, rfl, by decide⟩
example : (run three [.ask 2, .ask 2, .grow [100], .ask 2, .ask 1, .ask 2]).1 = [[97, 98], [99], [], [], [100]] := by decide +kernel
example : (readFlag 4 three).2.2.2.st.good = true ∧ (readFlag 5 three).2.2.2.st.good = false := by decide +kernel
example : (readSome { three with mask := ⟨false, true, false⟩ } 4).threw = true := by decide +kernel
example : (readSome { three with dev := fun _ => some 2 } 3).is.rest = [99] := by decide +kernel
example : (writes ⟨[], Bits.none, Bits.none, fun _ => true, fun i => if i = 1 then some 1 else none, 0⟩ [[97], [98, 99], [100]]) =
    ([false, true, true], (writes ⟨[], Bits.none, Bits.none, fun _ => true, fun i => if i = 1 then some 1 else none, 0⟩ [[97], [98, 99], [100]]).2) :=
  Prod.ext (by decide +kernel) rfl
example : strRun [97] 0 [.ask 2, .grow [98], .ask 2] = .ok ([[97], [98]], [97, 98], 2) := by decide +kernel

#print axioms C134_good
#print axioms C134_not_good
#print axioms C134_history
#print axioms C134_follow
#print axioms C134_finding_stuck
#print axioms C134_finding_wiped
#print axioms C134_read
#print axioms C134_flagless
#print axioms C134_finding_exceptions
#print axioms C134_finding_device_error
#print axioms C134_writes
#print axioms C134_write_flag
#print axioms C134_finding_eof_write
#print axioms C134_string_grows
#print axioms C134_finding_string_shrinks
#print axioms C134_char

end Verif.Props.StdStream
