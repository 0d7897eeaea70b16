import Verif.Model.Ssl
import Verif.Proof.PartialIO
set_option linter.unusedSimpArgs false
/-! Lemmas for C77. -/
namespace Verif.Ssl
open Verif.PartialIO (Outcome wrapInt subSize)

theorem wrap_size (b : Nat) : wrapInt 32 (min 0x7fffffff (b : Int)) = ((min 0x7fffffff b : Nat) : Int) := by
  rw [Verif.PartialIO.wrap_id _ (by omega) (by omega)]; omega

/-- No other write is unfinished. -/
def Ready (d : Conn) (p b : Nat) : Prop :=
  d.shut = false ∧ (d.pending = none ∨ d.pending = some ((p : Int), min 0x7fffffff b))

/-- One round of `write`. -/
theorem write_step (fuel : Nat) (buf : List UInt8) (p b : Nat) (d : Conn) (h : p + b = buf.length) (hb : buf.length < 2 ^ 64)
    (h0 : 0 < b) (hr : Ready d p b) :
    writeLoop (fuel + 1) buf p b d = match d.ans d.calls with
      | .move k => writeLoop fuel buf ((p + min (k + 1) (min 0x7fffffff b) : Nat) : Int) (b - min (k + 1) (min 0x7fffffff b))
          ⟨d.out ++ (buf.drop p).take (min (k + 1) (min 0x7fffffff b)), d.rest, d.ans, d.calls + 1, none, d.shut⟩
      | .wantRead => writeLoop fuel buf p b ⟨d.out, d.rest, d.ans, d.calls + 1, some ((p : Int), min 0x7fffffff b), d.shut⟩
      | .wantWrite => writeLoop fuel buf p b ⟨d.out, d.rest, d.ans, d.calls + 1, some ((p : Int), min 0x7fffffff b), d.shut⟩
      | .error => (.failed, { d with calls := d.calls + 1 }) := by
  have hl : ((buf.drop p).take (min 0x7fffffff b)).length = min 0x7fffffff b := by
    rw [List.length_take, List.length_drop]; omega
  have hp : d.pending.any (fun q => q ≠ ((p : Int), min 0x7fffffff b)) = false := by
    rcases hr.2 with e | e <;> simp [e]
  rw [writeLoop, if_pos h0]
  simp only [wrap_size, Int.toNat_natCast]
  rw [if_pos (by omega)]
  obtain ⟨a, ha⟩ : ∃ a, d.ans d.calls = a := ⟨_, rfl⟩
  have hw : d.write (p : Int) ((buf.drop p).take (min 0x7fffffff b)) = match d.ans d.calls with
      | .move k => (.ok (min (k + 1) (min 0x7fffffff b)),
          ⟨d.out ++ (buf.drop p).take (min (k + 1) (min 0x7fffffff b)), d.rest, d.ans, d.calls + 1, none, d.shut⟩)
      | .wantRead => (.error .wantRead, ⟨d.out, d.rest, d.ans, d.calls + 1, some ((p : Int), min 0x7fffffff b), d.shut⟩)
      | .wantWrite => (.error .wantWrite, ⟨d.out, d.rest, d.ans, d.calls + 1, some ((p : Int), min 0x7fffffff b), d.shut⟩)
      | .error => (.error .syscall, { d with calls := d.calls + 1 }) := by
    rw [Conn.write, hl]
    rw [if_neg (by simp [hr.1]), if_neg (by rw [hp]; simp)]
    rw [ha]
    cases a with
    | move k =>
      simp only [List.take_take]
      rw [Nat.min_eq_left (show min (k + 1) (min 0x7fffffff b) ≤ min 0x7fffffff b by omega)]
    | wantRead => rfl
    | wantWrite => rfl
    | error => rfl
  rw [hw, ha]
  cases a with
  | move k =>
    simp only
    rw [Verif.PartialIO.subSize_eq _ _ (by omega) (by omega), Int.natCast_add]
  | wantRead => simp
  | wantWrite => simp
  | error => simp

/-- Whatever OpenSSL answers. -/
theorem write_inv (buf : List UInt8) (hb : buf.length < 2 ^ 64) (fuel : Nat) : ∀ (p b : Nat) (d : Conn), p + b = buf.length →
    Ready d p b →
    ∃ o d' n, writeLoop fuel buf p b d = (o, d') ∧ n ≤ b ∧ d'.out = d.out ++ (buf.drop p).take n ∧ d'.rest = d.rest ∧
      d'.ans = d.ans ∧ d'.shut = d.shut ∧ d.calls ≤ d'.calls ∧
      (o = .done ∧ n = b ∧ (0 < b → d'.pending = none) ∧ (b = 0 → d'.pending = d.pending) ∨
        o = .failed ∧ d.calls < d'.calls ∧ d.ans (d'.calls - 1) = .error ∨
        o = .running) := by
  induction fuel with
  | zero => intro p b d _ _; exact ⟨.running, d, 0, rfl, by omega, by simp, rfl, rfl, rfl, Nat.le_refl _, .inr (.inr rfl)⟩
  | succ fuel ih =>
    intro p b d h hr
    by_cases h0 : 0 < b
    · rw [write_step fuel buf p b d h hb h0 hr]
      have want : ∀ d1 : Conn, d1 = ⟨d.out, d.rest, d.ans, d.calls + 1, some ((p : Int), min 0x7fffffff b), d.shut⟩ →
          ∃ o d' n, writeLoop fuel buf p b d1 = (o, d') ∧ n ≤ b ∧ d'.out = d.out ++ (buf.drop p).take n ∧ d'.rest = d.rest ∧
      d'.ans = d.ans ∧ d'.shut = d.shut ∧ d.calls ≤ d'.calls ∧
      (o = .done ∧ n = b ∧ (0 < b → d'.pending = none) ∧ (b = 0 → d'.pending = d.pending) ∨
        o = .failed ∧ d.calls < d'.calls ∧ d.ans (d'.calls - 1) = .error ∨
        o = .running) := by
        rintro d1 rfl
        obtain ⟨o, d', n, e, hn, ho, hrr, hans, hs, hc, hx⟩ := ih p b _ h
          (show Ready ⟨d.out, d.rest, d.ans, d.calls + 1, some ((p : Int), min 0x7fffffff b), d.shut⟩ p b from ⟨hr.1, .inr rfl⟩)
        refine ⟨o, d', n, e, hn, ho, hrr, hans, hs, by simp only at hc; omega, ?_⟩
        obtain ⟨h1, h2, h3, h4⟩ | ⟨h1, h2, h3⟩ | h1 := hx
        · exact .inl ⟨h1, h2, h3, fun h => by omega⟩
        · exact .inr (.inl ⟨h1, by simp only at h2; omega, h3⟩)
        · exact .inr (.inr h1)
      cases ha : d.ans d.calls with
      | move k =>
        obtain ⟨o, d', n, e, hn, ho, hrr, hans, hs, hc, hx⟩ := ih (p + min (k + 1) (min 0x7fffffff b))
          (b - min (k + 1) (min 0x7fffffff b))
          ⟨d.out ++ (buf.drop p).take (min (k + 1) (min 0x7fffffff b)), d.rest, d.ans, d.calls + 1, none, d.shut⟩ (by omega)
          ⟨hr.1, .inl rfl⟩
        refine ⟨o, d', min (k + 1) (min 0x7fffffff b) + n, e, by omega, ?_, hrr, hans, hs, by simp only at hc; omega, ?_⟩
        · rw [ho, List.take_add, List.drop_drop, List.append_assoc]
        · obtain ⟨h1, h2, h3, h4⟩ | ⟨h1, h2, h3⟩ | h1 := hx
          · refine .inl ⟨h1, by omega, fun _ => ?_, fun h => by omega⟩
            rcases Nat.eq_zero_or_pos (b - min (k + 1) (min 0x7fffffff b)) with hz | hz
            · exact h4 hz
            · exact h3 hz
          · exact .inr (.inl ⟨h1, by simp only at h2; omega, h3⟩)
          · exact .inr (.inr h1)
      | wantRead => exact want _ rfl
      | wantWrite => exact want _ rfl
      | error =>
        exact ⟨.failed, { d with calls := d.calls + 1 }, 0, rfl, by omega, by simp, rfl, rfl, rfl, by simp,
          .inr (.inl ⟨rfl, by simp, ha⟩)⟩
    · rw [writeLoop, if_neg h0]
      exact ⟨.done, d, 0, rfl, by omega, by simp, rfl, rfl, rfl, Nat.le_refl _,
        .inl ⟨rfl, by omega, fun h => absurd h h0, fun _ => rfl⟩⟩

/-- OpenSSL does not want the same for ever. -/
def Fair (ans : Nat → Ans) : Prop := ∀ i, ∃ j, i ≤ j ∧ ans j ≠ .wantRead ∧ ans j ≠ .wantWrite

theorem write_term (buf : List UInt8) (hb : buf.length < 2 ^ 64) (ans : Nat → Ans) (hf : Fair ans) (b : Nat) :
    ∀ (p : Nat) (d : Conn), p + b = buf.length → Ready d p b → d.ans = ans →
      ∃ fuel, (writeLoop fuel buf p b d).1 ≠ .running := by
  induction b using Nat.strongRecOn with
  | _ b ih =>
    intro p d h hr hd
    by_cases h0 : 0 < b
    · obtain ⟨j, hj, h1, h2⟩ := hf d.calls
      obtain ⟨n, rfl⟩ := Nat.exists_eq_add_of_le hj
      clear hj
      generalize hc : d.calls = c at h1 h2
      induction n generalizing d c with
      | zero =>
        rw [← hd, Nat.add_zero, ← hc] at h1 h2
        cases ha : d.ans d.calls with
        | move k =>
          obtain ⟨fuel, e⟩ := ih (b - min (k + 1) (min 0x7fffffff b)) (by omega) (p + min (k + 1) (min 0x7fffffff b))
            ⟨d.out ++ (buf.drop p).take (min (k + 1) (min 0x7fffffff b)), d.rest, d.ans, d.calls + 1, none, d.shut⟩ (by omega)
            ⟨hr.1, .inl rfl⟩ hd
          refine ⟨fuel + 1, ?_⟩
          rw [write_step fuel buf p b d h hb h0 hr, ha]
          exact e
        | wantRead => exact absurd ha h1
        | wantWrite => exact absurd ha h2
        | error =>
          refine ⟨1, ?_⟩
          rw [write_step 0 buf p b d h hb h0 hr, ha]
          simp
      | succ n ihn =>
        have want : ∃ fuel, (writeLoop fuel buf p b
            ⟨d.out, d.rest, d.ans, d.calls + 1, some ((p : Int), min 0x7fffffff b), d.shut⟩).1 ≠ .running :=
          ihn ⟨d.out, d.rest, d.ans, d.calls + 1, some ((p : Int), min 0x7fffffff b), d.shut⟩
            ⟨hr.1, .inr rfl⟩ hd (c + 1) (by simp [hc])
            (by rw [Nat.add_assoc, Nat.add_comm 1 n]; exact h1) (by rw [Nat.add_assoc, Nat.add_comm 1 n]; exact h2)
        cases ha : d.ans d.calls with
        | move k =>
          obtain ⟨fuel, e⟩ := ih (b - min (k + 1) (min 0x7fffffff b)) (by omega) (p + min (k + 1) (min 0x7fffffff b))
            ⟨d.out ++ (buf.drop p).take (min (k + 1) (min 0x7fffffff b)), d.rest, d.ans, d.calls + 1, none, d.shut⟩ (by omega)
            ⟨hr.1, .inl rfl⟩ hd
          refine ⟨fuel + 1, ?_⟩
          rw [write_step fuel buf p b d h hb h0 hr, ha]
          exact e
        | wantRead =>
          obtain ⟨fuel, e⟩ := want
          refine ⟨fuel + 1, ?_⟩
          rw [write_step fuel buf p b d h hb h0 hr, ha]
          exact e
        | wantWrite =>
          obtain ⟨fuel, e⟩ := want
          refine ⟨fuel + 1, ?_⟩
          rw [write_step fuel buf p b d h hb h0 hr, ha]
          exact e
        | error =>
          refine ⟨1, ?_⟩
          rw [write_step 0 buf p b d h hb h0 hr, ha]
          simp
    · refine ⟨1, ?_⟩
      rw [writeLoop, if_neg h0]
      simp

/-! ## Reading -/

/-- One round of `readSome`. -/
theorem readSome_step (fuel : Nat) (dst : List UInt8) (p b : Nat) (d : Conn) (h : p + b ≤ dst.length) :
    readSome (fuel + 1) dst p b d = match d.ans d.calls with
      | .move k =>
        if d.rest = [] then (.done, 0, dst, { d with calls := d.calls + 1 })
        else (.done, min (min (k + 1) (min 0x7fffffff b)) d.rest.length,
          dst.take p ++ d.rest.take (min (k + 1) (min 0x7fffffff b)) ++
            dst.drop (p + min (min (k + 1) (min 0x7fffffff b)) d.rest.length),
          ⟨d.out, d.rest.drop (min (k + 1) (min 0x7fffffff b)), d.ans, d.calls + 1, d.pending, d.shut⟩)
      | .wantRead => readSome fuel dst p b { d with calls := d.calls + 1 }
      | .wantWrite => readSome fuel dst p b { d with calls := d.calls + 1 }
      | .error => (.failed, 0, dst, { d with calls := d.calls + 1 }) := by
  rw [readSome]
  simp only [wrap_size, Int.toNat_natCast]
  rw [if_pos (by omega)]
  obtain ⟨a, ha⟩ : ∃ a, d.ans d.calls = a := ⟨_, rfl⟩
  cases a with
  | move k =>
    simp only [Conn.read, ha]
    by_cases hz : d.rest = []
    · simp [hz]
    · simp only [if_neg hz, List.length_take]
      rw [if_pos (by omega)]
  | wantRead => simp [Conn.read, ha]
  | wantWrite => simp [Conn.read, ha]
  | error => simp [Conn.read, ha]

theorem readSome_inv (fuel : Nat) : ∀ (dst : List UInt8) (p b : Nat) (d : Conn), p + b ≤ dst.length →
    ∃ o r dst' d', readSome fuel dst p b d = (o, r, dst', d') ∧ d'.ans = d.ans ∧ d'.out = d.out ∧ d'.pending = d.pending ∧
      d.calls ≤ d'.calls ∧
      (o = .done ∧ d.calls < d'.calls ∧ r ≤ b ∧ r ≤ d.rest.length ∧ (r = 0 → b = 0 ∨ d.rest = []) ∧ d'.rest = d.rest.drop r ∧
          dst' = dst.take p ++ d.rest.take r ++ dst.drop (p + r) ∨
        o = .failed ∧ d.calls < d'.calls ∧ dst' = dst ∧ d'.rest = d.rest ∧ d.ans (d'.calls - 1) = .error ∨
        o = .running ∧ dst' = dst ∧ d'.rest = d.rest) := by
  induction fuel with
  | zero => intro dst p b d _; exact ⟨.running, 0, dst, d, rfl, rfl, rfl, rfl, Nat.le_refl _, .inr (.inr ⟨rfl, rfl, rfl⟩)⟩
  | succ fuel ih =>
    intro dst p b d h
    rw [readSome_step fuel dst p b d h]
    have again : ∃ o r dst' d', readSome fuel dst p b { d with calls := d.calls + 1 } = (o, r, dst', d') ∧ d'.ans = d.ans ∧
      d'.out = d.out ∧ d'.pending = d.pending ∧ d.calls ≤ d'.calls ∧
      (o = .done ∧ d.calls < d'.calls ∧ r ≤ b ∧ r ≤ d.rest.length ∧ (r = 0 → b = 0 ∨ d.rest = []) ∧ d'.rest = d.rest.drop r ∧
          dst' = dst.take p ++ d.rest.take r ++ dst.drop (p + r) ∨
        o = .failed ∧ d.calls < d'.calls ∧ dst' = dst ∧ d'.rest = d.rest ∧ d.ans (d'.calls - 1) = .error ∨
        o = .running ∧ dst' = dst ∧ d'.rest = d.rest) := by
      obtain ⟨o, r, dst', d', e, h1, h2, hp, h3, hx⟩ := ih dst p b { d with calls := d.calls + 1 } h
      simp only at h3
      refine ⟨o, r, dst', d', e, h1, h2, hp, by omega, ?_⟩
      obtain ⟨ho, hc, hx⟩ | ⟨ho, hc, hx⟩ | hx := hx
      · exact .inl ⟨ho, by simp only at hc; omega, hx⟩
      · exact .inr (.inl ⟨ho, by simp only at hc; omega, hx⟩)
      · exact .inr (.inr hx)
    cases ha : d.ans d.calls with
    | move k =>
      by_cases hz : d.rest = []
      · simp only [if_pos hz]
        exact ⟨_, _, _, _, rfl, rfl, rfl, rfl, by simp, .inl ⟨rfl, by simp, by omega, by omega, fun _ => .inr hz, by simp, by simp⟩⟩
      · simp only [if_neg hz]
        have hlen : d.rest.length ≠ 0 := fun h => hz (List.eq_nil_of_length_eq_zero h)
        refine ⟨_, _, _, _, rfl, rfl, rfl, rfl, by simp, .inl ⟨rfl, by simp, by omega, by omega, fun h => .inl (by omega), ?_, ?_⟩⟩
        · simp only
          rcases Nat.le_total (min (k + 1) (min 0x7fffffff b)) d.rest.length with hle | hle
          · rw [Nat.min_eq_left hle]
          · rw [Nat.min_eq_right hle, List.drop_eq_nil_of_le hle, List.drop_eq_nil_of_le (Nat.le_refl _)]
        · rcases Nat.le_total (min (k + 1) (min 0x7fffffff b)) d.rest.length with hle | hle
          · rw [Nat.min_eq_left hle]
          · rw [Nat.min_eq_right hle, List.take_of_length_le hle, List.take_length]
    | wantRead => exact again
    | wantWrite => exact again
    | error =>
      exact ⟨.failed, 0, dst, _, rfl, rfl, rfl, rfl, by simp, .inr (.inl ⟨rfl, by simp, rfl, rfl, by simpa using ha⟩)⟩

theorem read_inv (fuel : Nat) : ∀ (dst : List UInt8) (p b : Nat) (d : Conn), p + b ≤ dst.length →
    ∃ o dst' d' n, readLoop fuel dst p b d = (o, dst', d') ∧ n ≤ b ∧ n ≤ d.rest.length ∧ d'.rest = d.rest.drop n ∧
      dst' = dst.take p ++ d.rest.take n ++ dst.drop (p + n) ∧ d'.ans = d.ans ∧ d'.out = d.out ∧ d'.pending = d.pending ∧
      (o = .done ∧ n = b ∨ o = .failed ∧ d.calls < d'.calls ∧ d.ans (d'.calls - 1) = .error ∨ o = .running) := by
  induction fuel with
  | zero => intro dst p b d _; exact ⟨.running, dst, d, 0, rfl, by omega, by omega, by simp, by simp, rfl, rfl, rfl, .inr (.inr rfl)⟩
  | succ fuel ih =>
    intro dst p b d h
    rw [readLoop]
    by_cases h0 : b > 0
    · rw [if_pos h0]
      obtain ⟨o, r, dst', d', e, h1, h2, hp, h3, hx⟩ := readSome_inv (fuel + 1) dst p b d h
      rw [e]
      obtain ⟨rfl, hc, hr, hr', _, hrest, hdst⟩ | ⟨rfl, hc, rfl, hrest, he⟩ | ⟨rfl, rfl, hrest⟩ := hx
      · simp only
        have hlt : (List.take p dst ++ List.take r d.rest).length = p + r := by
          rw [List.length_append, List.length_take, List.length_take]; omega
        have hl : p + r + (b - r) ≤ dst'.length := by
          rw [hdst, List.length_append, hlt, List.length_drop]; omega
        obtain ⟨o, dst'', d'', n, e, hn, hn', hrest', hdst', hans, ho', hp', hx⟩ := ih dst' (p + r) (b - r) d' hl
        rw [hrest, List.length_drop] at hn'
        refine ⟨o, dst'', d'', r + n, e, by omega, by omega, ?_, ?_, by rw [hans, h1], by rw [ho', h2], by rw [hp', hp], ?_⟩
        · rw [hrest', hrest, List.drop_drop]
        · rw [hdst', hdst, List.take_left' hlt, hrest, ← Nat.add_assoc, ← hlt, List.drop_length_add_append, List.drop_drop, hlt,
            List.take_add, ← List.append_assoc]
        · rw [h1] at hx
          obtain ⟨ho, hx⟩ | ⟨ho, hc', hx⟩ | hx := hx
          · exact .inl ⟨ho, by omega⟩
          · exact .inr (.inl ⟨ho, by omega, hx⟩)
          · exact .inr (.inr hx)
      · exact ⟨.failed, dst', d', 0, rfl, by omega, by omega, by simp [hrest], by simp, h1, h2, hp, .inr (.inl ⟨rfl, hc, he⟩)⟩
      · exact ⟨.running, dst', d', 0, rfl, by omega, by omega, by simp [hrest], by simp, h1, h2, hp, .inr (.inr rfl)⟩
    · rw [if_neg h0]
      exact ⟨.done, dst, d, 0, rfl, by omega, by omega, by simp, by simp, rfl, rfl, rfl, .inl ⟨rfl, by omega⟩⟩

theorem readSome_succ (fuel : Nat) : ∀ (dst : List UInt8) (p b : Nat) (d : Conn), p + b ≤ dst.length →
    (readSome fuel dst p b d).1 ≠ .running → readSome (fuel + 1) dst p b d = readSome fuel dst p b d := by
  induction fuel with
  | zero => intro dst p b d _ h; exact absurd rfl h
  | succ fuel ih =>
    intro dst p b d hl h
    rw [readSome_step fuel dst p b d hl] at h ⊢
    rw [readSome_step (fuel + 1) dst p b d hl]
    cases ha : d.ans d.calls with
    | move k => rfl
    | wantRead => rw [ha] at h; exact ih _ _ _ _ hl h
    | wantWrite => rw [ha] at h; exact ih _ _ _ _ hl h
    | error => rfl

theorem readSome_le (f g : Nat) (hfg : f ≤ g) (dst : List UInt8) (p b : Nat) (d : Conn) (hl : p + b ≤ dst.length)
    (h : (readSome f dst p b d).1 ≠ .running) : readSome g dst p b d = readSome f dst p b d := by
  obtain ⟨n, rfl⟩ := Nat.exists_eq_add_of_le hfg
  clear hfg
  induction n with
  | zero => rfl
  | succ n ih => rw [← Nat.add_assoc, readSome_succ (f + n) dst p b d hl (by rw [ih]; exact h), ih]

/-- `readSome` stops at the first call that does not want a repetition. -/
theorem readSome_term (j : Nat) (dst : List UInt8) (p b : Nat) (hl : p + b ≤ dst.length) : ∀ (n : Nat) (d : Conn),
    d.calls + n = j → d.ans j ≠ .wantRead → d.ans j ≠ .wantWrite → ∃ f, (readSome f dst p b d).1 ≠ .running := by
  intro n
  induction n with
  | zero =>
    intro d hd h1 h2
    rw [Nat.add_zero] at hd
    subst hd
    refine ⟨1, ?_⟩
    rw [readSome_step 0 dst p b d hl]
    cases ha : d.ans d.calls with
    | move k => simp only; split <;> simp
    | wantRead => exact absurd ha h1
    | wantWrite => exact absurd ha h2
    | error => simp
  | succ n ih =>
    intro d hd h1 h2
    obtain ⟨f, e⟩ := ih { d with calls := d.calls + 1 } (by simp only; omega) h1 h2
    cases ha : d.ans d.calls with
    | move k => exact ⟨1, by rw [readSome_step 0 dst p b d hl, ha]; simp only; split <;> simp⟩
    | wantRead => exact ⟨f + 1, by rw [readSome_step f dst p b d hl, ha]; exact e⟩
    | wantWrite => exact ⟨f + 1, by rw [readSome_step f dst p b d hl, ha]; exact e⟩
    | error => exact ⟨1, by rw [readSome_step 0 dst p b d hl, ha]; simp⟩

theorem read_term (ans : Nat → Ans) (hf : Fair ans) (b : Nat) : ∀ (dst : List UInt8) (p : Nat) (d : Conn),
    p + b ≤ dst.length → b ≤ d.rest.length → d.ans = ans →
      ∃ f0, ∀ f, f0 ≤ f → (readLoop f dst p b d).1 ≠ .running := by
  induction b using Nat.strongRecOn with
  | _ b ih =>
    intro dst p d h hrl hd
    by_cases h0 : b > 0
    · obtain ⟨j, hj, hn1, hn2⟩ := hf d.calls
      obtain ⟨f1, hr1⟩ := readSome_term j dst p b h (j - d.calls) d (by omega) (by rw [hd]; exact hn1) (by rw [hd]; exact hn2)
      obtain ⟨o, r, dst', d', e, h1, h2, _, h3, hx⟩ := readSome_inv f1 dst p b d h
      rw [e] at hr1
      have hstep : ∀ f, f1 ≤ f + 1 → readSome (f + 1) dst p b d = (o, r, dst', d') := by
        intro f hf1
        rw [readSome_le f1 (f + 1) hf1 dst p b d h (by rw [e]; exact hr1), e]
      obtain ⟨rfl, hc, hr, hr', hz, hrest, hdst⟩ | ⟨rfl, _⟩ | ⟨rfl, _⟩ := hx
      · have hr0 : r ≠ 0 := by
          intro h
          rcases hz h with h | h
          · omega
          · rw [h] at hrl; simp at hrl; omega
        have hl : p + r + (b - r) ≤ dst'.length := by
          rw [hdst, List.length_append, List.length_append, List.length_take, List.length_take, List.length_drop]; omega
        obtain ⟨f2, h2⟩ := ih (b - r) (by omega) dst' (p + r) d' hl (by rw [hrest, List.length_drop]; omega) (by rw [h1, hd])
        refine ⟨f1 + f2 + 1, fun f hf0 => ?_⟩
        obtain ⟨g, rfl⟩ : ∃ g, f = g + 1 := ⟨f - 1, by omega⟩
        rw [readLoop, if_pos h0, hstep g (by omega)]
        exact h2 g (by omega)
      · refine ⟨f1 + 1, fun f hf0 => ?_⟩
        obtain ⟨g, rfl⟩ : ∃ g, f = g + 1 := ⟨f - 1, by omega⟩
        rw [readLoop, if_pos h0, hstep g (by omega)]
        simp
      · exact absurd rfl hr1
    · refine ⟨1, fun f hf0 => ?_⟩
      obtain ⟨g, rfl⟩ : ∃ g, f = g + 1 := ⟨f - 1, by omega⟩
      rw [readLoop, if_neg h0]
      simp

end Verif.Ssl
