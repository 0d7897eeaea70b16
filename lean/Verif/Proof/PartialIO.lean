import Verif.Model.PartialIO
set_option linter.unusedSimpArgs false
/-! Lemmas for C54. -/
namespace Verif.PartialIO

theorem subSize_eq (b n : Nat) (h : n ≤ b) (hb : b < 2 ^ 64) : subSize b n = b - n := by
  rw [subSize]
  omega

theorem wrap_id (x : Int) (h1 : -1 ≤ x) (h2 : x ≤ 0x7fffffff) : wrapInt 32 x = x := by
  rw [wrapInt]
  apply Int.bmod_eq_of_le <;> omega

/-- One round of `File::write`. -/
theorem file_step (fuel : Nat) (buf : List UInt8) (p b : Nat) (d : Dev) (h : p + b = buf.length) (hb : buf.length < 2 ^ 64)
    (h0 : 0 < b) :
    File.writeLoop (fuel + 1) buf p b d = match d.ans d.calls with
      | .move k => File.writeLoop fuel buf ((p + min k (min 0x7fffffff b) : Nat) : Int) (b - min k (min 0x7fffffff b))
          { d with out := d.out ++ (buf.drop p).take (min k (min 0x7fffffff b)), calls := d.calls + 1 }
      | .eintr => File.writeLoop fuel buf p b { d with calls := d.calls + 1 }
      | .error => (.failed, { d with calls := d.calls + 1 }) := by
  have hl : ((buf.drop p).take (min 0x7fffffff b)).length = min 0x7fffffff b := by
    rw [List.length_take, List.length_drop]; omega
  rw [File.writeLoop, if_pos h0]
  simp only [Int.toNat_natCast]
  rw [if_pos (by omega)]
  obtain ⟨a, ha⟩ : ∃ a, d.ans d.calls = a := ⟨_, rfl⟩
  cases a with
  | move k =>
    simp only [Dev.write, ha, hl]
    rw [if_neg (by omega), subSize_eq _ _ (by omega) (by omega), List.take_take,
      Nat.min_eq_left (show min k (min 0x7fffffff b) ≤ min 0x7fffffff b by omega), Int.natCast_add]
  | eintr => simp only [Dev.write, ha]; rfl
  | error => simp only [Dev.write, ha]; rfl

/-- One round of `Socket::write`. -/
theorem socket_step (fuel : Nat) (buf : List UInt8) (p b : Nat) (d : Dev) (h : p + b = buf.length) (hb : buf.length < 2 ^ 64)
    (h0 : 0 < b) :
    Socket.writeLoop (fuel + 1) buf p b d = match d.ans d.calls with
      | .move k => Socket.writeLoop fuel buf ((p + min k (min 0x7fffffff b) : Nat) : Int) (b - min k (min 0x7fffffff b))
          { d with out := d.out ++ (buf.drop p).take (min k (min 0x7fffffff b)), calls := d.calls + 1 }
      | .eintr => Socket.writeLoop fuel buf p b { d with calls := d.calls + 1 }
      | .error => (.failed, { d with calls := d.calls + 1 }) := by
  have hl : ((buf.drop p).take (min 0x7fffffff b)).length = min 0x7fffffff b := by
    rw [List.length_take, List.length_drop]; omega
  have hw : wrapInt 32 (min 0x7fffffff (b : Int)) = ((min 0x7fffffff b : Nat) : Int) := by
    rw [wrap_id _ (by omega) (by omega)]; omega
  have hm : wrapInt 32 (-1) = -1 := wrap_id _ (by omega) (by omega)
  rw [Socket.writeLoop, if_pos h0]
  simp only [hw, Int.toNat_natCast]
  rw [if_pos (by omega)]
  obtain ⟨a, ha⟩ : ∃ a, d.ans d.calls = a := ⟨_, rfl⟩
  cases a with
  | move k =>
    have hk : wrapInt 32 ((min k (min 0x7fffffff b) : Nat) : Int) = ((min k (min 0x7fffffff b) : Nat) : Int) :=
      wrap_id _ (by omega) (by omega)
    simp only [Dev.write, ha, hl, hk]
    rw [if_neg (by omega), if_neg (by omega), subSize_eq _ _ (by omega) (by omega), List.take_take,
      Nat.min_eq_left (show min k (min 0x7fffffff b) ≤ min 0x7fffffff b by omega), Int.natCast_add]
  | eintr => simp only [Dev.write, ha, hm]; rfl
  | error => simp only [Dev.write, ha, hm]; rfl

/-- `Socket::write` behaves like `File::write`. -/
theorem socket_eq (buf : List UInt8) (hb : buf.length < 2 ^ 64) (fuel : Nat) : ∀ (p b : Nat) (d : Dev), p + b = buf.length →
    Socket.writeLoop fuel buf p b d = File.writeLoop fuel buf p b d := by
  induction fuel with
  | zero => intro p b d _; rfl
  | succ fuel ih =>
    intro p b d h
    by_cases h0 : 0 < b
    · rw [socket_step fuel buf p b d h hb h0, file_step fuel buf p b d h hb h0]
      cases d.ans d.calls with
      | move k => exact ih _ _ _ (by omega)
      | eintr => exact ih _ _ _ h
      | error => rfl
    · rw [Socket.writeLoop, File.writeLoop, if_neg h0, if_neg h0]

/-- Whatever the system answers. -/
theorem write_inv (buf : List UInt8) (hb : buf.length < 2 ^ 64) (fuel : Nat) : ∀ (p b : Nat) (d : Dev), p + b = buf.length →
    ∃ o d' n, File.writeLoop fuel buf p b d = (o, d') ∧ n ≤ b ∧ d'.out = d.out ++ (buf.drop p).take n ∧ d'.rest = d.rest ∧
      d'.ans = d.ans ∧ d.calls ≤ d'.calls ∧
      (o = .done ∧ n = b ∨ o = .failed ∧ d.calls < d'.calls ∧ d.ans (d'.calls - 1) = .error ∨ o = .running) := by
  induction fuel with
  | zero => intro p b d _; exact ⟨.running, d, 0, rfl, by omega, by simp, rfl, rfl, Nat.le_refl _, .inr (.inr rfl)⟩
  | succ fuel ih =>
    intro p b d h
    by_cases h0 : 0 < b
    · rw [file_step fuel buf p b d h hb h0]
      cases ha : d.ans d.calls with
      | move k =>
        obtain ⟨o, d', n, e, hn, ho, hr, hans, hc, hx⟩ := ih (p + min k (min 0x7fffffff b)) (b - min k (min 0x7fffffff b))
          { d with out := d.out ++ (buf.drop p).take (min k (min 0x7fffffff b)), calls := d.calls + 1 } (by omega)
        refine ⟨o, d', min k (min 0x7fffffff b) + n, e, by omega, ?_, hr, hans, by simp only at hc; omega, ?_⟩
        · rw [ho, List.take_add, List.drop_drop, List.append_assoc]
        · obtain ⟨h1, h2⟩ | h1 := hx
          · exact .inl ⟨h1, by omega⟩
          · obtain ⟨h1, h2, h3⟩ | h1 := h1
            · exact .inr (.inl ⟨h1, by simp only at h2; omega, h3⟩)
            · exact .inr (.inr h1)
      | eintr =>
        obtain ⟨o, d', n, e, hn, ho, hr, hans, hc, hx⟩ := ih p b { d with calls := d.calls + 1 } h
        refine ⟨o, d', n, e, hn, ho, hr, hans, by simp only at hc; omega, ?_⟩
        obtain h1 | ⟨h1, h2, h3⟩ | h1 := hx
        · exact .inl h1
        · exact .inr (.inl ⟨h1, by simp only at h2; omega, h3⟩)
        · exact .inr (.inr h1)
      | error =>
        exact ⟨.failed, { d with calls := d.calls + 1 }, 0, rfl, by omega, by simp, rfl, rfl, by simp, .inr (.inl ⟨rfl, by simp, ha⟩)⟩
    · rw [File.writeLoop, if_neg h0]
      exact ⟨.done, d, 0, rfl, by omega, by simp, rfl, rfl, Nat.le_refl _, .inl ⟨rfl, by omega⟩⟩

/-- The system makes progress again and again. -/
def Fair (ans : Nat → Ans) : Prop := ∀ i, ∃ j, i ≤ j ∧ ans j ≠ .eintr ∧ ans j ≠ .move 0

theorem write_term (buf : List UInt8) (hb : buf.length < 2 ^ 64) (ans : Nat → Ans) (hf : Fair ans) (b : Nat) :
    ∀ (p : Nat) (d : Dev), p + b = buf.length → d.ans = ans → ∃ fuel, (File.writeLoop fuel buf p b d).1 ≠ .running := by
  induction b using Nat.strongRecOn with
  | _ b ih =>
    intro p d h hd
    by_cases h0 : 0 < b
    · obtain ⟨j, hj, h1, h2⟩ := hf d.calls
      obtain ⟨n, rfl⟩ := Nat.exists_eq_add_of_le hj
      clear hj
      generalize hc : d.calls = c at h1 h2
      induction n generalizing d c with
      | zero =>
        rw [← hd, Nat.add_zero, ← hc] at h1 h2
        cases ha : d.ans d.calls with
        | move k =>
          have hk : 0 < k := by
            rcases Nat.eq_zero_or_pos k with rfl | hk
            · exact absurd ha h2
            · exact hk
          obtain ⟨fuel, e⟩ := ih (b - min k (min 0x7fffffff b)) (by omega) (p + min k (min 0x7fffffff b))
            { d with out := d.out ++ (buf.drop p).take (min k (min 0x7fffffff b)), calls := d.calls + 1 } (by omega) hd
          refine ⟨fuel + 1, ?_⟩
          rw [file_step fuel buf p b d h hb h0, ha]
          exact e
        | eintr => exact absurd ha h1
        | error =>
          refine ⟨1, ?_⟩
          rw [file_step 0 buf p b d h hb h0, ha]
          simp
      | succ n ihn =>
        cases ha : d.ans d.calls with
        | move k =>
          rcases Nat.eq_zero_or_pos k with rfl | hk
          · obtain ⟨fuel, e⟩ := ihn { d with out := d.out ++ (buf.drop p).take (min 0 (min 0x7fffffff b)), calls := d.calls + 1 }
              hd (c + 1) (by simp [hc]) (by rw [Nat.add_assoc, Nat.add_comm 1 n]; exact h1) (by rw [Nat.add_assoc, Nat.add_comm 1 n]; exact h2)
            refine ⟨fuel + 1, ?_⟩
            rw [file_step fuel buf p b d h hb h0, ha]
            simpa using e
          · obtain ⟨fuel, e⟩ := ih (b - min k (min 0x7fffffff b)) (by omega) (p + min k (min 0x7fffffff b))
              { d with out := d.out ++ (buf.drop p).take (min k (min 0x7fffffff b)), calls := d.calls + 1 } (by omega) hd
            refine ⟨fuel + 1, ?_⟩
            rw [file_step fuel buf p b d h hb h0, ha]
            exact e
        | eintr =>
          obtain ⟨fuel, e⟩ := ihn { d with calls := d.calls + 1 }
            hd (c + 1) (by simp [hc]) (by rw [Nat.add_assoc, Nat.add_comm 1 n]; exact h1) (by rw [Nat.add_assoc, Nat.add_comm 1 n]; exact h2)
          refine ⟨fuel + 1, ?_⟩
          rw [file_step fuel buf p b d h hb h0, ha]
          exact e
        | error =>
          refine ⟨1, ?_⟩
          rw [file_step 0 buf p b d h hb h0, ha]
          simp
    · refine ⟨1, ?_⟩
      rw [File.writeLoop, if_neg h0]
      simp

/-! ## Reading -/

theorem readSome_inv (fuel : Nat) : ∀ (dst : List UInt8) (p b : Nat) (d : Dev), p + b ≤ dst.length →
    ∃ o r dst' d', readSome fuel dst p b d = (o, r, dst', d') ∧ d'.ans = d.ans ∧ d'.out = d.out ∧ d.calls ≤ d'.calls ∧
      (o = .done ∧ d.calls < d'.calls ∧ r ≤ b ∧ r ≤ d.rest.length ∧ d'.rest = d.rest.drop r ∧
          dst' = dst.take p ++ d.rest.take r ++ dst.drop (p + r) ∧
          (∃ k, d.ans (d'.calls - 1) = .move k ∧ r = min k (min (min 0x7fffffff b) d.rest.length)) ∨
        o = .failed ∧ d.calls < d'.calls ∧ dst' = dst ∧ d'.rest = d.rest ∧ d.ans (d'.calls - 1) = .error ∨
        o = .running ∧ dst' = dst ∧ d'.rest = d.rest) := by
  induction fuel with
  | zero => intro dst p b d _; exact ⟨.running, 0, dst, d, rfl, rfl, rfl, Nat.le_refl _, .inr (.inr ⟨rfl, rfl, rfl⟩)⟩
  | succ fuel ih =>
    intro dst p b d h
    rw [readSome]
    obtain ⟨a, ha⟩ : ∃ a, d.ans d.calls = a := ⟨_, rfl⟩
    cases a with
    | move k =>
      simp only [Dev.read, ha]
      have hl : (d.rest.take (min k (min (min 0x7fffffff b) d.rest.length))).length = min k (min (min 0x7fffffff b) d.rest.length) := by
        rw [List.length_take]; omega
      rw [if_neg (by omega), hl, if_pos (by omega)]
      refine ⟨_, _, _, _, rfl, rfl, rfl, by simp, .inl ⟨rfl, by simp, by simp; omega, by simp; omega, by simp, by simp, k, ?_, by simp⟩⟩
      simpa using ha
    | eintr =>
      simp only [Dev.read, ha]
      obtain ⟨o, r, dst', d', e, h1, h2, h3, hx⟩ := ih dst p b { d with calls := d.calls + 1 } h
      simp only at h3
      refine ⟨o, r, dst', d', e, h1, h2, by omega, ?_⟩
      obtain ⟨ho, hc, hx⟩ | ⟨ho, hc, hx⟩ | hx := hx
      · exact .inl ⟨ho, by simp only at hc; omega, hx⟩
      · exact .inr (.inl ⟨ho, by simp only at hc; omega, hx⟩)
      · exact .inr (.inr hx)
    | error =>
      simp only [Dev.read, ha]
      exact ⟨.failed, 0, dst, _, rfl, rfl, rfl, by simp, .inr (.inl ⟨rfl, by simp, rfl, rfl, by simpa using ha⟩)⟩

theorem socket_read_inv (fuel : Nat) : ∀ (dst : List UInt8) (p b : Nat) (d : Dev), p + b ≤ dst.length →
    ∃ o dst' d' n, Socket.readLoop fuel dst p b d = (o, dst', d') ∧ n ≤ b ∧ n ≤ d.rest.length ∧ d'.rest = d.rest.drop n ∧
      dst' = dst.take p ++ d.rest.take n ++ dst.drop (p + n) ∧ d'.ans = d.ans ∧
      (o = .done ∧ n = b ∨
        o = .failed ∧ d.calls < d'.calls ∧ (d.ans (d'.calls - 1) = .error ∨ d.ans (d'.calls - 1) = .move 0 ∨ n = d.rest.length ∧ n < b) ∨
        o = .running) := by
  induction fuel with
  | zero => intro dst p b d _; exact ⟨.running, dst, d, 0, rfl, by omega, by omega, by simp, by simp, rfl, .inr (.inr rfl)⟩
  | succ fuel ih =>
    intro dst p b d h
    rw [Socket.readLoop]
    by_cases h0 : b > 0
    · rw [if_pos h0]
      obtain ⟨o, r, dst', d', e, h1, h2, h3, hx⟩ := readSome_inv (fuel + 1) dst p b d h
      rw [e]
      obtain ⟨rfl, hc, hr, hr', hrest, hdst, k, hk, hrk⟩ | ⟨rfl, hc, rfl, hrest, he⟩ | ⟨rfl, rfl, hrest⟩ := hx
      · simp only
        by_cases hr0 : r = 0
        · rw [if_pos hr0]
          refine ⟨.failed, dst', d', r, rfl, hr, hr', hrest, hdst, h1, .inr (.inl ⟨rfl, hc, .inr ?_⟩)⟩
          rcases Nat.eq_zero_or_pos k with rfl | hk0
          · exact .inl hk
          · exact .inr (by omega)
        · rw [if_neg hr0]
          have hlt : (List.take p dst ++ List.take r d.rest).length = p + r := by
            rw [List.length_append, List.length_take, List.length_take]; omega
          have hl : p + r + (b - r) ≤ dst'.length := by
            rw [hdst, List.length_append, hlt, List.length_drop]; omega
          obtain ⟨o, dst'', d'', n, e, hn, hn', hrest', hdst', hans, hx⟩ := ih dst' (p + r) (b - r) d' hl
          rw [hrest, List.length_drop] at hn'
          refine ⟨o, dst'', d'', r + n, e, by omega, by omega, ?_, ?_, by rw [hans, h1], ?_⟩
          · rw [hrest', hrest, List.drop_drop]
          · rw [hdst', hdst, List.take_left' hlt, hrest, ← Nat.add_assoc, ← hlt, List.drop_length_add_append, List.drop_drop, hlt,
              List.take_add, ← List.append_assoc]
          · rw [h1, hrest, List.length_drop] at hx
            obtain ⟨ho, hx⟩ | ⟨ho, hc', hx⟩ | hx := hx
            · exact .inl ⟨ho, by omega⟩
            · refine .inr (.inl ⟨ho, by omega, ?_⟩)
              obtain hx | hx | hx := hx
              · exact .inl hx
              · exact .inr (.inl hx)
              · exact .inr (.inr (by omega))
            · exact .inr (.inr hx)
      · exact ⟨.failed, dst', d', 0, rfl, by omega, by omega, by simp [hrest], by simp, h1, .inr (.inl ⟨rfl, hc, .inl he⟩)⟩
      · exact ⟨.running, dst', d', 0, rfl, by omega, by omega, by simp [hrest], by simp, h1, .inr (.inr rfl)⟩
    · rw [if_neg h0]
      exact ⟨.done, dst, d, 0, rfl, by omega, by omega, by simp, by simp, rfl, .inl ⟨rfl, by omega⟩⟩

theorem file_read_inv (fuel : Nat) : ∀ (dst : List UInt8) (p b : Nat) (d : Dev), p + b ≤ dst.length →
    ∃ o dst' d' n, File.readLoop fuel dst p b d = (o, dst', d') ∧ n ≤ b ∧ n ≤ d.rest.length ∧ d'.rest = d.rest.drop n ∧
      dst' = dst.take p ++ d.rest.take n ++ dst.drop (p + n) ∧ d'.ans = d.ans ∧
      (o = .done ∧ n = b ∨ o = .failed ∧ d.calls < d'.calls ∧ d.ans (d'.calls - 1) = .error ∨ o = .running) := by
  induction fuel with
  | zero => intro dst p b d _; exact ⟨.running, dst, d, 0, rfl, by omega, by omega, by simp, by simp, rfl, .inr (.inr rfl)⟩
  | succ fuel ih =>
    intro dst p b d h
    rw [File.readLoop]
    by_cases h0 : b > 0
    · rw [if_pos h0]
      obtain ⟨o, r, dst', d', e, h1, h2, h3, hx⟩ := readSome_inv (fuel + 1) dst p b d h
      rw [e]
      obtain ⟨rfl, hc, hr, hr', hrest, hdst, k, hk, hrk⟩ | ⟨rfl, hc, rfl, hrest, he⟩ | ⟨rfl, rfl, hrest⟩ := hx
      · simp only
        have hlt : (List.take p dst ++ List.take r d.rest).length = p + r := by
          rw [List.length_append, List.length_take, List.length_take]; omega
        have hl : p + r + (b - r) ≤ dst'.length := by
          rw [hdst, List.length_append, hlt, List.length_drop]; omega
        obtain ⟨o, dst'', d'', n, e, hn, hn', hrest', hdst', hans, hx⟩ := ih dst' (p + r) (b - r) d' hl
        rw [hrest, List.length_drop] at hn'
        refine ⟨o, dst'', d'', r + n, e, by omega, by omega, ?_, ?_, by rw [hans, h1], ?_⟩
        · rw [hrest', hrest, List.drop_drop]
        · rw [hdst', hdst, List.take_left' hlt, hrest, ← Nat.add_assoc, ← hlt, List.drop_length_add_append, List.drop_drop, hlt,
            List.take_add, ← List.append_assoc]
        · rw [h1] at hx
          obtain ⟨ho, hx⟩ | ⟨ho, hc', hx⟩ | hx := hx
          · exact .inl ⟨ho, by omega⟩
          · exact .inr (.inl ⟨ho, by omega, hx⟩)
          · exact .inr (.inr hx)
      · exact ⟨.failed, dst', d', 0, rfl, by omega, by omega, by simp [hrest], by simp, h1, .inr (.inl ⟨rfl, hc, he⟩)⟩
      · exact ⟨.running, dst', d', 0, rfl, by omega, by omega, by simp [hrest], by simp, h1, .inr (.inr rfl)⟩
    · rw [if_neg h0]
      exact ⟨.done, dst, d, 0, rfl, by omega, by omega, by simp, by simp, rfl, .inl ⟨rfl, by omega⟩⟩

/-! ### Termination of reading -/

theorem readSome_succ (fuel : Nat) : ∀ (dst : List UInt8) (p b : Nat) (d : Dev),
    (readSome fuel dst p b d).1 ≠ .running → readSome (fuel + 1) dst p b d = readSome fuel dst p b d := by
  induction fuel with
  | zero => intro dst p b d h; exact absurd rfl h
  | succ fuel ih =>
    intro dst p b d h
    obtain ⟨a, ha⟩ : ∃ a, d.ans d.calls = a := ⟨_, rfl⟩
    cases a with
    | move k => rw [readSome, readSome]; simp only [Dev.read, ha]; simp only [show ∀ n : Nat, ¬ ((n : Int) < 0) by omega, if_false]
    | eintr =>
      have e : ∀ f, readSome (f + 1) dst p b d = readSome f dst p b { d with calls := d.calls + 1 } := by
        intro f; rw [readSome]; simp only [Dev.read, ha]; rfl
      rw [e] at h
      rw [e, e, ih _ _ _ _ h]
    | error => rw [readSome, readSome]; simp only [Dev.read, ha]; rfl

theorem readSome_le (f g : Nat) (hfg : f ≤ g) (dst : List UInt8) (p b : Nat) (d : Dev)
    (h : (readSome f dst p b d).1 ≠ .running) : readSome g dst p b d = readSome f dst p b d := by
  obtain ⟨n, rfl⟩ := Nat.exists_eq_add_of_le hfg
  clear hfg
  induction n with
  | zero => rfl
  | succ n ih => rw [← Nat.add_assoc, readSome_succ (f + n) dst p b d (by rw [ih]; exact h), ih]

/-- `readSome` stops at the first system call that is not interrupted. -/
theorem readSome_term (j : Nat) (dst : List UInt8) (p b : Nat) : ∀ (n : Nat) (d : Dev), d.calls + n = j → d.ans j ≠ .eintr →
    ∃ f, (readSome f dst p b d).1 ≠ .running ∧ (readSome f dst p b d).2.2.2.calls ≤ j + 1 := by
  intro n
  induction n with
  | zero =>
    intro d hd hj
    refine ⟨1, ?_⟩
    rw [Nat.add_zero] at hd
    subst hd
    obtain ⟨a, ha⟩ : ∃ a, d.ans d.calls = a := ⟨_, rfl⟩
    rw [readSome]
    cases a with
    | move k =>
      simp only [Dev.read, ha]
      rw [if_neg (by omega)]
      split <;> simp
    | eintr => exact absurd ha hj
    | error => simp only [Dev.read, ha]; simp
  | succ n ih =>
    intro d hd hj
    obtain ⟨a, ha⟩ : ∃ a, d.ans d.calls = a := ⟨_, rfl⟩
    cases a with
    | move k =>
      refine ⟨1, ?_⟩
      rw [readSome]
      simp only [Dev.read, ha]
      rw [if_neg (by omega)]
      split <;> (simp; omega)
    | eintr =>
      obtain ⟨f, h1, h2⟩ := ih { d with calls := d.calls + 1 } (by simp only; omega) hj
      refine ⟨f + 1, ?_⟩
      rw [readSome]
      simp only [Dev.read, ha]
      exact ⟨h1, h2⟩
    | error =>
      refine ⟨1, ?_⟩
      rw [readSome]
      simp only [Dev.read, ha]
      simp
      omega

theorem socket_read_term (ans : Nat → Ans) (hf : ∀ i, ∃ j, i ≤ j ∧ ans j ≠ .eintr) (b : Nat) :
    ∀ (dst : List UInt8) (p : Nat) (d : Dev), p + b ≤ dst.length → d.ans = ans →
      ∃ f0, ∀ f, f0 ≤ f → (Socket.readLoop f dst p b d).1 ≠ .running := by
  induction b using Nat.strongRecOn with
  | _ b ih =>
    intro dst p d h hd
    by_cases h0 : b > 0
    · obtain ⟨j, hj, hne⟩ := hf d.calls
      obtain ⟨f1, hr1, _⟩ := readSome_term j dst p b (j - d.calls) d (by omega) (by rw [hd]; exact hne)
      obtain ⟨o, r, dst', d', e, h1, h2, h3, hx⟩ := readSome_inv f1 dst p b d h
      rw [e] at hr1
      have hstep : ∀ f, f1 ≤ f + 1 → readSome (f + 1) dst p b d = (o, r, dst', d') := by
        intro f hf1
        rw [readSome_le f1 (f + 1) hf1 dst p b d (by rw [e]; exact hr1), e]
      obtain ⟨rfl, hc, hr, hr', hrest, hdst, _⟩ | ⟨rfl, _⟩ | ⟨rfl, _⟩ := hx
      · by_cases hr0 : r = 0
        · refine ⟨f1 + 1, fun f hf0 => ?_⟩
          obtain ⟨g, rfl⟩ : ∃ g, f = g + 1 := ⟨f - 1, by omega⟩
          rw [Socket.readLoop, if_pos h0, hstep g (by omega)]
          simp [hr0]
        · have hl : p + r + (b - r) ≤ dst'.length := by
            rw [hdst, List.length_append, List.length_append, List.length_take, List.length_take, List.length_drop]; omega
          obtain ⟨f2, h2⟩ := ih (b - r) (by omega) dst' (p + r) d' hl (by rw [h1, hd])
          refine ⟨f1 + f2 + 1, fun f hf0 => ?_⟩
          obtain ⟨g, rfl⟩ : ∃ g, f = g + 1 := ⟨f - 1, by omega⟩
          rw [Socket.readLoop, if_pos h0, hstep g (by omega)]
          simp only [hr0, if_false]
          exact h2 g (by omega)
      · refine ⟨f1 + 1, fun f hf0 => ?_⟩
        obtain ⟨g, rfl⟩ : ∃ g, f = g + 1 := ⟨f - 1, by omega⟩
        rw [Socket.readLoop, if_pos h0, hstep g (by omega)]
        simp
      · exact absurd rfl hr1
    · refine ⟨1, fun f hf0 => ?_⟩
      obtain ⟨g, rfl⟩ : ∃ g, f = g + 1 := ⟨f - 1, by omega⟩
      rw [Socket.readLoop, if_neg h0]
      simp

theorem file_read_term (ans : Nat → Ans) (hf : Fair ans) (b : Nat) : ∀ (dst : List UInt8) (p : Nat) (d : Dev),
    p + b ≤ dst.length → b ≤ d.rest.length → d.ans = ans →
      ∃ f0, ∀ f, f0 ≤ f → (File.readLoop f dst p b d).1 ≠ .running := by
  induction b using Nat.strongRecOn with
  | _ b ih =>
    intro dst p d h hb hd
    by_cases h0 : b > 0
    · obtain ⟨j, hj, hne, hne'⟩ := hf d.calls
      obtain ⟨n, hn⟩ : ∃ n, n = j - d.calls := ⟨_, rfl⟩
      induction n using Nat.strongRecOn generalizing dst d with
      | _ n ihn =>
      obtain ⟨f1, hr1, hc1⟩ := readSome_term j dst p b (j - d.calls) d (by omega) (by rw [hd]; exact hne)
      obtain ⟨o, r, dst', d', e, h1, h2, h3, hx⟩ := readSome_inv f1 dst p b d h
      rw [e] at hr1 hc1
      have hstep : ∀ f, f1 ≤ f + 1 → readSome (f + 1) dst p b d = (o, r, dst', d') := by
        intro f hf1
        rw [readSome_le f1 (f + 1) hf1 dst p b d (by rw [e]; exact hr1), e]
      obtain ⟨rfl, hc, hr, hr', hrest, hdst, k, hk, hrk⟩ | ⟨rfl, _⟩ | ⟨rfl, _⟩ := hx
      · have hl : p + r + (b - r) ≤ dst'.length := by
          rw [hdst, List.length_append, List.length_append, List.length_take, List.length_take, List.length_drop]; omega
        have hb' : b - r ≤ d'.rest.length := by rw [hrest, List.length_drop]; omega
        have hnext : ∃ f2, ∀ f, f2 ≤ f → (File.readLoop f dst' (p + r) (b - r) d').1 ≠ .running := by
          by_cases hr0 : r = 0
          · subst hr0
            have hj' : d'.calls ≤ j := by
              rcases Nat.lt_or_ge j d'.calls with hlt | hge
              · exfalso
                simp only at hc1
                have hk0 : k = 0 := by omega
                rw [show d'.calls - 1 = j by omega, hk0, hd] at hk
                exact hne' hk
              · exact hge
            have := ihn (j - d'.calls) (by omega) dst' d' (by simpa using hl) (by simpa using hb') (by rw [h1, hd]) hj' rfl
            simpa using this
          · exact ih (b - r) (by omega) dst' (p + r) d' hl hb' (by rw [h1, hd])
        obtain ⟨f2, h2⟩ := hnext
        refine ⟨f1 + f2 + 1, fun f hf0 => ?_⟩
        obtain ⟨g, rfl⟩ : ∃ g, f = g + 1 := ⟨f - 1, by omega⟩
        rw [File.readLoop, if_pos h0, hstep g (by omega)]
        exact h2 g (by omega)
      · refine ⟨f1 + 1, fun f hf0 => ?_⟩
        obtain ⟨g, rfl⟩ : ∃ g, f = g + 1 := ⟨f - 1, by omega⟩
        rw [File.readLoop, if_pos h0, hstep g (by omega)]
        simp
      · exact absurd rfl hr1
    · refine ⟨1, fun f hf0 => ?_⟩
      obtain ⟨g, rfl⟩ : ∃ g, f = g + 1 := ⟨f - 1, by omega⟩
      rw [File.readLoop, if_neg h0]
      simp

end Verif.PartialIO
