import Verif.Model.Utf
import Verif.Spec.Utf
set_option linter.unusedSimpArgs false
set_option maxRecDepth 8000

/-! Lemmas for C37 and C38. -/
namespace Verif.Utf
open Verif.Spec.Utf

theorem within_iff (c : Nat) (a b : Int) (ha : 0 ≤ a) (hab : a ≤ b) (hb : b < 256) (hc : c < 256) :
    within c a b = true ↔ a ≤ c ∧ c ≤ b := by
  rw [within, Verif.StringOp.toUnsigned, Verif.StringOp.toUnsigned, decide_eq_true_eq,
    Int.emod_eq_of_lt (a := b - a) (by omega) (by omega)]
  omega

theorem or_shift (x y k : Nat) (h : y < 2 ^ k) : x <<< k ||| y = x * 2 ^ k + y := by
  rw [← Nat.shiftLeft_add_eq_or_of_lt h, Nat.shiftLeft_eq]

theorem and63 (x : Nat) : x &&& 0x3f = x % 64 := Nat.and_two_pow_sub_one_eq_mod x 6

theorem and1023 (x : Nat) : x &&& 0x3ff = x % 1024 := Nat.and_two_pow_sub_one_eq_mod x 10

theorem or80 (x : Nat) (h : x < 64) : x ||| 0x80 = 0x80 + x := by
  rw [Nat.or_comm]; exact or_shift 2 x 6 h

theorem orc0 (x : Nat) (h : x < 64) : x ||| 0xc0 = 0xc0 + x := by
  rw [Nat.or_comm]; exact or_shift 3 x 6 h

theorem ore0 (x : Nat) (h : x < 32) : x ||| 0xe0 = 0xe0 + x := by
  rw [Nat.or_comm]; exact or_shift 7 x 5 h

theorem orf0 (x : Nat) (h : x < 16) : x ||| 0xf0 = 0xf0 + x := by
  rw [Nat.or_comm]; exact or_shift 15 x 4 h

theorem ordc00 (x : Nat) (h : x < 1024) : x ||| 0xdc00 = 0xdc00 + x := by
  rw [Nat.or_comm]; exact or_shift 55 x 10 h

theorem pack2 (a b : Nat) : (a <<< 6 ||| (b &&& 0x3f)) = a * 64 + b % 64 := by
  rw [and63, or_shift _ _ 6 (by omega)]

theorem pack3 (a b c : Nat) : (a <<< 12 ||| ((b &&& 0x3f) <<< 6) ||| (c &&& 0x3f)) = a * 4096 + b % 64 * 64 + c % 64 := by
  have e : (b &&& 0x3f) <<< 6 = b % 64 * 64 := by rw [and63, Nat.shiftLeft_eq]
  rw [e, or_shift _ _ 12 (by omega), show a * 2 ^ 12 + b % 64 * 64 = (a * 64 + b % 64) <<< 6 by rw [Nat.shiftLeft_eq]; omega, and63,
    or_shift _ _ 6 (by omega)]
  omega

theorem pack4 (a b c d : Nat) : (a <<< 18 ||| ((b &&& 0x3f) <<< 12) ||| ((c &&& 0x3f) <<< 6) ||| (d &&& 0x3f)) =
    a * 262144 + b % 64 * 4096 + c % 64 * 64 + d % 64 := by
  have e : (b &&& 0x3f) <<< 12 = b % 64 * 4096 := by rw [and63, Nat.shiftLeft_eq]
  have e2 : (c &&& 0x3f) <<< 6 = c % 64 * 64 := by rw [and63, Nat.shiftLeft_eq]
  rw [e, e2, or_shift _ _ 18 (by omega), show a * 2 ^ 18 + b % 64 * 4096 = (a * 64 + b % 64) <<< 12 by rw [Nat.shiftLeft_eq]; omega,
    or_shift _ _ 12 (by omega),
    show (a * 64 + b % 64) * 2 ^ 12 + c % 64 * 64 = ((a * 64 + b % 64) * 64 + c % 64) <<< 6 by rw [Nat.shiftLeft_eq]; omega, and63,
    or_shift _ _ 6 (by omega)]
  omega

/-! ## The encoders -/

theorem byte_nat (x : Nat) (h : x < 256) : byte (x : Int) = x := by rw [byte]; omega
theorem unit16_nat (x : Nat) (h : x < 2 ^ 16) : unit16 (x : Int) = x := by rw [unit16]; omega

theorem toUtf8_scalar (n : Nat) (h : Scalar n) : toUtf8 n = utf8 n := by
  obtain ⟨h1, h2⟩ := h
  simp only [toUtf8, utf8, Int.toNat_natCast, Nat.shiftRight_eq_div_pow, and63]
  by_cases c1 : n ≤ 0x7f
  · rw [if_pos (by omega), if_pos c1, byte_nat _ (by omega)]
  rw [if_neg (by omega), if_neg c1]
  by_cases c2 : n ≤ 0x7ff
  · rw [if_pos (by omega), if_pos c2, orc0 _ (by omega), or80 _ (by omega), byte_nat _ (by omega), byte_nat _ (by omega)]
  rw [if_neg (by omega), if_neg c2]
  by_cases c3 : n ≤ 0xffff
  · rw [if_pos (by omega), if_pos c3, if_neg (by omega), ore0 _ (by omega), or80 _ (by omega), or80 _ (by omega),
      byte_nat _ (by omega), byte_nat _ (by omega), byte_nat _ (by omega)]
  rw [if_neg (by omega), if_neg c3, if_pos (by omega), orf0 _ (by omega), or80 _ (by omega), or80 _ (by omega),
    or80 _ (by omega), byte_nat _ (by omega), byte_nat _ (by omega), byte_nat _ (by omega), byte_nat _ (by omega)]

theorem toUtf16_scalar (n : Nat) (h : n ≤ 0x10ffff) : toUtf16 n = utf16 n := by
  simp only [toUtf16, utf16, Int.toNat_natCast, Nat.shiftRight_eq_div_pow, and1023]
  by_cases c1 : n ≤ 0xffff
  · rw [if_pos (by omega), if_pos c1, unit16_nat _ (by omega)]
  rw [if_neg (by omega), if_neg c1, if_pos (by omega), ordc00 _ (by omega), unit16_nat _ (by omega), unit16_nat _ (by omega),
    show n / 2 ^ 10 + 0xd7c0 = 0xD800 + (n - 0x10000) / 1024 by omega, show n % 1024 = (n - 0x10000) % 1024 by omega]

theorem toUtf8_eq_nil (c : Int) (hc : 0 ≤ c) : toUtf8 c = [] ↔ ¬ Scalar c.toNat := by
  simp only [toUtf8, Scalar]
  repeat' split
  all_goals simp
  all_goals omega

theorem utf8_ne_nil (n : Nat) : utf8 n ≠ [] := by
  rw [utf8]; repeat' split
  all_goals simp

theorem utf16_ne_nil (n : Nat) : utf16 n ≠ [] := by
  rw [utf16]; split <;> simp

theorem utf8_bytes (n : Nat) (h : Scalar n) : ∀ b ∈ utf8 n, b < 256 := by
  obtain ⟨h1, h2⟩ := h
  rw [utf8]
  repeat' split
  all_goals simp only [List.mem_cons, List.not_mem_nil, or_false, forall_eq_or_imp, forall_eq]
  all_goals omega

theorem utf16_units (n : Nat) (h : n ≤ 0x10ffff) : ∀ b ∈ utf16 n, b < 2 ^ 16 := by
  rw [utf16]
  split
  all_goals simp only [List.mem_cons, List.not_mem_nil, or_false, forall_eq_or_imp, forall_eq]
  all_goals omega

/-! ## The decoders -/

theorem decode_utf8 (n : Nat) (h : Scalar n) (r : List Nat) : getCharFromUtf8 (utf8 n ++ r) = .ok (some ((n : Int), r)) := by
  obtain ⟨h1, h2⟩ := h
  rw [utf8]
  by_cases c1 : n ≤ 0x7f
  · rw [if_pos c1]
    simp only [List.cons_append, List.nil_append, getCharFromUtf8, if_pos c1]
  rw [if_neg c1]
  by_cases c2 : n ≤ 0x7ff
  · rw [if_pos c2]
    simp only [List.cons_append, List.nil_append, getCharFromUtf8]
    rw [if_neg (by omega), if_pos ((within_iff _ 0xc2 0xdf (by decide) (by decide) (by decide) (by omega)).mpr (by omega)), decode2,
      if_pos ((within_iff _ 0x80 0xbf (by decide) (by decide) (by decide) (by omega)).mpr (by omega)), pack2]
    congr 3; omega
  rw [if_neg c2]
  by_cases c3 : n ≤ 0xffff
  · rw [if_pos c3]
    simp only [List.cons_append, List.nil_append, getCharFromUtf8]
    rw [if_neg (by omega), if_neg (by rw [within_iff _ 0xc2 0xdf (by decide) (by decide) (by decide) (by omega)]; omega), if_pos (by omega), decode3,
      if_pos ((within_iff _ 0x80 0xbf (by decide) (by decide) (by decide) (by omega)).mpr (by omega)), if_pos, pack3]
    · congr 3; omega
    · simp only [Bool.or_eq_true, Bool.and_eq_true, beq_iff_eq]
      rw [within_iff _ 0xa0 0xbf (by decide) (by decide) (by decide) (by omega), within_iff _ 0xe1 0xec (by decide) (by decide) (by decide) (by omega),
        within_iff _ 0x80 0xbf (by decide) (by decide) (by decide) (by omega), within_iff _ 0x80 0x9f (by decide) (by decide) (by decide) (by omega),
        within_iff _ 0xee 0xef (by decide) (by decide) (by decide) (by omega)]
      omega
  rw [if_neg c3]
  simp only [List.cons_append, List.nil_append, getCharFromUtf8]
  rw [if_neg (by omega), if_neg (by rw [within_iff _ 0xc2 0xdf (by decide) (by decide) (by decide) (by omega)]; omega), if_neg (by omega),
    if_pos ((within_iff _ 0xf0 0xf4 (by decide) (by decide) (by decide) (by omega)).mpr (by omega)), decode4, if_pos, if_pos, pack4]
  · congr 3; omega
  · simp only [Bool.or_eq_true, Bool.and_eq_true, beq_iff_eq]
    rw [within_iff _ 0x90 0xbf (by decide) (by decide) (by decide) (by omega), within_iff _ 0xf1 0xf3 (by decide) (by decide) (by decide) (by omega),
      within_iff _ 0x80 0xbf (by decide) (by decide) (by decide) (by omega), within_iff _ 0x80 0x8f (by decide) (by decide) (by decide) (by omega)]
    omega
  · rw [Bool.and_eq_true, within_iff _ 0x80 0xbf (by decide) (by decide) (by decide) (by omega), within_iff _ 0x80 0xbf (by decide) (by decide) (by decide) (by omega)]
    omega

/-- What the decoder accepts, one character. -/
theorem decode_accepts (s r : List Nat) (c : Int) (hb : ∀ b ∈ s, b < 256) (h : getCharFromUtf8 s = .ok (some (c, r))) :
    ∃ n : Nat, c = n ∧ Scalar n ∧ s = utf8 n ++ r ∧ ∃ p, Table37 p ∧ s = p ++ r := by
  cases s with
  | nil => simp [getCharFromUtf8] at h
  | cons c0 s =>
    have hb0 := hb c0 (by simp)
    rw [getCharFromUtf8] at h
    by_cases d1 : c0 ≤ 0x7f
    · rw [if_pos d1] at h
      simp only [Res.ok.injEq, Option.some.injEq, Prod.mk.injEq] at h
      obtain ⟨rfl, rfl⟩ := h
      exact ⟨c0, rfl, ⟨by omega, by omega⟩, by rw [utf8, if_pos d1]; rfl, [c0], .r1 _ ⟨by omega, d1⟩, rfl⟩
    rw [if_neg d1] at h
    by_cases d2 : within c0 0xc2 0xdf = true
    · rw [if_pos d2] at h
      rw [within_iff _ 0xc2 0xdf (by decide) (by decide) (by decide) (by omega)] at d2
      cases s with
      | nil => simp [decode2] at h
      | cons c1 s =>
        have hb1 := hb c1 (by simp)
        rw [decode2] at h
        by_cases d3 : within c1 0x80 0xbf = true
        · rw [if_pos d3, pack2] at h
          rw [within_iff _ 0x80 0xbf (by decide) (by decide) (by decide) (by omega)] at d3
          simp only [Res.ok.injEq, Option.some.injEq, Prod.mk.injEq] at h
          obtain ⟨h, rfl⟩ := h
          refine ⟨c0 * 64 + c1 % 64 - 0x3000, by omega, ⟨by omega, by omega⟩, ?_, [c0, c1], .r2 _ _ ⟨by omega, by omega⟩ ⟨by omega, by omega⟩, rfl⟩
          rw [utf8, if_neg (by omega), if_pos (by omega), show 0xC0 + (c0 * 64 + c1 % 64 - 0x3000) / 64 = c0 by omega,
            show 0x80 + (c0 * 64 + c1 % 64 - 0x3000) % 64 = c1 by omega]; rfl
        · rw [if_neg d3] at h; simp at h
    rw [if_neg d2] at h
    rw [within_iff _ 0xc2 0xdf (by decide) (by decide) (by decide) (by omega)] at d2
    by_cases d3 : c0 ≤ 0xef
    · rw [if_pos d3] at h
      match s, hb, h with
      | [], _, h => simp [decode3] at h
      | [_], _, h => simp [decode3] at h
      | c1 :: c2 :: s, hb, h =>
        have hb1 := hb c1 (by simp)
        have hb2 := hb c2 (by simp)
        rw [decode3] at h
        by_cases d4 : within c2 0x80 0xbf = true
        · rw [if_pos d4] at h
          rw [within_iff _ 0x80 0xbf (by decide) (by decide) (by decide) (by omega)] at d4
          split at h
          · rename_i d5
            simp only [Bool.or_eq_true, Bool.and_eq_true, beq_iff_eq] at d5
            rw [within_iff _ 0xa0 0xbf (by decide) (by decide) (by decide) (by omega), within_iff _ 0xe1 0xec (by decide) (by decide) (by decide) (by omega),
              within_iff _ 0x80 0xbf (by decide) (by decide) (by decide) (by omega), within_iff _ 0x80 0x9f (by decide) (by decide) (by decide) (by omega),
              within_iff _ 0xee 0xef (by decide) (by decide) (by decide) (by omega)] at d5
            rw [pack3] at h
            simp only [Res.ok.injEq, Option.some.injEq, Prod.mk.injEq] at h
            obtain ⟨h, rfl⟩ := h
            refine ⟨c0 * 4096 + c1 % 64 * 64 + c2 % 64 - 0xe0000, by omega, ⟨by omega, by omega⟩, ?_, [c0, c1, c2], ?_, rfl⟩
            · rw [utf8, if_neg (by omega), if_neg (by omega), if_pos (by omega),
                show 0xE0 + (c0 * 4096 + c1 % 64 * 64 + c2 % 64 - 0xe0000) / 4096 = c0 by omega,
                show 0x80 + (c0 * 4096 + c1 % 64 * 64 + c2 % 64 - 0xe0000) / 64 % 64 = c1 by omega,
                show 0x80 + (c0 * 4096 + c1 % 64 * 64 + c2 % 64 - 0xe0000) % 64 = c2 by omega]; rfl
            · rcases d5 with ((⟨rfl, d5⟩ | ⟨d6, d5⟩) | ⟨rfl, d5⟩) | ⟨d6, d5⟩
              · exact .r3 _ _ ⟨by omega, by omega⟩ ⟨by omega, by omega⟩
              · exact .r4 _ _ _ ⟨by omega, by omega⟩ ⟨by omega, by omega⟩ ⟨by omega, by omega⟩
              · exact .r5 _ _ ⟨by omega, by omega⟩ ⟨by omega, by omega⟩
              · exact .r6 _ _ _ ⟨by omega, by omega⟩ ⟨by omega, by omega⟩ ⟨by omega, by omega⟩
          · simp at h
        · rw [if_neg d4] at h; simp at h
    rw [if_neg d3] at h
    by_cases d4 : within c0 0xf0 0xf4 = true
    · rw [if_pos d4] at h
      rw [within_iff _ 0xf0 0xf4 (by decide) (by decide) (by decide) (by omega)] at d4
      match s, hb, h with
      | [], _, h => simp [decode4] at h
      | [_], _, h => simp [decode4] at h
      | [_, _], _, h => simp [decode4] at h
      | c1 :: c2 :: c3 :: s, hb, h =>
        have hb1 := hb c1 (by simp)
        have hb2 := hb c2 (by simp)
        have hb3 := hb c3 (by simp)
        rw [decode4] at h
        split at h
        · rename_i d5
          rw [Bool.and_eq_true, within_iff _ 0x80 0xbf (by decide) (by decide) (by decide) (by omega),
            within_iff _ 0x80 0xbf (by decide) (by decide) (by decide) (by omega)] at d5
          split at h
          · rename_i d6
            simp only [Bool.or_eq_true, Bool.and_eq_true, beq_iff_eq] at d6
            rw [within_iff _ 0x90 0xbf (by decide) (by decide) (by decide) (by omega), within_iff _ 0xf1 0xf3 (by decide) (by decide) (by decide) (by omega),
              within_iff _ 0x80 0xbf (by decide) (by decide) (by decide) (by omega), within_iff _ 0x80 0x8f (by decide) (by decide) (by decide) (by omega)] at d6
            rw [pack4] at h
            simp only [Res.ok.injEq, Option.some.injEq, Prod.mk.injEq] at h
            obtain ⟨h, rfl⟩ := h
            refine ⟨c0 * 262144 + c1 % 64 * 4096 + c2 % 64 * 64 + c3 % 64 - 0x3c00000, by omega, ⟨by omega, by omega⟩, ?_,
              [c0, c1, c2, c3], ?_, rfl⟩
            · rw [utf8, if_neg (by omega), if_neg (by omega), if_neg (by omega),
                show 0xF0 + (c0 * 262144 + c1 % 64 * 4096 + c2 % 64 * 64 + c3 % 64 - 0x3c00000) / 262144 = c0 by omega,
                show 0x80 + (c0 * 262144 + c1 % 64 * 4096 + c2 % 64 * 64 + c3 % 64 - 0x3c00000) / 4096 % 64 = c1 by omega,
                show 0x80 + (c0 * 262144 + c1 % 64 * 4096 + c2 % 64 * 64 + c3 % 64 - 0x3c00000) / 64 % 64 = c2 by omega,
                show 0x80 + (c0 * 262144 + c1 % 64 * 4096 + c2 % 64 * 64 + c3 % 64 - 0x3c00000) % 64 = c3 by omega]; rfl
            · rcases d6 with (⟨rfl, d6⟩ | ⟨d7, d6⟩) | ⟨rfl, d6⟩
              · exact .r7 _ _ _ ⟨by omega, by omega⟩ ⟨by omega, by omega⟩ ⟨by omega, by omega⟩
              · exact .r8 _ _ _ _ ⟨by omega, by omega⟩ ⟨by omega, by omega⟩ ⟨by omega, by omega⟩ ⟨by omega, by omega⟩
              · exact .r9 _ _ _ ⟨by omega, by omega⟩ ⟨by omega, by omega⟩ ⟨by omega, by omega⟩
          · simp at h
        · simp at h
    · rw [if_neg d4] at h; simp at h

/-- The two descriptions of the standard agree. -/
theorem table_iff (p : List Nat) : Table37 p ↔ ∃ n, Scalar n ∧ p = utf8 n := by
  constructor
  · intro h
    have hex : ∃ c r, getCharFromUtf8 p = .ok (some (c, r)) ∧ r = [] := by
      cases h with
      | r1 a ha => exact ⟨a, [], by rw [getCharFromUtf8, if_pos ha.2], rfl⟩
      | r2 a b ha hb =>
        have := ha.1; have := ha.2; have := hb.1; have := hb.2
        suffices ∃ c, getCharFromUtf8 _ = .ok (some (c, [])) by obtain ⟨c, hc'⟩ := this; exact ⟨c, [], hc', rfl⟩
        rw [getCharFromUtf8, if_neg (by omega), if_pos ((within_iff _ 0xc2 0xdf (by decide) (by decide) (by decide) (by omega)).mpr (by omega)), decode2,
          if_pos ((within_iff _ 0x80 0xbf (by decide) (by decide) (by decide) (by omega)).mpr (by omega))]
        exact ⟨_, rfl⟩
      | r3 b c hb hc | r4 a b c ha hb hc | r5 b c hb hc | r6 a b c ha hb hc =>
        all_goals
          have := hb.1; have := hb.2; have := hc.1; have := hc.2
          try (have := ha.1; have := ha.2)
          suffices ∃ c, getCharFromUtf8 _ = .ok (some (c, [])) by obtain ⟨c, hc'⟩ := this; exact ⟨c, [], hc', rfl⟩
          rw [getCharFromUtf8, if_neg (by omega), if_neg (by rw [within_iff _ 0xc2 0xdf (by decide) (by decide) (by decide) (by omega)]; omega),
            if_pos (by omega), decode3, if_pos ((within_iff _ 0x80 0xbf (by decide) (by decide) (by decide) (by omega)).mpr (by omega)), if_pos]
          · exact ⟨_, rfl⟩
          simp only [Bool.or_eq_true, Bool.and_eq_true, beq_iff_eq]
          rw [within_iff _ 0xa0 0xbf (by decide) (by decide) (by decide) (by omega), within_iff _ 0xe1 0xec (by decide) (by decide) (by decide) (by omega),
            within_iff _ 0x80 0xbf (by decide) (by decide) (by decide) (by omega), within_iff _ 0x80 0x9f (by decide) (by decide) (by decide) (by omega),
            within_iff _ 0xee 0xef (by decide) (by decide) (by decide) (by omega)]
          first | omega | (simp; omega)
      | r7 b c d hb hc hd | r8 a b c d ha hb hc hd | r9 b c d hb hc hd =>
        all_goals
          have := hb.1; have := hb.2; have := hc.1; have := hc.2; have := hd.1; have := hd.2
          try (have := ha.1; have := ha.2)
          suffices ∃ c, getCharFromUtf8 _ = .ok (some (c, [])) by obtain ⟨c, hc'⟩ := this; exact ⟨c, [], hc', rfl⟩
          rw [getCharFromUtf8, if_neg (by omega), if_neg (by rw [within_iff _ 0xc2 0xdf (by decide) (by decide) (by decide) (by omega)]; omega),
            if_neg (by omega), if_pos ((within_iff _ 0xf0 0xf4 (by decide) (by decide) (by decide) (by omega)).mpr (by omega)), decode4, if_pos, if_pos]
          · exact ⟨_, rfl⟩
          · simp only [Bool.or_eq_true, Bool.and_eq_true, beq_iff_eq]
            rw [within_iff _ 0x90 0xbf (by decide) (by decide) (by decide) (by omega), within_iff _ 0xf1 0xf3 (by decide) (by decide) (by decide) (by omega),
              within_iff _ 0x80 0xbf (by decide) (by decide) (by decide) (by omega), within_iff _ 0x80 0x8f (by decide) (by decide) (by decide) (by omega)]
            first | omega | (simp; omega)
          · rw [Bool.and_eq_true, within_iff _ 0x80 0xbf (by decide) (by decide) (by decide) (by omega), within_iff _ 0x80 0xbf (by decide) (by decide) (by decide) (by omega)]
            omega
    have hbytes : ∀ b ∈ p, b < 256 := by
      cases h <;> simp only [List.mem_cons, List.not_mem_nil, or_false, forall_eq_or_imp, forall_eq, In] at * <;> omega
    obtain ⟨c, r, h1, rfl⟩ := hex
    obtain ⟨n, _, h2, h3, _⟩ := decode_accepts p [] c hbytes h1
    exact ⟨n, h2, by simpa using h3⟩
  · rintro ⟨n, hn, rfl⟩
    obtain ⟨m, h1, _, _, q, h2, h3⟩ := decode_accepts (utf8 n ++ []) [] n (by simpa using utf8_bytes n hn) (decode_utf8 n hn [])
    simp at h3
    rw [h3]; exact h2

theorem isLead_iff (c : Nat) (h : c < 2 ^ 16) : isLead c = true ↔ 0xd800 ≤ c ∧ c ≤ 0xdbff := by
  have e : c &&& 0xfffffc00 = c / 1024 * 1024 := by
    apply Nat.eq_of_testBit_eq
    intro i
    rw [Nat.testBit_and, show c / 1024 * 1024 = (c >>> 10) <<< 10 by rw [Nat.shiftLeft_eq, Nat.shiftRight_eq_div_pow],
      Nat.testBit_shiftLeft, Nat.testBit_shiftRight]
    by_cases h1 : i < 32
    · have : ∀ i : Fin 32, Nat.testBit 0xfffffc00 i = decide (10 ≤ (i : Nat)) := by decide
      rw [this ⟨i, h1⟩]
      by_cases h2 : 10 ≤ i
      · simp [h2, show 10 + (i - 10) = i by omega]
      · simp [h2]
    · have : c.testBit i = false := Nat.testBit_lt_two_pow (Nat.lt_of_lt_of_le h (Nat.pow_le_pow_right (by omega) (by omega)))
      rw [show 10 + (i - 10) = i by omega, this]; simp
  rw [isLead, decide_eq_true_eq, e]; omega

theorem isTrail_iff (c : Nat) (h : c < 2 ^ 16) : isTrail c = true ↔ 0xdc00 ≤ c ∧ c ≤ 0xdfff := by
  have e : c &&& 0xfffffc00 = c / 1024 * 1024 := by
    apply Nat.eq_of_testBit_eq
    intro i
    rw [Nat.testBit_and, show c / 1024 * 1024 = (c >>> 10) <<< 10 by rw [Nat.shiftLeft_eq, Nat.shiftRight_eq_div_pow],
      Nat.testBit_shiftLeft, Nat.testBit_shiftRight]
    by_cases h1 : i < 32
    · have : ∀ i : Fin 32, Nat.testBit 0xfffffc00 i = decide (10 ≤ (i : Nat)) := by decide
      rw [this ⟨i, h1⟩]
      by_cases h2 : 10 ≤ i
      · simp [h2, show 10 + (i - 10) = i by omega]
      · simp [h2]
    · have : c.testBit i = false := Nat.testBit_lt_two_pow (Nat.lt_of_lt_of_le h (Nat.pow_le_pow_right (by omega) (by omega)))
      rw [show 10 + (i - 10) = i by omega, this]; simp
  rw [isTrail, decide_eq_true_eq, e]; omega

theorem decode_utf16 (n : Nat) (h : Scalar n) (r : List Nat) : getCharFromUtf16 (utf16 n ++ r) = .ok (some ((n : Int), r)) := by
  obtain ⟨h1, h2⟩ := h
  rw [utf16]
  by_cases c1 : n ≤ 0xffff
  · rw [if_pos c1]
    simp only [List.cons_append, List.nil_append, getCharFromUtf16]
    have hl : isLead n = false := by
      rw [← Bool.not_eq_true, isLead_iff n (by omega)]; omega
    rw [hl]; rfl
  · rw [if_neg c1]
    simp only [List.cons_append, List.nil_append, getCharFromUtf16]
    rw [(isLead_iff _ (by omega)).mpr (by omega), decodePair, (isTrail_iff _ (by omega)).mpr (by omega)]
    simp only [Bool.not_true, Bool.false_eq_true, if_false, if_true, Res.ok.injEq, Option.some.injEq, Prod.mk.injEq,
      and_true, Nat.shiftLeft_eq]
    omega

/-- What the UTF-16 decoder accepts: scalar values, and lone trailing surrogates. -/
theorem decode16_accepts (s r : List Nat) (c : Int) (hb : ∀ b ∈ s, b < 2 ^ 16) (h : getCharFromUtf16 s = .ok (some (c, r))) :
    ∃ n : Nat, c = n ∧ s = utf16 n ++ r ∧ (Scalar n ∨ (0xdc00 ≤ n ∧ n ≤ 0xdfff)) := by
  cases s with
  | nil => simp [getCharFromUtf16] at h
  | cons c0 s =>
    have hb0 := hb c0 (by simp)
    rw [getCharFromUtf16] at h
    by_cases d1 : isLead c0 = true
    · rw [d1] at h
      rw [isLead_iff _ hb0] at d1
      cases s with
      | nil => simp [decodePair] at h
      | cons c1 s =>
        have hb1 := hb c1 (by simp)
        rw [decodePair] at h
        by_cases d2 : isTrail c1 = true
        · rw [d2] at h
          rw [isTrail_iff _ hb1] at d2
          simp only [Bool.not_true, Bool.false_eq_true, if_false, if_true, Res.ok.injEq, Option.some.injEq,
            Prod.mk.injEq, Nat.shiftLeft_eq] at h
          obtain ⟨h, rfl⟩ := h
          refine ⟨c0 * 1024 + c1 - 56613888, by omega, ?_, .inl ⟨by omega, by omega⟩⟩
          rw [utf16, if_neg (by omega), show 0xD800 + (c0 * 1024 + c1 - 56613888 - 0x10000) / 1024 = c0 by omega,
            show 0xDC00 + (c0 * 1024 + c1 - 56613888 - 0x10000) % 1024 = c1 by omega]; rfl
        · simp only [Bool.not_eq_true] at d2
          rw [d2] at h; simp at h
    · have d1' : isLead c0 = false := by simpa using d1
      rw [d1'] at h
      rw [isLead_iff _ hb0] at d1
      simp only [Bool.not_false, if_true, Res.ok.injEq, Option.some.injEq, Prod.mk.injEq] at h
      obtain ⟨rfl, rfl⟩ := h
      refine ⟨c0, rfl, by rw [utf16, if_pos (by omega)]; rfl, ?_⟩
      simp only [Scalar]; omega

/-! ## Whole strings -/

theorem utf8s_cons (c : Nat) (cs : List Nat) : utf8s (c :: cs) = utf8 c ++ utf8s cs := rfl
theorem utf16s_cons (c : Nat) (cs : List Nat) : utf16s (c :: cs) = utf16 c ++ utf16s cs := rfl

theorem isEmpty_utf8 (n : Nat) (r : List Nat) : (utf8 n ++ r).isEmpty = false := by
  cases h : utf8 n with
  | nil => exact absurd h (utf8_ne_nil n)
  | cons => rfl

theorem isEmpty_utf16 (n : Nat) (r : List Nat) : (utf16 n ++ r).isEmpty = false := by
  cases h : utf16 n with
  | nil => exact absurd h (utf16_ne_nil n)
  | cons => rfl

theorem appendUtf8_scalar (out : List Nat) (n : Nat) (h : Scalar n) : appendUtf8 out n = some (out ++ utf8 n) := by
  rw [appendUtf8, toUtf8_scalar n h]
  have := List.length_pos_iff.mpr (utf8_ne_nil n)
  simp [this]

theorem appendUtf16_scalar (out : List Nat) (n : Nat) (h : n ≤ 0x10ffff) : appendUtf16 out n = some (out ++ utf16 n) := by
  rw [appendUtf16, toUtf16_scalar n h]
  have := List.length_pos_iff.mpr (utf16_ne_nil n)
  simp [this]

theorem length_utf8s (cs : List Nat) : cs.length ≤ (utf8s cs).length := by
  induction cs with
  | nil => simp
  | cons c cs ih =>
    have := List.length_pos_iff.mpr (utf8_ne_nil c)
    rw [utf8s_cons, List.length_append, List.length_cons]; omega

theorem length_utf16s (cs : List Nat) : cs.length ≤ (utf16s cs).length := by
  induction cs with
  | nil => simp
  | cons c cs ih =>
    have := List.length_pos_iff.mpr (utf16_ne_nil c)
    rw [utf16s_cons, List.length_append, List.length_cons]; omega

theorem appendFromUtf8_ok (cs : List Nat) : ∀ (fuel : Nat) (str : List Int), cs.length < fuel → (∀ c ∈ cs, Scalar c) →
    appendFromUtf8 fuel str (utf8s cs) = .ok (str ++ cs.map (fun n : Nat => (n : Int))) := by
  induction cs with
  | nil =>
    intro fuel str h _
    cases fuel with
    | zero => simp at h
    | succ fuel => rw [appendFromUtf8, utf8s]; simp
  | cons c cs ih =>
    intro fuel str h hs
    cases fuel with
    | zero => simp at h
    | succ fuel =>
      rw [appendFromUtf8, utf8s_cons, isEmpty_utf8, decode_utf8 c (hs c (by simp))]
      simp only [Bool.false_eq_true, if_false, Res.ok_bind]
      rw [ih fuel _ (by simpa using h) (fun x hx => hs x (by simp [hx]))]
      simp

theorem stringToUtf8_ok (cs : List Nat) : ∀ out, (∀ c ∈ cs, Scalar c) →
    stringToUtf8 out (cs.map (fun n : Nat => (n : Int))) = .ok (out ++ utf8s cs) := by
  induction cs with
  | nil => intro out _; simp [stringToUtf8, utf8s]
  | cons c cs ih =>
    intro out hs
    rw [List.map_cons, stringToUtf8, appendUtf8_scalar out c (hs c (by simp))]
    simp only
    rw [ih _ (fun x hx => hs x (by simp [hx])), utf8s_cons, List.append_assoc]

theorem stringToUtf16_ok (cs : List Nat) : ∀ out, (∀ c ∈ cs, Scalar c) →
    stringToUtf16 out (cs.map (fun n : Nat => (n : Int))) = .ok (out ++ utf16s cs) := by
  induction cs with
  | nil => intro out _; simp [stringToUtf16, utf16s]
  | cons c cs ih =>
    intro out hs
    rw [List.map_cons, stringToUtf16, appendUtf16_scalar out c (hs c (by simp)).1]
    simp only
    rw [ih _ (fun x hx => hs x (by simp [hx])), utf16s_cons, List.append_assoc]

theorem appendFromUtf16_ok (cs : List Nat) : ∀ (fuel : Nat) (str : List Int), cs.length < fuel → (∀ c ∈ cs, Scalar c) →
    appendFromUtf16 fuel str (utf16s cs) = .ok (str ++ cs.map (fun n : Nat => (n : Int))) := by
  induction cs with
  | nil =>
    intro fuel str h _
    cases fuel with
    | zero => simp at h
    | succ fuel => rw [appendFromUtf16, utf16s]; simp
  | cons c cs ih =>
    intro fuel str h hs
    cases fuel with
    | zero => simp at h
    | succ fuel =>
      rw [appendFromUtf16, utf16s_cons, isEmpty_utf16, decode_utf16 c (hs c (by simp))]
      simp only [Bool.false_eq_true, if_false, Res.ok_bind]
      rw [ih fuel _ (by simpa using h) (fun x hx => hs x (by simp [hx]))]
      simp

theorem getCharFromUtf8_shape (s : List Nat) (h : s ≠ []) :
    getCharFromUtf8 s = .ok none ∨ ∃ c r, getCharFromUtf8 s = .ok (some (c, r)) := by
  cases s with
  | nil => exact absurd rfl h
  | cons c0 s =>
    have key : ∀ o : Option (Int × List Nat), (Res.ok o = .ok none ∨ ∃ c r, Res.ok o = .ok (some (c, r))) := by
      intro o
      cases o with
      | none => left; rfl
      | some x => right; exact ⟨x.1, x.2, rfl⟩
    rw [getCharFromUtf8]
    split; · exact key _
    split; · exact key _
    split; · exact key _
    split; · exact key _
    left; rfl

theorem getCharFromUtf16_shape (s : List Nat) (h : s ≠ []) :
    getCharFromUtf16 s = .ok none ∨ ∃ c r, getCharFromUtf16 s = .ok (some (c, r)) := by
  cases s with
  | nil => exact absurd rfl h
  | cons c0 s =>
    rw [getCharFromUtf16]
    split
    · right; exact ⟨_, _, rfl⟩
    · cases decodePair c0 s with
      | none => left; rfl
      | some x => right; exact ⟨x.1, x.2, rfl⟩

/-- The outcome of reading a whole UTF-8 string, whatever it is. -/
theorem appendFromUtf8_total (fuel : Nat) : ∀ (str : List Int) (s : List Nat), s.length < fuel → (∀ b ∈ s, b < 256) →
    (∃ cs, (∀ c ∈ cs, Scalar c) ∧ s = utf8s cs) ∨
    (appendFromUtf8 fuel str s = .throw ∧ ∀ cs, (∀ c ∈ cs, Scalar c) → s ≠ utf8s cs) := by
  induction fuel with
  | zero => intro str s h; omega
  | succ fuel ih =>
    intro str s hl hb
    cases hs : s with
    | nil => left; exact ⟨[], by simp, rfl⟩
    | cons x xs =>
      rw [← hs]
      have hne : s ≠ [] := by rw [hs]; simp
      have hie : s.isEmpty = false := by rw [hs]; rfl
      rw [appendFromUtf8, hie]
      simp only [Bool.false_eq_true, if_false]
      rcases getCharFromUtf8_shape s hne with h | ⟨c, r, h⟩
      · right
        rw [h]
        refine ⟨rfl, ?_⟩
        rintro cs hcs rfl
        cases cs with
        | nil => exact hne rfl
        | cons c cs => rw [utf8s_cons, decode_utf8 c (hcs c (by simp))] at h; simp at h
      · obtain ⟨n, rfl, h2, h3, _⟩ := decode_accepts s r c hb h
        have := List.length_pos_iff.mpr (utf8_ne_nil n)
        have hlen : s.length = (utf8 n).length + r.length := by rw [h3, List.length_append]
        rcases ih (str ++ [(n : Int)]) r (by omega) (fun b hb' => hb b (by rw [h3]; simp [hb'])) with ⟨cs, g1, g2⟩ | ⟨g1, g2⟩
        · left
          exact ⟨n :: cs, List.forall_mem_cons.mpr ⟨h2, g1⟩, by rw [utf8s_cons, ← g2, h3]⟩
        · right
          refine ⟨by rw [h, Res.ok_bind]; exact g1, ?_⟩
          rintro cs hcs he
          cases cs with
          | nil => exact hne he
          | cons c cs =>
            rw [he, utf8s_cons, decode_utf8 c (hcs c (by simp))] at h
            simp only [Res.ok.injEq, Option.some.injEq, Prod.mk.injEq] at h
            exact g2 cs (fun x hx => hcs x (by simp [hx])) h.2.symm

theorem convert8to16_ok (cs : List Nat) : ∀ (fuel : Nat) (out : List Nat), cs.length < fuel → (∀ c ∈ cs, Scalar c) →
    convert8to16Loop fuel out (utf8s cs) = .ok (true, out ++ utf16s cs) := by
  induction cs with
  | nil =>
    intro fuel out h _
    cases fuel with
    | zero => simp at h
    | succ fuel => rw [convert8to16Loop, utf8s]; simp [utf16s]
  | cons c cs ih =>
    intro fuel out h hs
    cases fuel with
    | zero => simp at h
    | succ fuel =>
      rw [convert8to16Loop, utf8s_cons, isEmpty_utf8, decode_utf8 c (hs c (by simp))]
      simp only [Bool.false_eq_true, if_false, Res.ok_bind, appendUtf16_scalar out c (hs c (by simp)).1]
      rw [ih fuel _ (by simpa using h) (fun x hx => hs x (by simp [hx])), utf16s_cons, List.append_assoc]

theorem convert16to8_ok (cs : List Nat) : ∀ (fuel : Nat) (out : List Nat), cs.length < fuel → (∀ c ∈ cs, Scalar c) →
    convert16to8Loop fuel out (utf16s cs) = .ok (true, out ++ utf8s cs) := by
  induction cs with
  | nil =>
    intro fuel out h _
    cases fuel with
    | zero => simp at h
    | succ fuel => rw [convert16to8Loop, utf16s]; simp [utf8s]
  | cons c cs ih =>
    intro fuel out h hs
    cases fuel with
    | zero => simp at h
    | succ fuel =>
      rw [convert16to8Loop, utf16s_cons, isEmpty_utf16, decode_utf16 c (hs c (by simp))]
      simp only [Bool.false_eq_true, if_false, Res.ok_bind, appendUtf8_scalar out c (hs c (by simp))]
      rw [ih fuel _ (by simpa using h) (fun x hx => hs x (by simp [hx])), utf8s_cons, List.append_assoc]

theorem convert8to16_total (fuel : Nat) : ∀ (out s : List Nat), s.length < fuel → (∀ b ∈ s, b < 256) →
    (∃ cs, (∀ c ∈ cs, Scalar c) ∧ s = utf8s cs) ∨
    (∃ o, convert8to16Loop fuel out s = .ok (false, o)) := by
  induction fuel with
  | zero => intro out s h; omega
  | succ fuel ih =>
    intro out s hl hb
    cases hs : s with
    | nil => left; exact ⟨[], by simp, rfl⟩
    | cons x xs =>
      rw [← hs]
      have hne : s ≠ [] := by rw [hs]; simp
      have hie : s.isEmpty = false := by rw [hs]; rfl
      rw [convert8to16Loop, hie]
      simp only [Bool.false_eq_true, if_false]
      rcases getCharFromUtf8_shape s hne with h | ⟨c, r, h⟩
      · right
        rw [h]
        exact ⟨out, rfl⟩
      · obtain ⟨n, rfl, h2, h3, _⟩ := decode_accepts s r c hb h
        have := List.length_pos_iff.mpr (utf8_ne_nil n)
        have hlen : s.length = (utf8 n).length + r.length := by rw [h3, List.length_append]
        rcases ih (out ++ utf16 n) r (by omega) (fun b hb' => hb b (by rw [h3]; simp [hb'])) with ⟨cs, g1, g2⟩ | ⟨o, g1⟩
        · left
          exact ⟨n :: cs, List.forall_mem_cons.mpr ⟨h2, g1⟩, by rw [utf8s_cons, ← g2, h3]⟩
        · right
          refine ⟨o, ?_⟩
          rw [h]
          simp only [Res.ok_bind, appendUtf16_scalar out n h2.1]
          exact g1

theorem convert16to8_total (fuel : Nat) : ∀ (out s : List Nat), s.length < fuel → (∀ b ∈ s, b < 2 ^ 16) →
    (∃ cs, (∀ c ∈ cs, Scalar c) ∧ s = utf16s cs) ∨
    (∃ o, convert16to8Loop fuel out s = .ok (false, o)) := by
  induction fuel with
  | zero => intro out s h; omega
  | succ fuel ih =>
    intro out s hl hb
    cases hs : s with
    | nil => left; exact ⟨[], by simp, rfl⟩
    | cons x xs =>
      rw [← hs]
      have hne : s ≠ [] := by rw [hs]; simp
      have hie : s.isEmpty = false := by rw [hs]; rfl
      rw [convert16to8Loop, hie]
      simp only [Bool.false_eq_true, if_false]
      rcases getCharFromUtf16_shape s hne with h | ⟨c, r, h⟩
      · right
        rw [h]
        exact ⟨out, rfl⟩
      · obtain ⟨n, rfl, h3, h2⟩ := decode16_accepts s r c hb h
        have := List.length_pos_iff.mpr (utf16_ne_nil n)
        have hlen : s.length = (utf16 n).length + r.length := by rw [h3, List.length_append]
        rw [h]
        simp only [Res.ok_bind]
        by_cases hsc : Scalar n
        · rcases ih (out ++ utf8 n) r (by omega) (fun b hb' => hb b (by rw [h3]; simp [hb'])) with ⟨cs, g1, g2⟩ | ⟨o, g1⟩
          · left
            exact ⟨n :: cs, List.forall_mem_cons.mpr ⟨hsc, g1⟩, by rw [utf16s_cons, ← g2, h3]⟩
          · right
            exact ⟨o, by simp only [appendUtf8_scalar out n hsc]; exact g1⟩
        · right
          have : toUtf8 n = [] := (toUtf8_eq_nil n (by omega)).mpr (by simpa using hsc)
          refine ⟨out, ?_⟩
          simp [appendUtf8, this]

/-- Different texts have different UTF-8 forms. -/
theorem utf8s_inj (cs : List Nat) : ∀ ds, (∀ c ∈ cs, Scalar c) → (∀ c ∈ ds, Scalar c) → utf8s cs = utf8s ds → cs = ds := by
  intro ds h1 h2 he
  have e1 := appendFromUtf8_ok cs (cs.length + ds.length + 1) [] (by omega) h1
  have e2 := appendFromUtf8_ok ds (cs.length + ds.length + 1) [] (by omega) h2
  rw [he, e2] at e1
  simp only [List.nil_append, Res.ok.injEq] at e1
  exact ((List.map_inj_right (fun a b h => by omega)).mp e1).symm

theorem utf16s_inj (cs : List Nat) : ∀ ds, (∀ c ∈ cs, Scalar c) → (∀ c ∈ ds, Scalar c) → utf16s cs = utf16s ds → cs = ds := by
  intro ds h1 h2 he
  have e1 := appendFromUtf16_ok cs (cs.length + ds.length + 1) [] (by omega) h1
  have e2 := appendFromUtf16_ok ds (cs.length + ds.length + 1) [] (by omega) h2
  rw [he, e2] at e1
  simp only [List.nil_append, Res.ok.injEq] at e1
  exact ((List.map_inj_right (fun a b h => by omega)).mp e1).symm

end Verif.Utf
