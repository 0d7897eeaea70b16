import Verif.Proof.Time

/-! # C33, C34: times -/
set_option linter.unusedSimpArgs false
namespace Verif.Props.Time

open Verif.Time Verif.Spec.Time Verif.Spec.Numeral

/-- C33: `setByFILETIME` followed by `getFILETIME` gives the FILETIME rounded down to milliseconds, for every FILETIME from 1970
on for which the signed product in `getFILETIME` does not overflow. -/
theorem C33_filetime_rounds (low high : UInt32) (h : 116444736000000000 ≤ high.toNat * 2 ^ 32 + low.toNat)
    (h2 : high.toNat * 2 ^ 32 + low.toNat - 116444736000000000 < 2 ^ 63) :
    ∃ lo hi, getFILETIME (setByFILETIME low high) = .ok (lo, hi) ∧
      hi.toNat * 2 ^ 32 + lo.toNat = (high.toNat * 2 ^ 32 + low.toNat) / 10000 * 10000 := by
  rw [setByFILETIME_spec low high h]
  generalize high.toNat * 2 ^ 32 + low.toNat = ft at *
  have hdm := Nat.div_add_mod ((ft - 116444736000000000) / 10000) 1000
  obtain ⟨lo, hi, h3, h4⟩ := getFILETIME_spec { time := ((ft - 116444736000000000) / 10000 / 1000 : Nat), msec := ((ft - 116444736000000000) / 10000 % 1000 : Nat) }
    (by simp only; omega) (by simp only; omega) (by simp only; omega)
  refine ⟨lo, hi, h3, ?_⟩
  simp only at h4
  omega

/-- C33: `getFILETIME` followed by `setByFILETIME` restores every time from 1970 on that fits. -/
theorem C33_filetime_restores (t : Verif.Time.Time) (h0 : 0 ≤ t.time) (hm0 : 0 ≤ t.msec) (hm : t.msec < 1000)
    (h : (t.time * 1000 + t.msec) * 10000 < 2 ^ 63) :
    ∃ lo hi, getFILETIME t = .ok (lo, hi) ∧ setByFILETIME lo hi = t := by
  obtain ⟨lo, hi, h3, h4⟩ := getFILETIME_spec t (by omega) hm0 h
  refine ⟨lo, hi, h3, ?_⟩
  obtain ⟨tt, tm⟩ := t
  simp only at *
  rw [setByFILETIME_spec lo hi (by omega)]
  generalize hi.toNat * 2 ^ 32 + lo.toNat = ft at h4
  obtain ⟨a, rfl⟩ : ∃ a : Nat, tt = a := ⟨tt.toNat, by omega⟩
  obtain ⟨b, rfl⟩ : ∃ b : Nat, tm = b := ⟨tm.toNat, by omega⟩
  have : ft = (a * 1000 + b) * 10000 + 116444736000000000 := by omega
  subst this
  simp only [Verif.Time.Time.mk.injEq, Int.natCast_inj]
  omega

/-- C33: the order of times is the order of the milliseconds. -/
theorem C33_order (a b : Verif.Time.Time) (ha : 0 ≤ a.msec ∧ a.msec < 1000) (hb : 0 ≤ b.msec ∧ b.msec < 1000) :
    (lt a b = true ↔ a.time * 1000 + a.msec < b.time * 1000 + b.msec) ∧ (eq a b = true ↔ a.time * 1000 + a.msec = b.time * 1000 + b.msec) := by
  simp only [lt, eq, Bool.or_eq_true, Bool.and_eq_true, decide_eq_true_eq]
  omega

/-- C33: `operator<` is a strict total order, whatever the milliseconds are, and agrees with `operator==`. -/
theorem C33_total_order (a b c : Verif.Time.Time) :
    lt a a = false ∧ (lt a b = true → lt b c = true → lt a c = true) ∧ (lt a b = true ∨ eq a b = true ∨ lt b a = true) ∧
    (eq a b = true ↔ a = b) := by
  obtain ⟨a1, a2⟩ := a
  obtain ⟨b1, b2⟩ := b
  obtain ⟨c1, c2⟩ := c
  simp only [lt, eq, Bool.or_eq_true, Bool.and_eq_true, decide_eq_true_eq, Verif.Time.Time.mk.injEq, Bool.eq_false_iff, ne_eq]
  refine ⟨by omega, by omega, by omega, trivial⟩

example : (116444736000000000 : Nat) ≤ (0x01c97d51 : UInt32).toNat * 2 ^ 32 + 0x12345678 := by decide

/-- C33, finding: a FILETIME so late that the signed product overflows is read, but cannot be given back. -/
theorem C33_late_filetime_overflows : getFILETIME (setByFILETIME 0xffffffff 0xffffffff) = .ub := by decide

/-- C33: `addSec` adds exactly, whenever the sum is a signed 64-bit number; otherwise the addition is undefined. -/
theorem C33_addSec (t : Verif.Time.Time) (sec : Int) :
    (-9223372036854775808 ≤ t.time + sec ∧ t.time + sec ≤ 9223372036854775807 →
      addSec t sec = .ok { time := t.time + sec, msec := t.msec }) ∧
    (¬ (-9223372036854775808 ≤ t.time + sec ∧ t.time + sec ≤ 9223372036854775807) → addSec t sec = .ub) := by
  constructor
  · intro h
    rw [addSec, int64, if_pos (by omega)]
    rfl
  · intro h
    rw [addSec, int64, if_neg (by omega)]
    rfl

example : addSec ⟨100, 5⟩ (-200) = .ok ⟨-100, 5⟩ := by decide

/-- C33, finding: a FILETIME before 1970 wraps around and gives a time in the far future. -/
theorem C33_before_1970_wraps : setByFILETIME 0 0 = { time := 1833029933770, msec := 955 } := by decide

/-- C34: `fromString` of the text `toString` makes gives the same time and milliseconds, from 1970 to the end of 3000, whatever
follows the text in memory and whatever the object held before.  Without `appendMsec` this holds for whole seconds. -/
theorem C34_roundtrip (buf : List UInt8) (hb : buf.length = 40) (flag app : Bool) (t0 t : Verif.Time.Time) (e : List UInt8)
    (h0 : 0 ≤ t.time) (h1 : t.time < 32535216000) (hm0 : 0 ≤ t.msec) (hm1 : t.msec ≤ 999) (happ : app = false → t.msec = 0) :
    ∃ s, toString buf t app = .ok s ∧ fromString flag t0 (s ++ e) s.length = .ok (true, t) := by
  obtain ⟨tt, tm⟩ := t
  simp only at *
  obtain ⟨a, rfl⟩ : ∃ a : Nat, tt = a := ⟨tt.toNat, by omega⟩
  obtain ⟨b, rfl⟩ : ∃ b : Nat, tm = b := ⟨tm.toNat, by omega⟩
  obtain ⟨s, hs, hshape⟩ := toString_shape buf hb a b (by omega) (by omega) app (fun h => by have := happ h; omega)
  refine ⟨s, hs, ?_⟩
  rw [accept flag t0 s e _ _ _ _ _ _ _ (shape_mono _ _ _ _ _ _ _ _ hshape)]
  obtain ⟨_, _, _, _, _, _, _, _, h⟩ := gmtime_spec a
  rw [h]

/-- C34: the end of the range is the end of the year 3000, and the text has 19 or 23 characters. -/
theorem C34_range : daysBeforeYear (3001 - 1970) * 86400 = 32535216000 := by
  have h := daysBeforeYear_closed 1031
  have e : (3001 - 1970 : Nat) = 1031 := rfl
  rw [e]
  generalize daysBeforeYear 1031 = d at h ⊢
  omega

/-- C34: every text of the documented form is accepted with its meaning, whatever follows it in memory. -/
theorem C34_documented_accepted (flag : Bool) (t : Verif.Time.Time) (s e : List UInt8) (y mon d h m sec ms : Nat) (hs : Shape Digits s y mon d h m sec ms) :
    fromString flag t (s ++ e) s.length = .ok (true, { time := timegm y mon d h m sec, msec := ms }) :=
  accept flag t s e _ _ _ _ _ _ _ (shape_mono _ _ _ _ _ _ _ _ hs)

/-- C34: exactly the texts of the (loose) form are accepted; the others set `*pb = false` and leave the seconds alone.  Nothing
outside the text is read, except in the one case of a text of 19 characters with a month name.  Missing from the full claim:
fields may be `-0` or contain NUL, days may exceed the month, and the 19-character case (findings below). -/
theorem C34_accept_iff_partial (t : Verif.Time.Time) (s e : List UInt8) (hsafe : s.length = 19 → (s.drop 5).take 3 ∉ monthNames) :
    ((∃ t', fromString true t (s ++ e) s.length = .ok (true, t')) ↔ ∃ y mon d h m sec ms, Shape Loose s y mon d h m sec ms) ∧
    (∃ b t', fromString true t (s ++ e) s.length = .ok (b, t') ∧ (b = false → t'.time = t.time)) := by
  by_cases h : ∃ y mon d h m sec ms, Shape Loose s y mon d h m sec ms
  · obtain ⟨y, mon, d, h, m, sec, ms, hs⟩ := h
    have := accept true t s e _ _ _ _ _ _ _ hs
    exact ⟨⟨fun _ => ⟨_, _, _, _, _, _, _, hs⟩, fun _ => ⟨_, this⟩⟩, ⟨_, _, this, by simp⟩⟩
  · obtain ⟨t', h1, h2⟩ := reject true t s e h hsafe
    rw [err, if_pos rfl] at h1
    refine ⟨⟨?_, fun h' => absurd h' h⟩, ⟨_, _, h1, fun _ => h2⟩⟩
    rintro ⟨t2, ht2⟩
    rw [h1] at ht2
    cases ht2

/-- C34: without the flag a text that has not the form makes `fromString` throw, whenever 24 bytes can be read from its start
(`C34_exception_overread`: the message copies that many, whatever the length of the text). -/
theorem C34_reject_throws (t : Verif.Time.Time) (s e : List UInt8) (hn : ¬ ∃ y mon d h m sec ms, Shape Loose s y mon d h m sec ms)
    (hsafe : s.length = 19 → (s.drop 5).take 3 ∉ monthNames) (hmem : 24 ≤ s.length + e.length) :
    fromString false t (s ++ e) s.length = .throw := by
  obtain ⟨t', h1, _⟩ := reject false t s e hn hsafe
  rw [h1, err, if_neg (by simp), if_pos (by rw [List.length_append]; exact hmem)]

example : fromString false ⟨0, 0⟩ ([120] ++ List.replicate 23 0) 1 = .throw := by decide +kernel

/-- C34: texts without NUL in which no field starts with a minus sign are read as intended. -/
theorem C34_loose_is_strict (n lo hi : Nat) (txt : List UInt8) (v : Nat) (h0 : 0 ∉ txt) (h45 : txt.head? ≠ some 45) (h : Loose n lo hi txt v) :
    Digits n lo hi txt v := by
  obtain ⟨h1, h2, h3, h4⟩ := h
  have hu : upToNul txt = txt := by
    have := Verif.Atoi.upToNul_append (r := []) (d := txt) (fun c hc e => h0 (e ▸ hc))
    simpa [upToNul] using this
  rw [hu, Verif.Atoi.parseInt_nonneg h45, Option.map_eq_some_iff] at h2
  obtain ⟨w, hw, he⟩ := h2
  have he : w = v := by omega
  subst he
  rw [parseNat] at hw
  split at hw
  · cases hw
  · cases hv : value? 10 txt with
    | none => rw [hv] at hw; cases hw
    | some u =>
      rw [hv] at hw
      simp only at hw
      split at hw
      · injection hw with hw
        exact ⟨h1, by rw [hv, hw], h3, h4⟩
      · cases hw

/-- The calendar the model of `timegm` uses is the Gregorian one: the usual closed form of the day count. -/
theorem C34_calendar (n : Nat) : daysBeforeYear n + 477 = 365 * n + ((1969 + n) / 4 - (1969 + n) / 100 + (1969 + n) / 400) :=
  daysBeforeYear_closed n

/-- "2009-Jan-23T02:53:44.078Z" has the documented form. -/
example : Shape Digits [50, 48, 48, 57, 45, 74, 97, 110, 45, 50, 51, 84, 48, 50, 58, 53, 51, 58, 52, 52, 46, 48, 55, 56, 90] 2009 0 23 2 53 44 78 :=
  .mk [50, 48, 48, 57] [74, 97, 110] [50, 51] [48, 50] [53, 51] [52, 52] [46, 48, 55, 56, 90] 45 84 2009 0 23 2 53 44 78
    (by simp only [Digits]; decide) (.inl rfl) (.inl rfl) (by simp only [Digits]; decide) (.inr rfl) (by simp only [Digits]; decide) (by simp only [Digits]; decide)
    (by simp only [Digits]; decide) (.inr (.inr ⟨[48, 55, 56], .inr rfl, by simp only [Digits]; decide⟩))

example : fromString true ⟨0, 0⟩ ([50, 48, 48, 57, 45, 74, 97, 110, 45, 50, 51, 84, 48, 50, 58, 53, 51, 58, 52, 52, 46, 48, 55, 56, 90] ++ [0]) 25 =
    .ok (true, ⟨1232679224, 78⟩) := by decide +kernel

/-- C34, finding: the `std::string` "2009-Jan-23T02:53:4" (19 characters) makes `fromString` read beyond its terminating NUL. -/
theorem C34_month_name_overread :
    fromString true ⟨0, 0⟩ ([50, 48, 48, 57, 45, 74, 97, 110, 45, 50, 51, 84, 48, 50, 58, 53, 51, 58, 52] ++ [0]) 19 = .ub := by decide +kernel

/-- C34, finding: without the flag, refusing a short text reads 24 characters of it to make the text of the exception. -/
theorem C34_exception_overread : fromString false ⟨0, 0⟩ ([120] ++ [0]) 1 = .ub := by decide +kernel

/-- C34, finding: the 31st of February is accepted, as the 3rd of March. -/
theorem C34_february_31 :
    fromString true ⟨0, 0⟩ [50, 48, 48, 57, 45, 48, 50, 45, 51, 49, 84, 48, 50, 58, 53, 51, 58, 52, 52] 19 =
    fromString true ⟨0, 0⟩ [50, 48, 48, 57, 45, 48, 51, 45, 48, 51, 84, 48, 50, 58, 53, 51, 58, 52, 52] 19 ∧
    fromString true ⟨0, 0⟩ [50, 48, 48, 57, 45, 48, 51, 45, 48, 51, 84, 48, 50, 58, 53, 51, 58, 52, 52] 19 = .ok (true, ⟨1236048824, 0⟩) := by decide +kernel

/-- C34, finding: the hour "-0" is accepted, and so is a minute of one digit and a NUL. -/
theorem C34_loose_fields_accepted :
    fromString true ⟨0, 0⟩ [50, 48, 48, 57, 45, 48, 51, 45, 48, 51, 84, 45, 48, 58, 53, 0, 58, 52, 52] 19 = .ok (true, ⟨1236038744, 0⟩) := by decide +kernel

#print axioms C33_filetime_rounds
#print axioms C33_filetime_restores
#print axioms C33_order
#print axioms C33_addSec
#print axioms C34_roundtrip
#print axioms C34_documented_accepted
#print axioms C34_accept_iff_partial
#print axioms C34_loose_is_strict
#print axioms C34_calendar
#print axioms C34_reject_throws

end Verif.Props.Time
