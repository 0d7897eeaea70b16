import Verif.Spec.Time
import Verif.Spec.TimeFmt
import Verif.Model.TimeFmt
import Verif.Proof.Time

set_option linter.unusedSimpArgs false

/-! # C144: times in any format, and the current time -/
namespace Verif.Props.TimeFmt
open Verif.Time Verif.TimeFmt Verif.TimeFmtSpec Verif.Spec.Numeral Verif.Atoi
open Verif.Spec.Time (Shape Digits monthNames)

/-! ## The calendar -/

theorem leap_iff (y : Nat) : isLeap y = true ↔ leap y := by
  simp only [isLeap, leap, Bool.or_eq_true, Bool.and_eq_true, decide_eq_true_eq]
  constructor
  · rintro (h | h) <;> simp_all
  · rintro (h | h) <;> simp_all

theorem lengths_get (y m : Nat) (h : m ≤ 11) : (lengths y)[m]? = some (monthLen y m) := by
  have hl : (if isLeap y then 29 else 28) = (if leap y then 29 else 28) := by
    by_cases hy : leap y
    · rw [if_pos hy, if_pos ((leap_iff y).2 hy)]
    · rw [if_neg hy, if_neg (fun h => hy ((leap_iff y).1 h))]
  unfold monthLen
  rw [hl]
  have : m = 0 ∨ m = 1 ∨ m = 2 ∨ m = 3 ∨ m = 4 ∨ m = 5 ∨ m = 6 ∨ m = 7 ∨ m = 8 ∨ m = 9 ∨ m = 10 ∨ m = 11 := by omega
  rcases this with rfl | rfl | rfl | rfl | rfl | rfl | rfl | rfl | rfl | rfl | rfl | rfl <;> rfl

theorem take_sum (y m : Nat) (h : m ≤ 12) : ((lengths y).take m).sum = daysBeforeMonth y m := by
  induction m with
  | zero => rfl
  | succ m ih =>
    rw [List.take_add_one, List.sum_append, ih (by omega), lengths_get y m (by omega), daysBeforeMonth]
    simp

theorem lengths_sum (y : Nat) : (lengths y).sum = yearLen y := by
  rw [← daysBeforeMonth_12, ← take_sum y 12 (by omega)]
  rfl

theorem daysTo_eq (n : Nat) : daysTo (1970 + n) = daysBeforeYear n := by
  unfold daysTo
  rw [show 1970 + n - 1970 = n by omega]
  induction n with
  | zero => rfl
  | succ n ih =>
    rw [List.range_succ, List.map_append, List.sum_append, ih, daysBeforeYear]
    simp only [List.map_cons, List.map_nil, List.sum_cons, List.sum_nil, lengths_sum]
    omega

theorem weekday_eq (n : Nat) : weekday n = (n + 4) % 7 := by
  induction n with
  | zero => rfl
  | succ n ih =>
    rw [weekday, ih]
    split <;> omega

/-- The date the program works with. -/
def whenOf (t : Nat) : When :=
  ⟨(gmtime t).year, (gmtime t).mon, (gmtime t).mday, (gmtime t).hour, (gmtime t).min, (gmtime t).sec, t / 86400, (gmtimeAll t).yday⟩

theorem yday_eq (t : Nat) : (gmtimeAll t).yday = daysBeforeMonth (gmtime t).year (gmtime t).mon + ((gmtime t).mday - 1) ∧
    t / 86400 = daysBeforeYear ((gmtime t).year - 1970) + (gmtimeAll t).yday := by
  obtain ⟨h1, h2, h3, h4, h5, h6, h7, h8, h9⟩ := gmtime_spec t
  rw [timegm] at h9
  have e : (gmtimeAll t).yday = t / 86400 - daysBeforeYear ((gmtime t).year - 1970) := rfl
  rw [e]
  generalize daysBeforeYear ((gmtime t).year - 1970) = a at *
  generalize daysBeforeMonth (gmtime t).year (gmtime t).mon = b at *
  omega

theorem isDate_whenOf (t : Nat) : IsDate t (whenOf t) := by
  obtain ⟨h1, h2, h3, h4, h5, h6, h7, h8, h9⟩ := gmtime_spec t
  obtain ⟨h10, h11⟩ := yday_eq t
  refine ⟨h1, ⟨_, lengths_get _ _ h2, h3, h4⟩, h5, h6, h7, ?_, ?_, ?_⟩
  · show (gmtimeAll t).yday = ((lengths (gmtime t).year).take (gmtime t).mon).sum + _
    rw [take_sum _ _ (by omega)]
    exact h10
  · show t / 86400 = daysTo (gmtime t).year + (gmtimeAll t).yday
    obtain ⟨n, hn⟩ : ∃ n, (gmtime t).year = 1970 + n := ⟨(gmtime t).year - 1970, by omega⟩
    rw [hn, daysTo_eq]
    rw [hn, show 1970 + n - 1970 = n by omega] at h11
    exact h11
  · show t = ((t / 86400 * 24 + (gmtime t).hour) * 60 + (gmtime t).min) * 60 + (gmtime t).sec
    have a : (gmtime t).hour = t % 86400 / 3600 := rfl
    have b : (gmtime t).min = t % 3600 / 60 := rfl
    have c : (gmtime t).sec = t % 60 := rfl
    rw [a, b, c]
    omega

/-- C144: every second from 1970 on has exactly one date (with day of the year and of the era). -/
theorem C144_date (t : Nat) : (∃ w, IsDate t w) ∧ ∀ w w', IsDate t w → IsDate t w' → w = w' := by
  refine ⟨⟨_, isDate_whenOf t⟩, ?_⟩
  have key : ∀ w, IsDate t w → ∃ m, w.mon ≤ 11 ∧ w.year = 1970 + m ∧ w.day = t / 86400 ∧ daysBeforeYear m + w.yday = w.day ∧ w.yday < yearLen w.year ∧
      w.yday = daysBeforeMonth w.year w.mon + (w.mday - 1) ∧ 1 ≤ w.mday ∧ w.mday ≤ monthLen w.year w.mon ∧
      w.hour = t % 86400 / 3600 ∧ w.min = t % 3600 / 60 ∧ w.sec = t % 60 := by
    rintro w ⟨h1, ⟨n, h2, h3, h4⟩, h5, h6, h7, h8, h9, h10⟩
    have hm : w.mon ≤ 11 := by
      have := (List.getElem?_eq_some_iff.1 h2).1
      simp only [lengths, List.length_cons, List.length_nil] at this
      omega
    rw [lengths_get _ _ hm] at h2
    injection h2 with h2
    rw [take_sum _ _ (by omega)] at h8
    obtain ⟨m, hn⟩ : ∃ n, w.year = 1970 + n := ⟨w.year - 1970, by omega⟩
    rw [hn, daysTo_eq] at h9
    have hmono : ∀ j, w.mon + 1 + j ≤ 12 → daysBeforeMonth w.year (w.mon + 1) ≤ daysBeforeMonth w.year (w.mon + 1 + j) := by
      intro j
      induction j with
      | zero => intro _; exact Nat.le_refl _
      | succ j ih =>
        intro hj
        have := ih (by omega)
        have e : daysBeforeMonth w.year (w.mon + 1 + j + 1) = daysBeforeMonth w.year (w.mon + 1 + j) + monthLen w.year (w.mon + 1 + j) := rfl
        rw [show w.mon + 1 + (j + 1) = (w.mon + 1 + j) + 1 by omega, e]
        omega
    have h12 := hmono (11 - w.mon) (by omega)
    rw [show w.mon + 1 + (11 - w.mon) = 12 by omega, daysBeforeMonth_12, daysBeforeMonth] at h12
    refine ⟨m, hm, hn, by omega, by omega, by omega, h8, h3, by omega, by omega, by omega, by omega⟩
  intro w w' hw hw'
  obtain ⟨m, a1, a2, a3, a4, a5, a6, a7, a8, a9, a10, a11⟩ := key w hw
  obtain ⟨m', b1, b2, b3, b4, b5, b6, b7, b8, b9, b10, b11⟩ := key w' hw'
  have hstep : ∀ p q, p < q → daysBeforeYear p + yearLen (1970 + p) ≤ daysBeforeYear q := by
    intro p q h
    have := daysBeforeYear_mono (m := p + 1) (n := q) (by omega)
    rwa [daysBeforeYear] at this
  have hmm : m = m' := by
    rcases Nat.lt_trichotomy m m' with h | h | h
    · have := hstep _ _ h
      rw [a2] at a5
      omega
    · exact h
    · have := hstep _ _ h
      rw [b2] at b5
      omega
  subst hmm
  have hy : w.year = w'.year := by omega
  have hyd : w.yday = w'.yday := by omega
  rw [← hy] at b6 b8
  have hmstep : ∀ j p, daysBeforeMonth w.year p + monthLen w.year p ≤ daysBeforeMonth w.year (p + 1 + j) := by
    intro j
    induction j with
    | zero => intro p; exact Nat.le_refl _
    | succ j ih =>
      intro p
      have := ih p
      rw [show p + 1 + (j + 1) = (p + 1 + j) + 1 by omega, daysBeforeMonth]
      omega
  have hmon : w.mon = w'.mon := by
    rcases Nat.lt_trichotomy w.mon w'.mon with h | h | h
    · have := hmstep (w'.mon - w.mon - 1) w.mon
      rw [show w.mon + 1 + (w'.mon - w.mon - 1) = w'.mon by omega] at this
      omega
    · exact h
    · have := hmstep (w.mon - w'.mon - 1) w'.mon
      rw [show w'.mon + 1 + (w.mon - w'.mon - 1) = w.mon by omega] at this
      omega
  rw [← hmon] at b6
  obtain ⟨y1, m1, d1, h1, i1, s1, e1, f1⟩ := w
  obtain ⟨y2, m2, d2, h2, i2, s2, e2, f2⟩ := w'
  simp only at *
  simp only [When.mk.injEq]
  refine ⟨hy, hmon, by omega, by omega, by omega, by omega, by omega, by omega⟩

/-! ## Digits -/

theorem dec2 (x : Nat) (h : x < 100) : Dec 2 (dig2 x) x := ⟨rfl, value_dig2 x h⟩

theorem dec1 (x : Nat) (h : x < 10) : Dec 1 [UInt8.ofNat (48 + x)] x := by
  refine ⟨rfl, ?_⟩
  simp only [value?, List.foldl_cons, List.foldl_nil, value_dig x x h, if_pos h]
  simp

theorem dec3 (x : Nat) (h : x < 1000) : Dec 3 (UInt8.ofNat (48 + x / 100) :: dig2 (x % 100)) x := by
  refine ⟨rfl, ?_⟩
  have h1 : x / 100 < 10 := by omega
  have h2 : x % 100 / 10 < 10 := by omega
  have h3 : x % 100 % 10 < 10 := by omega
  simp only [value?, dig2, List.foldl_cons, List.foldl_nil, value_dig _ 0 h1, value_dig _ 0 h2, value_dig _ 0 h3, if_pos h1, if_pos h2, if_pos h3]
  congr 1
  omega

theorem decText_eq (x : Nat) : decText x = Itoa.dec x := by
  induction x using Nat.strongRecOn with
  | _ x ih =>
    rw [decText]
    by_cases h : x < 10
    · rw [if_pos h, Itoa.dec, Itoa.digs_lt h]
      rw [Nat.mod_eq_of_lt h]
    · rw [if_neg h, ih _ (by omega), Itoa.dec, Itoa.dec, Itoa.digs_ge (by omega) (by omega : 10 ≤ x)]

theorem canonical_decText (x : Nat) : Canonical 10 (decText x) x := by
  rw [decText_eq]
  exact Itoa.canonical_digs (by omega) Itoa.isDig_dec x

/-- The three digits of the milliseconds. -/
theorem msec3 (buf : List UInt8) (hb : buf.length = 40) (ms : Nat) (hm : ms ≤ 999) :
    ∃ m, Itoa.itoaWithZero buf (ms : Int) 3 48 = .ok m ∧ Dec 3 m ms := by
  have hcan : Canonical 10 (Itoa.dec ms) ms := Itoa.canonical_digs (by omega) Itoa.isDig_dec ms
  have hl : (Itoa.dec ms).length ≤ 3 := Itoa.digs_length (by omega) 3 ms (by omega) (by omega)
  rw [Itoa.itoaWithZero, Itoa.convertFromInt_eq buf hb (ms : Int) (by omega) (by omega)]
  simp only [Res.ok_bind]
  rw [show Itoa.decInt (ms : Int) = Itoa.dec ms by rw [Itoa.decInt, if_neg (by omega), Int.toNat_natCast]]
  by_cases hlt : (Itoa.dec ms).length < 3
  · rw [if_pos hlt, if_pos (by omega)]
    refine ⟨_, rfl, by simp; omega, ?_⟩
    rw [value_eq_valFrom, valFrom_zeros 10 _ (by omega), ← value_eq_valFrom]
    exact hcan.2.1
  · rw [if_neg hlt]
    exact ⟨_, rfl, by omega, hcan.2.1⟩

/-! ## Conversions -/

theorem month_name (m : Nat) (h : m ≤ 11) : ∃ s, months[m]? = some s ∧ fullMonths.getD m [] = ascii s := by
  have : m = 0 ∨ m = 1 ∨ m = 2 ∨ m = 3 ∨ m = 4 ∨ m = 5 ∨ m = 6 ∨ m = 7 ∨ m = 8 ∨ m = 9 ∨ m = 10 ∨ m = 11 := by omega
  rcases this with rfl | rfl | rfl | rfl | rfl | rfl | rfl | rfl | rfl | rfl | rfl | rfl <;> exact ⟨_, rfl, by decide +kernel⟩

theorem day_name (m : Nat) (h : m ≤ 6) : ∃ s, days[m]? = some s ∧ dayNames.getD m [] = ascii s := by
  have : m = 0 ∨ m = 1 ∨ m = 2 ∨ m = 3 ∨ m = 4 ∨ m = 5 ∨ m = 6 := by omega
  rcases this with rfl | rfl | rfl | rfl | rfl | rfl | rfl <;> exact ⟨_, rfl, by decide +kernel⟩

theorem directive_means (t : Nat) (k : UInt8) (y : List UInt8) (h : directive (gmtimeAll t) k = some y) :
    ∃ c : Char, UInt8.ofNat c.toNat = k ∧ Means (whenOf t) c y := by
  obtain ⟨h1, h2, h3, h4, h5, h6, h7, h8, h9⟩ := gmtime_spec t
  have hd := dbm_le (gmtime t).year _ h2
  obtain ⟨h10, h11⟩ := yday_eq t
  obtain ⟨hw, hwd⟩ : weekday (whenOf t).day = (gmtimeAll t).wday ∧ (gmtimeAll t).wday ≤ 6 := by
    refine ⟨weekday_eq _, ?_⟩
    show (t / 86400 + 4) % 7 ≤ 6
    omega
  have hyd : (gmtimeAll t).yday < 366 := by
    obtain ⟨y1, y2⟩ := findYear_spec (t / 86400) 0 (t / 86400) (Nat.le_refl _)
    have e : (gmtime t).year - 1970 = (findYear (t / 86400) 0 (t / 86400)).1 := by
      show 1970 + (findYear (t / 86400) 0 (t / 86400)).1 - 1970 = _
      omega
    rw [e] at h11
    have hy : ∀ n, yearLen n ≤ 366 := fun n => by rw [yearLen]; split <;> omega
    have := hy (1970 + (findYear (t / 86400) 0 (t / 86400)).1)
    simp only [daysBeforeYear, Nat.zero_add] at y2
    omega
  obtain ⟨mn, hmn, hmn'⟩ := month_name _ h2
  obtain ⟨dn, hdn, hdn'⟩ := day_name _ hwd
  unfold directive at h
  have etm : (gmtimeAll t).tm = gmtime t := rfl
  rw [etm] at h
  by_cases c1 : k = 89
  · subst c1
    simp only [if_true, Option.some.injEq] at h
    subst h
    refine ⟨'Y', rfl, .Y _ ?_ ?_⟩
    · intro hy
      have hy : (gmtime t).year < 10000 := hy
      rw [if_pos hy]
      exact ⟨rfl, value_dig4 _ hy⟩
    · intro hy
      have hy : 10000 ≤ (gmtime t).year := hy
      rw [if_neg (by omega)]
      exact canonical_decText _
  rw [if_neg c1] at h
  by_cases c2 : k = 121
  · subst c2; rw [if_pos rfl] at h; injection h with h; subst h
    exact ⟨'y', rfl, .y _ (dec2 _ (by omega))⟩
  rw [if_neg c2] at h
  by_cases c3 : k = 109
  · subst c3; rw [if_pos rfl] at h; injection h with h; subst h
    exact ⟨'m', rfl, .m _ (dec2 _ (by omega))⟩
  rw [if_neg c3] at h
  by_cases c4 : k = 98 ∨ k = 104
  · rw [if_pos c4] at h; injection h with h; subst h
    rw [hmn']
    rcases c4 with rfl | rfl
    · exact ⟨'b', rfl, .b _ hmn⟩
    · exact ⟨'h', rfl, .h _ hmn⟩
  rw [if_neg c4] at h
  by_cases c5 : k = 66
  · subst c5; rw [if_pos rfl] at h; injection h with h; subst h
    rw [hmn']
    exact ⟨'B', rfl, .B _ hmn⟩
  rw [if_neg c5] at h
  by_cases c6 : k = 100
  · subst c6; rw [if_pos rfl] at h; injection h with h; subst h
    exact ⟨'d', rfl, .d _ (dec2 _ (by omega))⟩
  rw [if_neg c6] at h
  by_cases c7 : k = 101
  · subst c7; rw [if_pos rfl] at h; injection h with h; subst h
    by_cases hm : (gmtime t).mday < 10
    · rw [if_pos hm]
      exact ⟨'e', rfl, .e1 _ hm (dec1 _ hm)⟩
    · rw [if_neg hm]
      exact ⟨'e', rfl, .e2 _ (by simp only [whenOf]; omega) (dec2 _ (by omega))⟩
  rw [if_neg c7] at h
  by_cases c8 : k = 72
  · subst c8; rw [if_pos rfl] at h; injection h with h; subst h
    exact ⟨'H', rfl, .H _ (dec2 _ (by omega))⟩
  rw [if_neg c8] at h
  by_cases c9 : k = 73
  · subst c9; rw [if_pos rfl] at h; injection h with h; subst h
    exact ⟨'I', rfl, .I _ _ (dec2 _ (by omega)) (by omega) (by omega) (by simp only [whenOf]; omega)⟩
  rw [if_neg c9] at h
  by_cases c10 : k = 112
  · subst c10; rw [if_pos rfl] at h; injection h with h; subst h
    by_cases hm : (gmtime t).hour < 12
    · rw [if_pos hm]
      exact ⟨'p', rfl, .am hm⟩
    · rw [if_neg hm]
      exact ⟨'p', rfl, .pm (by simp only [whenOf]; omega)⟩
  rw [if_neg c10] at h
  by_cases c11 : k = 77
  · subst c11; rw [if_pos rfl] at h; injection h with h; subst h
    exact ⟨'M', rfl, .M _ (dec2 _ (by omega))⟩
  rw [if_neg c11] at h
  by_cases c12 : k = 83
  · subst c12; rw [if_pos rfl] at h; injection h with h; subst h
    exact ⟨'S', rfl, .S _ (dec2 _ (by omega))⟩
  rw [if_neg c12] at h
  by_cases c13 : k = 97
  · subst c13; rw [if_pos rfl] at h; injection h with h; subst h
    rw [hdn']
    exact ⟨'a', rfl, .a _ (by rw [hw]; exact hdn)⟩
  rw [if_neg c13] at h
  by_cases c14 : k = 65
  · subst c14; rw [if_pos rfl] at h; injection h with h; subst h
    rw [hdn']
    exact ⟨'A', rfl, .A _ (by rw [hw]; exact hdn)⟩
  rw [if_neg c14] at h
  by_cases c15 : k = 106
  · subst c15; rw [if_pos rfl] at h; injection h with h; subst h
    exact ⟨'j', rfl, .j _ (dec3 _ (by omega))⟩
  rw [if_neg c15] at h
  by_cases c16 : k = 119
  · subst c16; rw [if_pos rfl] at h; injection h with h; subst h
    exact ⟨'w', rfl, .w _ (by rw [hw]; exact dec1 _ (by omega))⟩
  rw [if_neg c16] at h
  by_cases c17 : k = 117
  · subst c17; rw [if_pos rfl] at h; injection h with h; subst h
    have hb : (if (gmtimeAll t).wday = 0 then 7 else (gmtimeAll t).wday) < 10 := by split <;> omega
    exact ⟨'u', rfl, .u _ _ (dec1 _ hb) (by split <;> omega) (by split <;> omega) (by rw [hw]; split <;> omega)⟩
  rw [if_neg c17] at h
  by_cases c18 : k = 37
  · subst c18; rw [if_pos rfl] at h; injection h with h; subst h
    exact ⟨'%', rfl, .percent⟩
  rw [if_neg c18] at h
  by_cases c19 : k = 110
  · subst c19; rw [if_pos rfl] at h; injection h with h; subst h
    exact ⟨'n', rfl, .n⟩
  rw [if_neg c19] at h
  by_cases c20 : k = 116
  · subst c20; rw [if_pos rfl] at h; injection h with h; subst h
    exact ⟨'t', rfl, .t⟩
  rw [if_neg c20] at h
  cases h

theorem expandSimple_text (t : Nat) (n : Nat) : ∀ fmt x, fmt.length ≤ n → expandSimple (gmtimeAll t) fmt = some x → Text (whenOf t) fmt x := by
  induction n with
  | zero =>
    intro fmt x hn h
    cases fmt with
    | nil => rw [expandSimple] at h; injection h with h; subst h; exact .nil
    | cons c fmt => simp at hn
  | succ n ih =>
    intro fmt x hn h
    cases fmt with
    | nil => rw [expandSimple] at h; injection h with h; subst h; exact .nil
    | cons c fmt =>
      rw [expandSimple.eq_def] at h
      simp only [List.length_cons] at hn h
      by_cases hc : c ≠ 37
      · rw [if_pos hc, Option.map_eq_some_iff] at h
        obtain ⟨y, hy, rfl⟩ := h
        exact .lit _ _ _ hc (ih _ _ (by omega) hy)
      · rw [if_neg hc] at h
        have hc : c = 37 := Classical.byContradiction hc
        subst hc
        cases fmt with
        | nil => cases h
        | cons k fmt =>
          simp only [List.length_cons] at hn
          simp only at h
          split at h
          · rename_i y z hy hz
            injection h with h
            subst h
            obtain ⟨c, rfl, hm⟩ := directive_means t k y hy
            exact .dir c _ _ _ hm (ih _ _ (by omega) hz)
          · cases h

theorem composite_stands (k : UInt8) (sub : List UInt8) (h : composite k = some sub) :
    ∃ c s, UInt8.ofNat c.toNat = k ∧ stands c = some s ∧ ascii s = sub := by
  unfold composite at h
  by_cases c1 : k = 70
  · subst c1; rw [if_pos rfl] at h; injection h with h; subst h
    exact ⟨'F', _, rfl, rfl, by decide +kernel⟩
  rw [if_neg c1] at h
  by_cases c2 : k = 84
  · subst c2; rw [if_pos rfl] at h; injection h with h; subst h
    exact ⟨'T', _, rfl, rfl, by decide +kernel⟩
  rw [if_neg c2] at h
  by_cases c3 : k = 82
  · subst c3; rw [if_pos rfl] at h; injection h with h; subst h
    exact ⟨'R', _, rfl, rfl, by decide +kernel⟩
  rw [if_neg c3] at h
  by_cases c4 : k = 68
  · subst c4; rw [if_pos rfl] at h; injection h with h; subst h
    exact ⟨'D', _, rfl, rfl, by decide +kernel⟩
  rw [if_neg c4] at h
  cases h

/-- What a format stands for. -/
theorem expand_text (t : Nat) (n : Nat) : ∀ fmt x, fmt.length ≤ n → expand (gmtimeAll t) fmt = some x → Text (whenOf t) fmt x := by
  induction n with
  | zero =>
    intro fmt x hn h
    cases fmt with
    | nil => rw [expand] at h; injection h with h; subst h; exact .nil
    | cons c fmt => simp at hn
  | succ n ih =>
    intro fmt x hn h
    cases fmt with
    | nil => rw [expand] at h; injection h with h; subst h; exact .nil
    | cons c fmt =>
      rw [expand.eq_def] at h
      simp only [List.length_cons] at hn h
      by_cases hc : c ≠ 37
      · rw [if_pos hc, Option.map_eq_some_iff] at h
        obtain ⟨y, hy, rfl⟩ := h
        exact .lit _ _ _ hc (ih _ _ (by omega) hy)
      · rw [if_neg hc] at h
        have hc : c = 37 := Classical.byContradiction hc
        subst hc
        cases fmt with
        | nil => cases h
        | cons k fmt =>
          simp only [List.length_cons] at hn
          simp only at h
          split at h
          · rename_i y z hy hz
            injection h with h
            subst h
            unfold conv at hy
            cases hk : composite k with
            | none =>
              rw [hk] at hy
              obtain ⟨c, rfl, hm⟩ := directive_means t k y hy
              exact .dir c _ _ _ hm (ih _ _ (by omega) hz)
            | some sub =>
              rw [hk] at hy
              obtain ⟨c, s, rfl, hs, rfl⟩ := composite_stands k sub hk
              exact .comp c s _ _ _ hs (expandSimple_text t _ _ _ (Nat.le_refl _) hy) (ih _ _ (by omega) hz)
          · cases h

theorem expand_lit (d : Day) (c : UInt8) (fmt x : List UInt8) (hc : c ≠ 37) (h : expand d fmt = some x) : expand d (c :: fmt) = some (c :: x) := by
  rw [expand.eq_def]
  simp only
  rw [if_pos hc, h]
  rfl

theorem expand_conv (d : Day) (k : UInt8) (fmt x y : List UInt8) (hy : conv d k = some y) (h : expand d fmt = some x) :
    expand d (37 :: k :: fmt) = some (y ++ x) := by
  rw [expand.eq_def]
  simp [hy, h]

theorem known_codes : ascii "YymbhBdeHIpMSaAjwu%ntFTRD" =
    [89, 121, 109, 98, 104, 66, 100, 101, 72, 73, 112, 77, 83, 97, 65, 106, 119, 117, 37, 110, 116, 70, 84, 82, 68] := by decide +kernel

theorem expand_known (d : Day) (fmt : List UInt8) (h : Known fmt) : ∃ x, expand d fmt = some x := by
  induction h with
  | nil => exact ⟨_, rfl⟩
  | lit c fmt hc _ ih =>
    obtain ⟨x, hx⟩ := ih
    exact ⟨c :: x, expand_lit _ _ _ _ hc hx⟩
  | dir c fmt hc _ ih =>
    obtain ⟨x, hx⟩ := ih
    rw [known_codes] at hc
    obtain ⟨y, hy⟩ : ∃ y, conv d c = some y := by
      simp only [List.mem_cons, List.not_mem_nil, or_false] at hc
      rcases hc with rfl | rfl | rfl | rfl | rfl | rfl | rfl | rfl | rfl | rfl | rfl | rfl | rfl | rfl | rfl | rfl | rfl | rfl | rfl | rfl | rfl | rfl | rfl | rfl | rfl <;>
        exact ⟨_, rfl⟩
    exact ⟨y ++ x, expand_conv _ _ _ _ _ hy hx⟩

/-! ## The properties -/

/-- C144: for a format of the listed conversions, `toString` appends to `out` (emptied first with `doClear`) exactly what the format
stands for on the date of the time, then the milliseconds in three digits if asked for; it throws exactly if the text of the format is
empty or longer than 127 characters, and then `out` is as it was (empty with `doClear`). -/
theorem C144_toString (buf : List UInt8) (hb : buf.length = 40) (out fmt : List UInt8) (hk : Known fmt) (t ms : Nat) (hm : ms ≤ 999)
    (ht : ∀ w, IsDate t w → w.year < 2147485548) (app clear : Bool) :
    ∃ w x m, IsDate t w ∧ Text w fmt x ∧ Dec 3 m ms ∧
      toStringFmt buf out fmt ⟨t, ms⟩ app clear =
        .ok (if 0 < x.length ∧ x.length ≤ 127 then (true, (if clear then [] else out) ++ x ++ (if app then m else []))
             else (false, if clear then [] else out)) := by
  obtain ⟨x, hx⟩ := expand_known (gmtimeAll t) fmt hk
  obtain ⟨m, hm1, hm2⟩ := msec3 buf hb ms hm
  refine ⟨whenOf t, x, m, isDate_whenOf t, expand_text t _ _ _ (Nat.le_refl _) hx, hm2, ?_⟩
  have hy : (gmtimeAll t).tm.year < 2147485548 := ht _ (isDate_whenOf t)
  unfold toStringFmt
  simp only [Int.toNat_natCast]
  rw [if_neg (by omega), hx]
  simp only
  by_cases hl : 0 < x.length ∧ x.length ≤ 127
  · rw [if_pos hl, if_neg (by omega)]
    cases app with
    | true =>
      rw [if_pos rfl, hm1]
      simp [Res.ok_bind, Res.pure_eq]
    | false => simp
  · rw [if_neg hl, if_pos (by omega)]

/-- C144: years that do not fit the `int` of `struct tm` throw, whatever the format is. -/
theorem C144_far_future (buf out fmt : List UInt8) (t : Nat) (ms : Int) (w : When) (hw : IsDate t w) (hy : 2147485548 ≤ w.year) (app clear : Bool) :
    toStringFmt buf out fmt ⟨t, ms⟩ app clear = .ok (false, if clear then [] else out) := by
  have e := (C144_date t).2 _ _ hw (isDate_whenOf t)
  subst e
  unfold toStringFmt
  simp only [Int.toNat_natCast]
  have hy : 2147485548 ≤ (gmtimeAll t).tm.year := hy
  rw [if_pos (by omega)]

/-- The formats `fromString` can read: separator, month by name or number, separator of the time, end. -/
def readable (sep dsep : UInt8) (named : Bool) (tail : List UInt8) : List UInt8 :=
  ascii "%Y" ++ [sep] ++ ascii (if named then "%b" else "%m") ++ [sep] ++ ascii "%d" ++ [dsep] ++ ascii "%H:%M:%S" ++ tail

theorem ascii_Y : ascii "%Y" = [37, 89] := by decide +kernel
theorem ascii_b : ascii "%b" = [37, 98] := by decide +kernel
theorem ascii_m : ascii "%m" = [37, 109] := by decide +kernel
theorem ascii_d : ascii "%d" = [37, 100] := by decide +kernel
theorem ascii_T : ascii "%H:%M:%S" = [37, 72, 58, 37, 77, 58, 37, 83] := by decide +kernel

theorem expand_readable (d : Day) (hy : d.tm.year < 10000) (sep dsep : UInt8) (hs : sep ≠ 37) (hds : dsep ≠ 37) (named : Bool) (tail : List UInt8)
    (ht : expand d tail = some tail) :
    expand d (readable sep dsep named tail) = some (dig4 d.tm.year ++ [sep] ++
      (if named then (fullMonths.getD d.tm.mon []).take 3 else dig2 (d.tm.mon + 1)) ++ [sep] ++ dig2 d.tm.mday ++ [dsep] ++ dig2 d.tm.hour ++ [58] ++
      dig2 d.tm.min ++ [58] ++ dig2 d.tm.sec ++ tail) := by
  unfold readable
  rw [ascii_Y, ascii_d, ascii_T]
  have hY : conv d 89 = some (dig4 d.tm.year) := by
    show some (if d.tm.year < 10000 then _ else _) = _
    rw [if_pos hy]
  have h1 := expand_conv d 83 _ _ _ rfl ht
  have h2 := expand_conv d 77 _ _ _ rfl (expand_lit d 58 _ _ (by decide) h1)
  have h3 := expand_conv d 72 _ _ _ rfl (expand_lit d 58 _ _ (by decide) h2)
  have h4 := expand_lit d sep _ _ hs (expand_conv d 100 _ _ _ rfl (expand_lit d dsep _ _ hds h3))
  cases named with
  | true =>
    have h5 := expand_conv d 89 _ _ _ hY (expand_lit d sep _ _ hs (expand_conv d 98 _ _ _ rfl h4))
    simp only [if_true]
    rw [ascii_b]
    simp only [List.append_assoc, List.cons_append, List.nil_append]
    exact h5
  | false =>
    have h5 := expand_conv d 89 _ _ _ hY (expand_lit d sep _ _ hs (expand_conv d 109 _ _ _ rfl h4))
    rw [if_neg (by simp), if_neg (by simp), ascii_m]
    simp only [List.append_assoc, List.cons_append, List.nil_append]
    exact h5

theorem short_name (m : Nat) (h : m ≤ 11) : monthNames[m]? = some ((fullMonths.getD m []).take 3) := by
  have : m = 0 ∨ m = 1 ∨ m = 2 ∨ m = 3 ∨ m = 4 ∨ m = 5 ∨ m = 6 ∨ m = 7 ∨ m = 8 ∨ m = 9 ∨ m = 10 ∨ m = 11 := by omega
  rcases this with rfl | rfl | rfl | rfl | rfl | rfl | rfl | rfl | rfl | rfl | rfl | rfl <;> rfl

/-- C144: `fromString` reads back the text of every readable format ("%Y-%b-%d %H:%M:%S." of the documentation is one), for all times
from 1970 to the end of 3000: with milliseconds after a dot, or for whole seconds with nothing or "Z" at the end. -/
theorem C144_roundtrip (buf : List UInt8) (hb : buf.length = 40) (flag named app : Bool) (t0 : Verif.Time.Time) (out e tail : List UInt8)
    (sep dsep : UInt8) (hsep : sep = 45 ∨ sep = 47) (hdsep : dsep = 32 ∨ dsep = 84) (t ms : Nat) (ht : t < 32535216000) (hm : ms ≤ 999)
    (htail : (app = true ∧ tail = [46]) ∨ (app = false ∧ ms = 0 ∧ (tail = [] ∨ tail = [90]))) :
    ∃ s, toStringFmt buf out (readable sep dsep named tail) ⟨t, ms⟩ app true = .ok (true, s) ∧
      fromString flag t0 (s ++ e) s.length = .ok (true, ⟨t, ms⟩) := by
  obtain ⟨h1, h2, h3, h4, h5, h6, h7, _, h9⟩ := gmtime_spec t
  have hy := year_bound t ht
  have hd := dbm_le (gmtime t).year _ h2
  obtain ⟨m, hm1, hm2, hm3⟩ := msec3 buf hb ms hm
  have htl : expand (gmtimeAll t) tail = some tail ∧ tail.length ≤ 1 := by
    rcases htail with ⟨_, rfl⟩ | ⟨_, _, rfl | rfl⟩ <;> exact ⟨rfl, by decide⟩
  have hx := expand_readable (gmtimeAll t) (show (gmtime t).year < 10000 by omega) sep dsep (by rcases hsep with rfl | rfl <;> decide)
    (by rcases hdsep with rfl | rfl <;> decide) named tail htl.1
  have etm : (gmtimeAll t).tm = gmtime t := rfl
  rw [etm] at hx
  generalize htm : (if named = true then (fullMonths.getD (gmtime t).mon []).take 3 else dig2 ((gmtime t).mon + 1)) = tm at hx
  have hmon : monthNames[(gmtime t).mon]? = some tm ∨ Digits 2 1 12 tm ((gmtime t).mon + 1) := by
    subst htm
    cases named with
    | true => exact .inl (short_name _ h2)
    | false => exact .inr (dig2_digits _ _ _ (by omega) (by omega) (by omega))
  have hml : tm.length ≤ 3 := by
    rcases hmon with h | h
    · exact Nat.le_of_eq (names_length _ (List.mem_of_getElem? h))
    · have := h.1; omega
  have key : ∀ tail, ((tail = [] ∧ ms = 0) ∨ (tail = [90] ∧ ms = 0) ∨ (∃ t, (tail = 46 :: t ∨ tail = 46 :: (t ++ [90])) ∧ Digits 3 0 999 t ms)) →
      Shape Digits (dig4 (gmtime t).year ++ [sep] ++ tm ++ [sep] ++ dig2 (gmtime t).mday ++ [dsep] ++ dig2 (gmtime t).hour ++ [58] ++ dig2 (gmtime t).min ++
        [58] ++ dig2 (gmtime t).sec ++ tail) (gmtime t).year (gmtime t).mon (gmtime t).mday (gmtime t).hour (gmtime t).min (gmtime t).sec ms := by
    intro tail htail
    exact Shape.mk (F := Digits) _ _ _ _ _ _ _ _ _ _ _ _ _ _ _ _ ⟨rfl, value_dig4 _ (by omega), h1, hy⟩ hsep hmon
      (dig2_digits _ _ _ (by omega) (by omega) (by omega)) hdsep (dig2_digits _ _ _ (by omega) (by omega) (by omega))
      (dig2_digits _ _ _ (by omega) (by omega) (by omega)) (dig2_digits _ _ _ (by omega) (by omega) (by omega)) htail
  have hlen : ∀ x, (dig2 x).length = 2 := fun _ => rfl
  have hlen4 : ∀ x, (dig4 x).length = 4 := fun _ => rfl
  have run : ∀ a, a = app → toStringFmt buf out (readable sep dsep named tail) ⟨t, ms⟩ a true = .ok (true,
      dig4 (gmtime t).year ++ [sep] ++ tm ++ [sep] ++ dig2 (gmtime t).mday ++ [dsep] ++ dig2 (gmtime t).hour ++ [58] ++ dig2 (gmtime t).min ++
        [58] ++ dig2 (gmtime t).sec ++ (tail ++ if a then m else [])) := by
    intro a ha
    unfold toStringFmt
    simp only [Int.toNat_natCast]
    rw [if_neg (by rw [etm]; omega), hx]
    simp only
    rw [if_neg (by simp only [List.length_append, hlen, hlen4, List.length_cons, List.length_nil]; omega)]
    cases a with
    | true =>
      rw [if_pos rfl, hm1]
      simp [Res.ok_bind, Res.pure_eq]
    | false => simp
  refine ⟨_, run app rfl, ?_⟩
  have hsh := key (tail ++ if app then m else []) (by
    rcases htail with ⟨rfl, rfl⟩ | ⟨rfl, h0, rfl | rfl⟩
    · exact .inr (.inr ⟨m, .inl rfl, hm2, hm3, by omega, hm⟩)
    · exact .inl ⟨rfl, h0⟩
    · exact .inr (.inl ⟨rfl, h0⟩))
  have := accept flag t0 _ e _ _ _ _ _ _ _ (shape_mono _ _ _ _ _ _ _ _ hsh)
  rw [h9] at this
  exact this

/-- C144: the format of `toString` without one is "%Y-%m-%d %H:%M:%S" (with a dot before milliseconds), and gives the text of C34. -/
theorem C144_default (buf out : List UInt8) (t : Nat) (ms : Int) (ht : t < 32535216000) (app : Bool) :
    defaultFmt app = ascii (if app then "%Y-%m-%d %H:%M:%S." else "%Y-%m-%d %H:%M:%S") ∧
    toStringFmt buf out (defaultFmt app) ⟨t, ms⟩ app true = (Verif.Time.toString buf ⟨t, ms⟩ app).bind fun s => .ok (true, s) := by
  refine ⟨by cases app <;> decide +kernel, ?_⟩
  have hy := year_bound t ht
  have etm : (gmtimeAll t).tm = gmtime t := rfl
  have hx := expand_readable (gmtimeAll t) (show (gmtime t).year < 10000 by omega) 45 32 (by decide) (by decide) false (if app then [46] else [])
    (by cases app <;> rfl)
  have ef : readable 45 32 false (if app then [46] else []) = defaultFmt app := by cases app <;> decide +kernel
  rw [ef, etm] at hx
  unfold toStringFmt Verif.Time.toString
  simp only [Int.toNat_natCast]
  rw [if_neg (by rw [etm]; omega), hx]
  simp only
  have hlen : ∀ x, (dig2 x).length = 2 := fun _ => rfl
  have hlen4 : ∀ x, (dig4 x).length = 4 := fun _ => rfl
  rw [if_neg (by cases app <;> simp [hlen, hlen4])]
  cases app with
  | false =>
    simp only [strftime, Bool.false_eq_true, if_false, if_true, List.append_nil, List.nil_append]
    rfl
  | true =>
    simp only [strftime, Bool.false_eq_true, if_false, if_true, List.append_nil, List.nil_append]
    cases Itoa.itoaWithZero buf ms 3 48 <;> rfl

/-- C144: `setCurrentTime` keeps whole milliseconds of the clock: less than a second of them, never later than the clock, less than a
millisecond behind, and a later clock never gives an earlier time. -/
theorem C144_current (sec usec sec' usec' : Nat) (h : usec < 1000000) (h' : usec' < 1000000) :
    0 ≤ (setCurrentTime sec usec).msec ∧ (setCurrentTime sec usec).msec ≤ 999 ∧
    ((setCurrentTime sec usec).time * 1000 + (setCurrentTime sec usec).msec) * 1000 ≤ sec * 1000000 + usec ∧
    sec * 1000000 + usec < ((setCurrentTime sec usec).time * 1000 + (setCurrentTime sec usec).msec + 1) * 1000 ∧
    (sec * 1000000 + usec ≤ sec' * 1000000 + usec' → lt (setCurrentTime sec' usec') (setCurrentTime sec usec) = false) := by
  have e1 : (setCurrentTime sec usec).time = (sec : Int) := rfl
  have e2 : (setCurrentTime sec usec).msec = ((usec / 1000 : Nat) : Int) := rfl
  have e3 : (setCurrentTime sec' usec').time = (sec' : Int) := rfl
  have e4 : (setCurrentTime sec' usec').msec = ((usec' / 1000 : Nat) : Int) := rfl
  refine ⟨by omega, by omega, by omega, by omega, fun hle => ?_⟩
  unfold lt
  rw [e1, e2, e3, e4, Bool.or_eq_false_iff, Bool.and_eq_false_iff, decide_eq_false_iff_not, decide_eq_false_iff_not, decide_eq_false_iff_not]
  by_cases hs : sec' = sec
  · subst hs
    exact ⟨by omega, .inr (by omega)⟩
  · exact ⟨by omega, .inl (by omega)⟩

/-- C144, finding: an empty format is refused as "too long", and so is one that stands for 128 characters; with `doClear` what `out`
held is lost by then. -/
theorem C144_finding_refused (buf out : List UInt8) (t : Nat) (ht : ∀ w, IsDate t w → w.year < 2147485548) (ms : Int) (n : Nat) :
    toStringFmt buf out (List.replicate n 46) ⟨t, ms⟩ false true = .ok (if n = 0 ∨ 128 ≤ n then (false, []) else (true, List.replicate n 46)) := by
  have hx : expand (gmtimeAll t) (List.replicate n 46) = some (List.replicate n 46) := by
    induction n with
    | zero => rfl
    | succ n ih => exact expand_lit _ _ _ _ (by decide) ih
  have hy : (gmtimeAll t).tm.year < 2147485548 := ht _ (isDate_whenOf t)
  unfold toStringFmt
  simp only [Int.toNat_natCast]
  rw [if_neg (by omega), hx]
  simp only [List.length_replicate]
  split <;> simp

/-- C144, finding: 1000 milliseconds (`Time(0, 1000)` is not refused) make four digits, and a text `fromString` refuses. -/
theorem C144_finding_msec : ∃ s, toStringFmt (List.replicate 40 0) [] (readable 45 32 false [46]) ⟨0, 1000⟩ true true = .ok (true, s) ∧
    fromString true ⟨0, 0⟩ s s.length = .ok (false, ⟨0, 0⟩) := by
  refine ⟨ascii "1970-01-01 00:00:00.1000", by decide +kernel, by decide +kernel⟩

/-- "%Y-%b-%d %H:%M:%S." gives "2009-Jan-23 02:53:44.078", the example of the documentation. -/
example : toStringFmt (List.replicate 40 0) [120] (ascii "%Y-%b-%d %H:%M:%S.") ⟨1232679224, 78⟩ true true =
    .ok (true, ascii "2009-Jan-23 02:53:44.078") := by decide +kernel
example : readable 45 32 true [46] = ascii "%Y-%b-%d %H:%M:%S." := by decide +kernel
example : toStringFmt (List.replicate 40 0) [120] (ascii "%A %e %B, day %j, %I%p %% %F %D %u%w") ⟨1232679224, 78⟩ false false =
    .ok (true, ascii "xFriday 23 January, day 023, 02AM % 2009-01-23 01/23/09 55") := by decide +kernel

/-- The hypotheses of the theorems hold: the date of the example, its year, and its format. -/
example : IsDate 1232679224 ⟨2009, 0, 23, 2, 53, 44, 14267, 22⟩ :=
  ⟨by decide, ⟨31, rfl, by decide, by decide⟩, by decide, by decide, by decide, by decide +kernel, by decide +kernel, by decide⟩
example : weekday 14267 = 5 ∧ days[5]? = some "Friday" := ⟨by rw [weekday_eq], rfl⟩
example : Known (ascii "%Y.") := by
  rw [show ascii "%Y." = [37, 89, 46] by decide +kernel]
  exact .dir _ _ (by decide +kernel) (.lit _ _ (by decide) .nil)
example : ∀ w, IsDate 1232679224 w → w.year < 2147485548 := by
  intro w hw
  have h : IsDate 1232679224 ⟨2009, 0, 23, 2, 53, 44, 14267, 22⟩ :=
    ⟨by decide, ⟨31, rfl, by decide, by decide⟩, by decide, by decide, by decide, by decide +kernel, by decide +kernel, by decide⟩
  rw [(C144_date _).2 _ _ hw h]
  decide

#print axioms C144_date
#print axioms C144_toString
#print axioms C144_far_future
#print axioms C144_roundtrip
#print axioms C144_default
#print axioms C144_current
#print axioms C144_finding_refused
#print axioms C144_finding_msec

end Verif.Props.TimeFmt
