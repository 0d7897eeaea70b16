import Verif.Model.Time
import Verif.Spec.Time
import Verif.Proof.Atoi

/-! Lemmas for time.hpp. -/
set_option linter.unusedSimpArgs false
set_option maxRecDepth 8000
namespace Verif.Time

open Verif.Spec.Time Verif.Spec.Numeral Verif.Atoi

/-! ## FILETIME -/

theorem filetime_join (low high : UInt32) : ((high.toUInt64 <<< 32) ||| low.toUInt64).toNat = high.toNat * 2 ^ 32 + low.toNat := by
  have h1 := low.toNat_lt
  have h2 := high.toNat_lt
  have h3 : (high.toUInt64 <<< 32).toNat = high.toNat * 2 ^ 32 := by
    rw [UInt64.toNat_shiftLeft, UInt32.toNat_toUInt64]
    show high.toNat <<< 32 % 2 ^ 64 = _
    rw [Nat.shiftLeft_eq]
    omega
  rw [UInt64.toNat_or, h3, UInt32.toNat_toUInt64, Nat.mul_comm, Nat.two_pow_add_eq_or_of_lt h1]

theorem setByFILETIME_spec (low high : UInt32) (h : 116444736000000000 ≤ high.toNat * 2 ^ 32 + low.toNat) :
    setByFILETIME low high = { time := ((high.toNat * 2 ^ 32 + low.toNat - 116444736000000000) / 10000 / 1000 : Nat),
                               msec := ((high.toNat * 2 ^ 32 + low.toNat - 116444736000000000) / 10000 % 1000 : Nat) } := by
  have h1 := low.toNat_lt
  have h2 := high.toNat_lt
  rw [setByFILETIME]
  have hsub : (((high.toUInt64 <<< 32) ||| low.toUInt64) - epochBias).toNat = high.toNat * 2 ^ 32 + low.toNat - 116444736000000000 := by
    rw [UInt64.toNat_sub_of_le, filetime_join]
    · rfl
    · rw [UInt64.le_iff_toNat_le, filetime_join]
      exact h
  simp only [UInt64.toNat_div, UInt64.toNat_mod, hsub]
  rfl

theorem getFILETIME_spec (t : Time) (h0 : 0 ≤ t.time * 1000) (hm0 : 0 ≤ t.msec) (h : (t.time * 1000 + t.msec) * 10000 < 2 ^ 63) :
    ∃ lo hi, getFILETIME t = .ok (lo, hi) ∧ ((hi.toNat * 2 ^ 32 + lo.toNat : Nat) : Int) = (t.time * 1000 + t.msec) * 10000 + 116444736000000000 := by
  obtain ⟨n, hn⟩ : ∃ n : Nat, (t.time * 1000 + t.msec) * 10000 = n := ⟨((t.time * 1000 + t.msec) * 10000).toNat, by omega⟩
  have hn63 : n < 2 ^ 63 := by omega
  rw [getFILETIME, int64, if_pos (by omega)]
  simp only [Res.ok_bind]
  rw [int64, if_pos (by omega)]
  simp only [Res.ok_bind]
  rw [int64, if_pos (by omega)]
  simp only [Res.ok_bind, Res.pure_eq, hn]
  refine ⟨_, _, rfl, ?_⟩
  have h2 : (UInt64.ofInt (n : Int) + epochBias).toNat = n + 116444736000000000 := by
    have e : UInt64.ofInt (n : Int) = UInt64.ofNat n := by
      apply UInt64.toNat_inj.mp
      rw [UInt64.ofInt, UInt64.toNat_ofNat', UInt64.toNat_ofNat']
      omega
    rw [e, UInt64.toNat_add, UInt64.toNat_ofNat']
    show (n % 2 ^ 64 + 116444736000000000) % 2 ^ 64 = _
    omega
  generalize UInt64.ofInt (n : Int) + epochBias = w at h2
  rw [UInt64.toNat_toUInt32, UInt64.toNat_toUInt32, UInt64.toNat_shiftRight]
  show (((w.toNat >>> 32) % 2 ^ 32 * 2 ^ 32 + w.toNat % 2 ^ 32 : Nat) : Int) = _
  have hw := w.toNat_lt
  rw [Nat.shiftRight_eq_div_pow]
  omega

/-! ## The calendar -/

theorem yearLen_pos (y : Nat) : 0 < yearLen y := by rw [yearLen]; split <;> omega

theorem findYear_spec (fuel : Nat) : ∀ n d, d ≤ fuel → (findYear fuel n d).2 < yearLen (1970 + (findYear fuel n d).1) ∧
    daysBeforeYear (findYear fuel n d).1 + (findYear fuel n d).2 = daysBeforeYear n + d := by
  induction fuel with
  | zero =>
    intro n d h
    have : d = 0 := by omega
    subst this
    exact ⟨yearLen_pos _, rfl⟩
  | succ fuel ih =>
    intro n d h
    have hp := yearLen_pos (1970 + n)
    rw [findYear]
    split
    · rename_i hlt
      exact ⟨hlt, rfl⟩
    · obtain ⟨h1, h2⟩ := ih (n + 1) (d - yearLen (1970 + n)) (by omega)
      refine ⟨h1, ?_⟩
      rw [h2, daysBeforeYear]
      omega

theorem daysBeforeMonth_12 (y : Nat) : daysBeforeMonth y 12 = yearLen y := by
  simp only [daysBeforeMonth, monthLen, yearLen]
  cases isLeap y <;> simp

theorem findMonth_spec (y : Nat) (fuel : Nat) : ∀ m d, m + fuel = 11 → daysBeforeMonth y m + d < yearLen y →
    (findMonth y fuel m d).1 ≤ 11 ∧ (findMonth y fuel m d).2 < monthLen y (findMonth y fuel m d).1 ∧
    daysBeforeMonth y (findMonth y fuel m d).1 + (findMonth y fuel m d).2 = daysBeforeMonth y m + d := by
  induction fuel with
  | zero =>
    intro m d h hd
    have hm : m = 11 := by omega
    subst hm
    refine ⟨Nat.le_refl _, ?_, rfl⟩
    have h12 : yearLen y = daysBeforeMonth y 11 + monthLen y 11 := by rw [← daysBeforeMonth_12 y]; rfl
    rw [findMonth]
    simp only
    omega
  | succ fuel ih =>
    intro m d h hd
    rw [findMonth]
    split
    · rename_i hlt
      exact ⟨by simp only; omega, hlt, rfl⟩
    · obtain ⟨h1, h2, h3⟩ := ih (m + 1) (d - monthLen y m) (by omega) (by rw [daysBeforeMonth]; omega)
      refine ⟨h1, h2, ?_⟩
      rw [h3, daysBeforeMonth]
      omega

/-- `gmtime` gives a date of the calendar, and `timegm` is its inverse. -/
theorem gmtime_spec (t : Nat) : 1970 ≤ (gmtime t).year ∧ (gmtime t).mon ≤ 11 ∧ 1 ≤ (gmtime t).mday ∧
    (gmtime t).mday ≤ monthLen (gmtime t).year (gmtime t).mon ∧ (gmtime t).hour < 24 ∧ (gmtime t).min < 60 ∧ (gmtime t).sec < 60 ∧
    daysBeforeYear ((gmtime t).year - 1970) ≤ t / 86400 ∧
    timegm (gmtime t).year (gmtime t).mon (gmtime t).mday (gmtime t).hour (gmtime t).min (gmtime t).sec = t := by
  obtain ⟨h1, h2⟩ := findYear_spec (t / 86400) 0 (t / 86400) (Nat.le_refl _)
  rw [gmtime]
  generalize findYear (t / 86400) 0 (t / 86400) = yr at h1 h2
  obtain ⟨n, r⟩ := yr
  simp only at h1 h2
  obtain ⟨h3, h4, h5⟩ := findMonth_spec (1970 + n) 11 0 r (by omega) (by simpa [daysBeforeMonth] using h1)
  simp only
  generalize findMonth (1970 + n) 11 0 r = mr at h3 h4 h5
  obtain ⟨m, r2⟩ := mr
  simp only [daysBeforeYear, daysBeforeMonth, Nat.zero_add] at h2 h3 h4 h5 ⊢
  have hn : 1970 + n - 1970 = n := by omega
  refine ⟨by omega, h3, by omega, by omega, by omega, by omega, by omega, by rw [hn]; omega, ?_⟩
  rw [timegm, hn]
  omega

theorem daysBeforeYear_mono {m n : Nat} (h : m ≤ n) : daysBeforeYear m ≤ daysBeforeYear n := by
  induction h with
  | refl => exact Nat.le_refl _
  | step _ ih => rw [daysBeforeYear]; omega

/-- The closed form of the day count. -/
theorem daysBeforeYear_closed (n : Nat) :
    daysBeforeYear n + 477 = 365 * n + ((1969 + n) / 4 - (1969 + n) / 100 + (1969 + n) / 400) := by
  induction n with
  | zero => rfl
  | succ n ih =>
    rw [daysBeforeYear, yearLen, isLeap]
    have e : 1970 + n = 1969 + n + 1 := by omega
    rw [e, show 1969 + (n + 1) = 1969 + n + 1 by omega]
    generalize 1969 + n = y at ih
    by_cases h4 : (y + 1) % 4 = 0 <;> by_cases h100 : (y + 1) % 100 = 0 <;> by_cases h400 : (y + 1) % 400 = 0 <;> simp [h4, h100, h400] <;> omega

/-! ## Fields -/

/-- `getNum` as a function of the characters. -/
def loose? (txt : List UInt8) (lo hi : Int) : Option Int :=
  (parseInt 2147483648 2147483647 (upToNul txt)).bind fun r => if lo ≤ r ∧ r ≤ hi then some r else none

theorem upToNul_length (s : List UInt8) : (upToNul s).length ≤ s.length := by
  rw [upToNul]; exact (List.takeWhile_prefix _).length_le

theorem short_not_min (t : List UInt8) (h : t.length ≤ 9) : ¬ MinThenMore 2147483648 t := by
  rintro ⟨k, d, c, r, rfl, hd⟩
  have hc := canonical_dec (by decide) hd
  have hl : (Itoa.dec 2147483648).length = 10 := by
    simp [Itoa.dec, Itoa.digs]
  rw [hc.1] at h
  simp [hl] at h
  omega

theorem getNum_cat (pre txt post : List UInt8) (lo hi : Int) (h : txt.length ≤ 9) :
    getNum (pre ++ (txt ++ post)) pre.length txt.length lo hi = .ok (loose? txt lo hi) := by
  rw [getNum, List.drop_left]
  have hs := (convertToInt_spec sint32 2147483648 valid32 true (txt ++ post) txt.length (by simp)).2
  rw [List.take_left] at hs
  rw [hs (short_not_min _ (Nat.le_trans (upToNul_length _) h))]
  show (report true (parseInt 2147483648 2147483647 (upToNul txt)) >>= _) = _
  rw [loose?]
  cases parseInt 2147483648 2147483647 (upToNul txt) with
  | none => rfl
  | some r => simp [report]

theorem at_cat (pre : List UInt8) (c : UInt8) (post : List UInt8) : at? (pre ++ c :: post) pre.length = .ok c := by
  rw [at?_eq_ok (by simp)]; simp

theorem field_cat (pre txt post : List UInt8) (c : UInt8) (lo hi : Int) (sep : List UInt8) (h : txt.length = 2) :
    field (pre ++ (txt ++ c :: post)) pre.length lo hi sep = .ok (if c ∈ sep then loose? txt lo hi else none) := by
  have hg := getNum_cat pre txt (c :: post) lo hi (by omega)
  rw [h] at hg
  rw [field, hg]
  simp only [Res.ok_bind]
  have ha : at? (pre ++ (txt ++ c :: post)) (pre.length + 2) = .ok c := by
    rw [← List.append_assoc]
    have := at_cat (pre ++ txt) c post
    rwa [List.length_append, h] at this
  cases loose? txt lo hi with
  | none => simp
  | some r =>
    simp only [ha, Res.ok_bind, Res.pure_eq]

theorem memEq_cat (pre name txt : List UInt8) (h : name.length ≤ txt.length) :
    memEq name ((pre ++ txt).drop pre.length) = .ok (txt.take name.length == name) := by
  rw [List.drop_left, memEq, if_pos h]

theorem findName_cat (pre txt : List UInt8) (h : 3 ≤ txt.length) (names : List (List UInt8)) : ∀ i, (∀ n ∈ names, n.length = 3) →
    findName (pre ++ txt) pre.length i names = .ok ((names.findIdx? fun n => n == txt.take 3).map (· + i)) := by
  induction names with
  | nil => intro i _; rfl
  | cons n names ih =>
    intro i hn
    have hl := hn n (by simp)
    rw [findName, memEq_cat _ _ _ (by omega), List.findIdx?_cons, hl]
    simp only [Res.ok_bind]
    have hc : (txt.take 3 == n) = (n == txt.take 3) := Bool.beq_comm
    rw [hc]
    cases n == txt.take 3 with
    | true => simp
    | false =>
      simp only [Bool.false_eq_true, if_false]
      rw [ih (i + 1) (fun n' h' => hn n' (by simp [h']))]
      congr 1
      cases List.findIdx? (fun n => n == txt.take 3) names with
      | none => rfl
      | some k => simp; omega

/-- Nothing of the text after position 5 is a month name. -/
theorem getMonth_cat (pre txt : List UInt8) (h : 3 ≤ txt.length) :
    getMonth (pre ++ txt) pre.length = .ok
      (match monthNames.findIdx? fun n => n == txt.take 3 with
       | some i => some ((i : Int), pre.length + 3)
       | none => (loose? (txt.take 2) 1 12).map fun n => (n - 1, pre.length + 2)) := by
  rw [getMonth, show monthTbl = monthNames from rfl, findName_cat pre txt h monthNames 0 (by decide)]
  simp only [Res.ok_bind]
  cases monthNames.findIdx? fun n => n == txt.take 3 with
  | some i => simp
  | none =>
    simp only [Option.map_none]
    have hg := getNum_cat pre (txt.take 2) (txt.drop 2) 1 12 (by simp; omega)
    have hl : (txt.take 2).length = 2 := by simp; omega
    rw [List.take_append_drop, hl] at hg
    rw [hg]
    simp only [Res.ok_bind]
    cases loose? (txt.take 2) 1 12 <;> rfl

theorem parseDate_eq (y r : List UInt8) (a : UInt8) (hy : y.length = 4) (hr : 3 ≤ r.length) :
    parseDate (y ++ a :: r) =
      (match loose? y 1970 3000 with
       | none => .ok none
       | some yv =>
         if a ≠ 45 ∧ a ≠ 47 then .ok none
         else
          match (match monthNames.findIdx? fun n => n == r.take 3 with
             | some i => some ((i : Int), 8)
             | none => (loose? (r.take 2) 1 12).map fun n => (n - 1, 7)) with
          | none => .ok none
          | some (mon, p) => do
            let c ← at? (y ++ a :: r) p
            if c ≠ a then return none
            else do
              let d ← field (y ++ a :: r) (p + 1) 1 31 [32, 84]
              match d with
              | none => return none
              | some d => return some (yv, mon, d, p + 4)) := by
  have hg := getNum_cat [] y (a :: r) 1970 3000 (by omega)
  rw [List.nil_append, List.length_nil, hy] at hg
  rw [parseDate, hg]
  simp only [Res.ok_bind]
  cases loose? y 1970 3000 with
  | none => rfl
  | some yv =>
    simp only
    have ha : at? (y ++ a :: r) 4 = .ok a := by have := at_cat y a r; rwa [hy] at this
    rw [ha]
    simp only [Res.ok_bind]
    have hm := getMonth_cat (y ++ [a]) r hr
    rw [List.append_assoc, List.singleton_append, List.length_append, hy] at hm
    simp only [List.length_singleton] at hm
    split
    · rfl
    · rw [hm]
      rfl

/-- Twelve characters at least: separator, day, separator, clock. -/
theorem split12 (r : List UInt8) (h : 12 ≤ r.length) : ∃ c td ds th c1 tm c2 ts tail, r = c :: (td ++ ds :: (th ++ c1 :: (tm ++ c2 :: (ts ++ tail)))) ∧
    td.length = 2 ∧ th.length = 2 ∧ tm.length = 2 ∧ ts.length = 2 := by
  match r, h with
  | c :: d1 :: d2 :: ds :: h1 :: h2 :: c1 :: m1 :: m2 :: c2 :: s1 :: s2 :: tail, _ =>
    exact ⟨c, [d1, d2], ds, [h1, h2], c1, [m1, m2], c2, [s1, s2], tail, rfl, rfl, rfl, rfl, rfl⟩

/-- The part after the month. -/
def after (flag : Bool) (t : Time) (mem : List UInt8) (len : Nat) (yv mon : Int) (a : UInt8) (p : Nat) : Res (Bool × Time) := do
  let d ← (do
    let c ← at? mem p
    if c ≠ a then return none
    else do
      let d ← field mem (p + 1) 1 31 [32, 84]
      match d with
      | none => return none
      | some d => return some (yv, mon, d, p + 4))
  match d with
  | none => err flag t mem
  | some (y, mon, mday, p) => do
    let c ← parseClock mem p
    match c with
    | none => err flag t mem
    | some (h, mi, s, p) => do
      let (m, b) ← parseRest mem len p
      let t : Time := match m with | some m => { t with msec := m } | none => t
      if b then return (true, { t with time := timegm y.toNat mon.toNat mday.toNat h.toNat mi.toNat s.toNat }) else err flag t mem

theorem fromString_eq (flag : Bool) (t : Time) (y r : List UInt8) (a : UInt8) (len : Nat) (hl : 19 ≤ len) (hy : y.length = 4) (hr : 3 ≤ r.length) :
    fromString flag t (y ++ a :: r) len =
      (match loose? y 1970 3000 with
       | none => err flag t (y ++ a :: r)
       | some yv =>
         if a ≠ 45 ∧ a ≠ 47 then err flag t (y ++ a :: r)
         else
          match (match monthNames.findIdx? fun n => n == r.take 3 with
             | some i => some ((i : Int), 8)
             | none => (loose? (r.take 2) 1 12).map fun n => (n - 1, 7)) with
          | none => err flag t (y ++ a :: r)
          | some (mon, p) => after flag t (y ++ a :: r) len yv mon a p) := by
  rw [fromString, if_pos hl, parseDate_eq y r a hy hr]
  cases loose? y 1970 3000 with
  | none => rfl
  | some yv =>
    simp only
    split
    · rfl
    · generalize (match monthNames.findIdx? fun n => n == r.take 3 with
             | some i => some ((i : Int), 8)
             | none => (loose? (r.take 2) 1 12).map fun n => (n - 1, 7)) = mp
      cases mp with
      | none => rfl
      | some q => obtain ⟨mon, p⟩ := q; rfl

/-- The fraction of a second. -/
def rest? (tail : List UInt8) : Option Int × Bool :=
  match tail with
  | [] => (some 0, true)
  | [90] => (some 0, true)
  | [46, a, b, c] => match loose? [a, b, c] 0 999 with | some m => (some m, true) | none => (some 0, false)
  | [46, a, b, c, 90] => match loose? [a, b, c] 0 999 with | some m => (some m, true) | none => (some 0, false)
  | _ => (none, false)

theorem parseRest_eq (pre tail e : List UInt8) : parseRest (pre ++ (tail ++ e)) (pre.length + tail.length) pre.length = .ok (rest? tail) := by
  cases tail with
  | nil => rw [parseRest, if_pos (by simp)]; rfl
  | cons x tail =>
    rw [parseRest, if_neg (by simp), List.cons_append, at_cat]
    simp only [Res.ok_bind, List.length_cons]
    by_cases h1 : pre.length + 1 = pre.length + (tail.length + 1) ∧ x = 90
    · rw [if_pos h1]
      have : tail = [] := List.eq_nil_of_length_eq_zero (by omega)
      rw [this, h1.2]; rfl
    · rw [if_neg h1]
      by_cases h2 : x = 46
      · subst h2
        rw [if_pos rfl]
        by_cases h3 : pre.length + 4 = pre.length + (tail.length + 1)
        · rw [if_pos h3]
          match tail, h3 with
          | [a, b, c], _ =>
            have hg := getNum_cat (pre ++ [46]) [a, b, c] e 0 999 (by simp)
            rw [List.append_assoc, List.singleton_append, List.length_append] at hg
            simp only [List.length_cons, List.length_nil, Nat.zero_add, Nat.reduceAdd] at hg
            rw [hg]
            simp only [Res.ok_bind, rest?]
            cases loose? [a, b, c] 0 999 <;> rfl
          | [], h => simp at h
          | [_], h => simp at h
          | [_, _], h => simp at h
          | _ :: _ :: _ :: _ :: _, h => simp at h
        · rw [if_neg h3]
          by_cases h4 : pre.length + 5 = pre.length + (tail.length + 1)
          · rw [if_pos h4]
            match tail, h4 with
            | [a, b, c, z], _ =>
              have ha := at_cat (pre ++ [46, a, b, c]) z e
              rw [List.append_assoc, List.length_append] at ha
              simp only [List.length_cons, List.length_nil, Nat.zero_add, Nat.reduceAdd, List.cons_append, List.nil_append] at ha ⊢
              rw [ha]
              simp only [Res.ok_bind]
              by_cases hz : z = 90
              · subst hz
                rw [if_pos rfl]
                have hg := getNum_cat (pre ++ [46]) [a, b, c] (90 :: e) 0 999 (by simp)
                rw [List.append_assoc, List.singleton_append, List.length_append] at hg
                simp only [List.length_cons, List.length_nil, Nat.zero_add, Nat.reduceAdd, List.cons_append, List.nil_append] at hg
                rw [hg]
                simp only [Res.ok_bind, rest?]
                cases loose? [a, b, c] 0 999 <;> rfl
              · rw [if_neg hz, rest?]
                · rfl
                · simp
                · simp
                · simp
                · simp [hz]
            | [], h => simp at h
            | [_], h => simp at h
            | [_, _], h => simp at h
            | [_, _, _], h => simp at h
            | _ :: _ :: _ :: _ :: _ :: _, h => simp at h
          · rw [if_neg h4, rest?]
            · rfl
            · simp
            · simp
            · intro a b c h; simp at h; rw [h] at h3; simp at h3
            · intro a b c h; simp at h; rw [h] at h4; simp at h4
      · rw [if_neg h2, rest?]
        · rfl
        · simp
        · intro h; simp at h; rw [h.1, h.2] at h1; simp at h1
        · intro a b c h; simp at h; exact h2 h.1
        · intro a b c h; simp at h; exact h2 h.1

theorem after_eq (flag : Bool) (t : Time) (pre td th tm ts tail e : List UInt8) (c ds c1 c2 a : UInt8) (yv mon : Int)
    (h1 : td.length = 2) (h2 : th.length = 2) (h3 : tm.length = 2) (h4 : ts.length = 2) (mem : List UInt8)
    (hmem : mem = pre ++ (c :: (td ++ ds :: (th ++ c1 :: (tm ++ c2 :: (ts ++ (tail ++ e))))))) :
    after flag t mem (pre.length + 12 + tail.length) yv mon a pre.length =
      if c ≠ a then err flag t mem
      else match (if ds ∈ [32, 84] then loose? td 1 31 else none) with
      | none => err flag t mem
      | some d =>
        match (if c1 ∈ [58] then loose? th 0 23 else none) with
        | none => err flag t mem
        | some h =>
          match (if c2 ∈ [58] then loose? tm 0 59 else none) with
          | none => err flag t mem
          | some mi =>
            match loose? ts 0 59 with
            | none => err flag t mem
            | some s =>
              let t : Time := match (rest? tail).1 with | some m => { t with msec := m } | none => t
              if (rest? tail).2 then .ok (true, { t with time := timegm yv.toNat mon.toNat d.toNat h.toNat mi.toNat s.toNat }) else err flag t mem := by
  have ha : at? mem pre.length = .ok c := by rw [hmem]; exact at_cat _ _ _
  have hd : field mem (pre.length + 1) 1 31 [32, 84] = .ok (if ds ∈ [32, 84] then loose? td 1 31 else none) := by
    have := field_cat (pre ++ [c]) td (th ++ c1 :: (tm ++ c2 :: (ts ++ (tail ++ e)))) ds 1 31 [32, 84] h1
    rw [hmem]
    simpa only [List.length_append, List.length_singleton, List.append_assoc, List.singleton_append] using this
  have hh : field mem (pre.length + 4) 0 23 [58] = .ok (if c1 ∈ [58] then loose? th 0 23 else none) := by
    have := field_cat (pre ++ c :: (td ++ [ds])) th (tm ++ c2 :: (ts ++ (tail ++ e))) c1 0 23 [58] h2
    rw [hmem]
    simpa only [List.length_append, List.length_cons, List.length_nil, h1, List.append_assoc, List.singleton_append, List.cons_append, List.nil_append] using this
  have hm : field mem (pre.length + 7) 0 59 [58] = .ok (if c2 ∈ [58] then loose? tm 0 59 else none) := by
    have := field_cat (pre ++ c :: (td ++ ds :: (th ++ [c1]))) tm (ts ++ (tail ++ e)) c2 0 59 [58] h3
    rw [hmem]
    simpa only [List.length_append, List.length_cons, List.length_nil, h1, h2, List.append_assoc, List.singleton_append, List.cons_append, List.nil_append] using this
  have hs : getNum mem (pre.length + 10) 2 0 59 = .ok (loose? ts 0 59) := by
    have := getNum_cat (pre ++ c :: (td ++ ds :: (th ++ c1 :: (tm ++ [c2])))) ts (tail ++ e) 0 59 (by omega)
    rw [hmem]
    simpa only [List.length_append, List.length_cons, List.length_nil, h1, h2, h3, h4, List.append_assoc, List.singleton_append, List.cons_append, List.nil_append] using this
  have hr : parseRest mem (pre.length + 12 + tail.length) (pre.length + 12) = .ok (rest? tail) := by
    have := parseRest_eq (pre ++ c :: (td ++ ds :: (th ++ c1 :: (tm ++ c2 :: ts)))) tail e
    rw [hmem]
    simpa only [List.length_append, List.length_cons, List.length_nil, h1, h2, h3, h4, List.append_assoc, List.singleton_append, List.cons_append, List.nil_append] using this
  rw [after, ha]
  simp only [Res.ok_bind]
  split
  · rfl
  · rw [hd]
    simp only [Res.ok_bind]
    cases (if ds ∈ [32, 84] then loose? td 1 31 else none) with
    | none => rfl
    | some d =>
      simp only [Res.ok_bind, Res.pure_eq, parseClock, hh]
      cases (if c1 ∈ [58] then loose? th 0 23 else none) with
      | none => rfl
      | some h =>
        simp only [Res.ok_bind, Res.pure_eq, hm]
        cases (if c2 ∈ [58] then loose? tm 0 59 else none) with
        | none => rfl
        | some mi =>
          simp only [Res.ok_bind, Res.pure_eq, hs]
          cases loose? ts 0 59 with
          | none => rfl
          | some s =>
            simp only [Res.ok_bind, Res.pure_eq, hr]

/-! ## Acceptance -/

theorem loose_of {n lo hi : Nat} {txt : List UInt8} {v : Nat} (h : Loose n lo hi txt v) : loose? txt lo hi = some (v : Int) := by
  obtain ⟨_, h2, h3, h4⟩ := h
  rw [loose?, h2]
  simp only [Option.bind_some]
  rw [if_pos (by omega)]

theorem of_loose {n lo hi : Nat} {txt : List UInt8} {v : Int} (hn : txt.length = n) (h : loose? txt lo hi = some v) :
    ∃ w : Nat, v = w ∧ Loose n lo hi txt w := by
  rw [loose?, Option.bind_eq_some_iff] at h
  obtain ⟨r, h1, h2⟩ := h
  split at h2
  · rename_i hr
    injection h2 with h2
    subst h2
    obtain ⟨w, rfl⟩ : ∃ w : Nat, r = w := ⟨r.toNat, by omega⟩
    exact ⟨w, rfl, hn, h1, by omega, by omega⟩
  · cases h2

theorem names_length : ∀ n ∈ monthNames, n.length = 3 := by decide

theorem rest_of {tail : List UInt8} {ms : Nat}
    (h : (tail = [] ∧ ms = 0) ∨ (tail = [90] ∧ ms = 0) ∨ (∃ t, (tail = 46 :: t ∨ tail = 46 :: (t ++ [90])) ∧ Loose 3 0 999 t ms)) :
    rest? tail = (some (ms : Int), true) := by
  rcases h with ⟨rfl, rfl⟩ | ⟨rfl, rfl⟩ | ⟨t, h, hl⟩
  · rfl
  · rfl
  · have hlo := loose_of hl
    have h3 := hl.1
    match t, h3 with
    | [a, b, c], _ =>
      rcases h with rfl | rfl
      · rw [rest?]
        have : loose? [a, b, c] 0 999 = some (ms : Int) := hlo
        rw [this]
      · rw [List.cons_append, List.cons_append, List.cons_append, List.nil_append, rest?]
        have : loose? [a, b, c] 0 999 = some (ms : Int) := hlo
        rw [this]

theorem of_rest {tail : List UInt8} (h : (rest? tail).2 = true) : ∃ ms : Nat, (rest? tail).1 = some (ms : Int) ∧
    ((tail = [] ∧ ms = 0) ∨ (tail = [90] ∧ ms = 0) ∨ (∃ t, (tail = 46 :: t ∨ tail = 46 :: (t ++ [90])) ∧ Loose 3 0 999 t ms)) := by
  rw [rest?.eq_def] at h ⊢
  split at h
  · exact ⟨0, rfl, .inl ⟨rfl, rfl⟩⟩
  · exact ⟨0, rfl, .inr (.inl ⟨rfl, rfl⟩)⟩
  · rename_i a b c
    cases hl : loose? [a, b, c] 0 999 with
    | none => rw [hl] at h; cases h
    | some m =>
      obtain ⟨w, rfl, hw⟩ := of_loose (n := 3) (lo := 0) (hi := 999) rfl hl
      exact ⟨w, rfl, .inr (.inr ⟨[a, b, c], .inl rfl, hw⟩)⟩
  · rename_i a b c
    cases hl : loose? [a, b, c] 0 999 with
    | none => rw [hl] at h; cases h
    | some m =>
      obtain ⟨w, rfl, hw⟩ := of_loose (n := 3) (lo := 0) (hi := 999) rfl hl
      exact ⟨w, rfl, .inr (.inr ⟨[a, b, c], .inr rfl, hw⟩)⟩
  · cases h


theorem names_sep : ∀ n ∈ monthNames, n[2]? ≠ some 45 ∧ n[2]? ≠ some 47 := by decide

theorem findIdx_name (mon : Nat) (tm : List UInt8) (h : monthNames[mon]? = some tm) : (monthNames.findIdx? fun n => n == tm) = some mon := by
  have : ∀ i : Fin 12, (monthNames.findIdx? fun n => n == monthNames[i]) = some i.val := by decide
  obtain ⟨hl, he⟩ := List.getElem?_eq_some_iff.mp h
  have := this ⟨mon, hl⟩
  rw [← he]; exact this

theorem accept (flag : Bool) (t : Time) (s e : List UInt8) (y mon d h m sec ms : Nat) (hs : Shape Loose s y mon d h m sec ms) :
    fromString flag t (s ++ e) s.length = .ok (true, { time := timegm y mon d h m sec, msec := ms }) := by
  cases hs with
  | mk ty tm td th tmi ts tail sep dsep _ _ _ _ _ _ _ hy hsep hmon hd hds hh hm hsec htail =>
    have l1 := hy.1
    have l2 := hd.1
    have l3 := hh.1
    have l4 := hm.1
    have l5 := hsec.1
    have hrest := rest_of htail
    have htext : ty ++ [sep] ++ tm ++ [sep] ++ td ++ [dsep] ++ th ++ [58] ++ tmi ++ [58] ++ ts ++ tail ++ e =
        ty ++ sep :: (tm ++ (sep :: (td ++ dsep :: (th ++ 58 :: (tmi ++ 58 :: (ts ++ (tail ++ e))))))) := by simp
    have hlen : (ty ++ [sep] ++ tm ++ [sep] ++ td ++ [dsep] ++ th ++ [58] ++ tmi ++ [58] ++ ts ++ tail).length = (ty ++ [sep] ++ tm).length + 12 + tail.length := by
      simp only [List.length_append, List.length_cons, List.length_nil, l2, l3, l4, l5]
    have hfin : ∀ p, p = (ty ++ [sep] ++ tm).length → after flag t (ty ++ sep :: (tm ++ (sep :: (td ++ dsep :: (th ++ 58 :: (tmi ++ 58 :: (ts ++ (tail ++ e)))))))) ((ty ++ [sep] ++ tm).length + 12 + tail.length)
        y mon sep p = .ok (true, { time := timegm y mon d h m sec, msec := ms }) := by
      rintro p rfl
      rw [after_eq flag t (ty ++ [sep] ++ tm) td th tmi ts tail e sep dsep 58 58 sep y mon l2 l3 l4 l5 _ (by simp)]
      have e1 : loose? td 1 31 = some (d : Int) := loose_of hd
      have e2 : loose? th 0 23 = some (h : Int) := loose_of hh
      have e3 : loose? tmi 0 59 = some (m : Int) := loose_of hm
      have e4 : loose? ts 0 59 = some (sec : Int) := loose_of hsec
      rw [if_neg (by simp), if_pos (by simpa using hds), if_pos (by simp), if_pos (by simp), e1, e2, e3, e4, hrest]
      simp
    have ey : loose? ty 1970 3000 = some (y : Int) := loose_of hy
    have hsep' : ¬ (sep ≠ 45 ∧ sep ≠ 47) := by
      rintro ⟨h1, h2⟩; rcases hsep with h | h
      · exact h1 h
      · exact h2 h
    rw [htext, hlen]
    have hml : tm.length = 3 ∨ tm.length = 2 := by
      rcases hmon with hmon | hmon
      · exact .inl (names_length _ (List.mem_of_getElem? hmon))
      · exact .inr hmon.1
    rw [fromString_eq flag t ty _ sep _ (by simp only [List.length_append, List.length_singleton]; omega) l1 (by simp only [List.length_append, List.length_cons]; omega), ey]
    simp only
    rw [if_neg hsep']
    rcases hmon with hmon | hmon
    · have l6 := names_length _ (List.mem_of_getElem? hmon)
      rw [List.take_append_of_le_length (by omega), List.take_of_length_le (by omega), findIdx_name mon tm hmon]
      simp only
      exact hfin 8 (by simp [l1, l6])
    · have l6 := hmon.1
      have hno : (monthNames.findIdx? fun n => n == (tm ++ (sep :: (td ++ dsep :: (th ++ 58 :: (tmi ++ 58 :: (ts ++ (tail ++ e))))))).take 3) = none := by
        rw [List.findIdx?_eq_none_iff]
        intro n hn
        rw [beq_eq_false_iff_ne]
        intro he
        have h3 : n[2]? = some sep := by
          rw [he, List.getElem?_take_of_lt (by omega), List.getElem?_append_right (by omega), l6]
          rfl
        have := names_sep n hn
        rcases hsep with rfl | rfl
        · exact this.1 h3
        · exact this.2 h3
      have em : loose? tm 1 12 = some ((mon + 1 : Nat) : Int) := loose_of hmon
      rw [hno]
      simp only
      rw [List.take_append_of_le_length (by omega), List.take_of_length_le (by omega), em]
      simp only [Option.map_some]
      have : ((mon + 1 : Nat) : Int) - 1 = mon := by omega
      rw [this]
      exact hfin 7 (by simp [l1, l6])

/-- What is not accepted ends at the label `ERR`, and reads nothing else. -/
theorem reject (flag : Bool) (t : Time) (s e : List UInt8) (h : ¬ ∃ y mon d h m sec ms, Shape Loose s y mon d h m sec ms)
    (hsafe : s.length = 19 → (s.drop 5).take 3 ∉ monthNames) : ∃ t', fromString flag t (s ++ e) s.length = err flag t' (s ++ e) ∧ t'.time = t.time := by
  by_cases hl : 19 ≤ s.length
  · obtain ⟨ty, sep, r, hs, l1⟩ : ∃ ty sep r, s = ty ++ sep :: r ∧ ty.length = 4 := by
      match s, hl with
      | a :: b :: c :: d :: x :: r, _ => exact ⟨[a, b, c, d], x, r, rfl, rfl⟩
    have lr : r.length + 5 = s.length := by rw [hs]; simp [l1]; omega
    subst hs
    have hmem : ty ++ sep :: r ++ e = ty ++ sep :: (r ++ e) := by simp
    rw [hmem, fromString_eq flag t ty (r ++ e) sep _ hl l1 (by rw [List.length_append]; omega)]
    cases ey : loose? ty 1970 3000 with
    | none => exact ⟨t, rfl, rfl⟩
    | some yv =>
      simp only
      obtain ⟨y, rfl, hy⟩ := of_loose (n := 4) (lo := 1970) (hi := 3000) l1 ey
      by_cases hsep : sep ≠ 45 ∧ sep ≠ 47
      · rw [if_pos hsep]; exact ⟨t, rfl, rfl⟩
      · rw [if_neg hsep]
        have hsep' : sep = 45 ∨ sep = 47 := by
          by_cases h1 : sep = 45
          · exact .inl h1
          · right
            apply Classical.byContradiction
            exact fun h2 => hsep ⟨h1, h2⟩
        rw [List.take_append_of_le_length (by omega : 3 ≤ r.length), List.take_append_of_le_length (by omega : 2 ≤ r.length)]
        have hfin : ∀ (tm r2 : List UInt8) (mon : Nat), r = tm ++ r2 → 12 ≤ r2.length → (monthNames[mon]? = some tm ∨ Loose 2 1 12 tm (mon + 1)) →
            ∃ t', after flag t (ty ++ sep :: (r ++ e)) (ty ++ sep :: r).length y mon sep (ty ++ [sep] ++ tm).length = err flag t' (ty ++ sep :: (r ++ e)) ∧ t'.time = t.time := by
          intro tm r2 mon hr hr2 hmon
          obtain ⟨c, td, ds, th, c1, tmi, c2, ts, tail, rfl, l2, l3, l4, l5⟩ := split12 r2 hr2
          have hlen : (ty ++ sep :: r).length = (ty ++ [sep] ++ tm).length + 12 + tail.length := by
            rw [hr]
            simp only [List.length_append, List.length_cons, List.length_nil, l2, l3, l4, l5]
            omega
          rw [hlen, after_eq flag t (ty ++ [sep] ++ tm) td th tmi ts tail e c ds c1 c2 sep y mon l2 l3 l4 l5 _ (by rw [hr]; simp)]
          by_cases hc : c ≠ sep
          · rw [if_pos hc]; exact ⟨t, rfl, rfl⟩
          · rw [if_neg hc]
            have hc : c = sep := by simpa using hc
            subst hc
            cases e1 : (if ds ∈ [32, 84] then loose? td 1 31 else none) with
            | none => exact ⟨t, rfl, rfl⟩
            | some d =>
              cases e2 : (if c1 ∈ [58] then loose? th 0 23 else none) with
              | none => exact ⟨t, rfl, rfl⟩
              | some hh =>
                cases e3 : (if c2 ∈ [58] then loose? tmi 0 59 else none) with
                | none => exact ⟨t, rfl, rfl⟩
                | some mi =>
                  cases e4 : loose? ts 0 59 with
                  | none => exact ⟨t, rfl, rfl⟩
                  | some sc =>
                    simp only
                    by_cases hb : (rest? tail).2 = true
                    · exfalso
                      split at e1
                      · rename_i hds
                        split at e2
                        · rename_i hc1
                          split at e3
                          · rename_i hc2
                            obtain ⟨d', _, hd⟩ := of_loose (n := 2) (lo := 1) (hi := 31) l2 e1
                            obtain ⟨h', _, hh'⟩ := of_loose (n := 2) (lo := 0) (hi := 23) l3 e2
                            obtain ⟨m', _, hm'⟩ := of_loose (n := 2) (lo := 0) (hi := 59) l4 e3
                            obtain ⟨s', _, hs'⟩ := of_loose (n := 2) (lo := 0) (hi := 59) l5 e4
                            obtain ⟨ms, _, htail⟩ := of_rest hb
                            simp only [List.mem_singleton] at hc1 hc2
                            subst hc1 hc2
                            apply h
                            refine ⟨y, mon, d', h', m', s', ms, ?_⟩
                            have := Shape.mk (F := Loose) ty tm td th tmi ts tail c ds y mon d' h' m' s' ms hy hsep' hmon hd (by simpa using hds) hh' hm' hs' htail
                            rw [hr]
                            simpa using this
                          · cases e3
                        · cases e2
                      · cases e1
                    · rw [if_neg hb]
                      refine ⟨_, rfl, ?_⟩
                      split <;> rfl
        cases ei : monthNames.findIdx? fun n => n == r.take 3 with
        | some i =>
          simp only
          rw [List.findIdx?_eq_some_iff_getElem] at ei
          obtain ⟨hi, he, _⟩ := ei
          have he : monthNames[i] = r.take 3 := by simpa using he
          have hin : r.take 3 ∈ monthNames := by rw [← he]; exact List.getElem_mem hi
          have h20 : (ty ++ sep :: r).length ≠ 19 := by
            intro h19
            apply hsafe h19
            have : (ty ++ sep :: r).drop 5 = r := by
              rw [List.drop_append, List.drop_eq_nil_of_le (by omega), l1]; rfl
            rw [this]; exact hin
          have := hfin (r.take 3) (r.drop 3) i (List.take_append_drop 3 r).symm (by rw [List.length_drop]; omega)
            (.inl (by rw [List.getElem?_eq_getElem hi, he]))
          rw [show (ty ++ [sep] ++ r.take 3).length = 8 by simp [l1]; omega] at this
          exact this
        | none =>
          simp only
          cases em : loose? (r.take 2) 1 12 with
          | none => exact ⟨t, rfl, rfl⟩
          | some v =>
            simp only [Option.map_some]
            obtain ⟨w, rfl, hw⟩ := of_loose (n := 2) (lo := 1) (hi := 12) (by rw [List.length_take]; omega) em
            obtain ⟨mon, rfl⟩ : ∃ mon, w = mon + 1 := ⟨w - 1, by have := hw.2.2.1; omega⟩
            have := hfin (r.take 2) (r.drop 2) mon (List.take_append_drop 2 r).symm (by rw [List.length_drop]; omega) (.inr hw)
            rw [show (ty ++ [sep] ++ r.take 2).length = 7 by simp [l1]; omega] at this
            rw [show ((mon + 1 : Nat) : Int) - 1 = mon by omega]
            exact this
  · exact ⟨t, by rw [fromString, if_neg hl], rfl⟩

/-! ## Round trip -/

theorem value_no_nul (s : List UInt8) (v : Nat) (h : value? 10 s = some v) : ∀ c ∈ s, c ≠ 0 ∧ c ≠ 45 := by
  rw [value_eq_valFrom] at h
  generalize 0 = x at h
  induction s generalizing x with
  | nil => simp
  | cons c s ih =>
    rw [valFrom] at h
    have hd : ∃ d, digit? c = some d := by
      cases hd : digit? c with
      | none => rw [hd] at h; simp at h
      | some d => exact ⟨d, rfl⟩
    obtain ⟨d, hd⟩ := hd
    intro c' hc'
    simp only [List.mem_cons] at hc'
    rcases hc' with rfl | hc'
    · constructor
      · rintro rfl; simp [digit?] at hd
      · rintro rfl; simp [digit?] at hd
    · rw [hd] at h
      simp only at h
      split at h
      · exact ih _ h c' hc'
      · cases h

/-- Proper digits are read as intended. -/
theorem digits_loose (n lo hi : Nat) (txt : List UInt8) (v : Nat) (hn : 0 < n) (hhi : hi ≤ 2147483647) (h : Digits n lo hi txt v) : Loose n lo hi txt v := by
  obtain ⟨h1, h2, h3, h4⟩ := h
  have hno := value_no_nul txt v h2
  refine ⟨h1, ?_, h3, h4⟩
  have hu : upToNul txt = txt := by
    have := upToNul_append (r := []) (fun c hc => (hno c hc).1)
    simpa [upToNul] using this
  have hne : txt ≠ [] := by intro h; rw [h] at h1; simp at h1; omega
  rw [hu, parseInt_nonneg, parseNat, if_neg hne, h2]
  · simp only
    rw [if_pos (by omega)]
    rfl
  · intro hh
    cases txt with
    | nil => exact hne rfl
    | cons c s => simp at hh; exact (hno c (by simp)).2 hh

theorem shape_mono (s : List UInt8) (y mon d h m sec ms : Nat) (hs : Shape Digits s y mon d h m sec ms) : Shape Loose s y mon d h m sec ms := by
  cases hs with
  | mk ty tm td th tmi ts tail sep dsep _ _ _ _ _ _ _ hy hsep hmon hd hds hh hm hsec htail =>
    refine .mk ty tm td th tmi ts tail sep dsep _ _ _ _ _ _ _ (digits_loose _ _ _ _ _ (by omega) (by omega) hy) hsep
      (hmon.imp id (digits_loose _ _ _ _ _ (by omega) (by omega))) (digits_loose _ _ _ _ _ (by omega) (by omega) hd) hds
      (digits_loose _ _ _ _ _ (by omega) (by omega) hh) (digits_loose _ _ _ _ _ (by omega) (by omega) hm)
      (digits_loose _ _ _ _ _ (by omega) (by omega) hsec) ?_
    rcases htail with h | h | ⟨t, h1, h2⟩
    · exact .inl h
    · exact .inr (.inl h)
    · exact .inr (.inr ⟨t, h1, digits_loose _ _ _ _ _ (by omega) (by omega) h2⟩)

theorem value_dig (x : Nat) (v : Nat) (hx : x < 10) : digit? (UInt8.ofNat (48 + x)) = some x := by
  have : ∀ i : Fin 10, digit? (UInt8.ofNat (48 + i.val)) = some i.val := by decide
  exact this ⟨x, hx⟩

theorem value_dig2 (x : Nat) (hx : x < 100) : value? 10 (dig2 x) = some x := by
  rw [value?, dig2]
  simp only [List.foldl_cons, List.foldl_nil, value_dig (x / 10) 0 (by omega), value_dig (x % 10) 0 (by omega)]
  rw [if_pos (by omega)]
  simp only
  rw [if_pos (by omega)]
  congr 1
  omega

theorem value_dig4 (x : Nat) (hx : x < 10000) : value? 10 (dig4 x) = some x := by
  rw [value?, dig4, dig2, dig2]
  simp only [List.cons_append, List.nil_append, List.foldl_cons, List.foldl_nil, value_dig (x / 100 / 10) 0 (by omega), value_dig (x / 100 % 10) 0 (by omega),
    value_dig (x % 100 / 10) 0 (by omega), value_dig (x % 100 % 10) 0 (by omega)]
  rw [if_pos (by omega)]
  simp only
  rw [if_pos (by omega)]
  simp only
  rw [if_pos (by omega)]
  simp only
  rw [if_pos (by omega)]
  congr 1
  omega

theorem dig2_digits (lo hi x : Nat) (h1 : lo ≤ x) (h2 : x ≤ hi) (h3 : hi < 100) : Digits 2 lo hi (dig2 x) x :=
  ⟨rfl, value_dig2 x (by omega), h1, h2⟩

theorem dbm_le (y m : Nat) (h : m ≤ 11) : monthLen y m ≤ 31 := by
  rw [monthLen]
  split
  · split <;> omega
  · split <;> omega

theorem year_bound (t : Nat) (ht : t < 32535216000) : (gmtime t).year ≤ 3000 := by
  obtain ⟨h1, _, _, _, _, _, _, h2, _⟩ := gmtime_spec t
  apply Classical.byContradiction
  intro h
  have hm : daysBeforeYear 1031 ≤ daysBeforeYear ((gmtime t).year - 1970) := daysBeforeYear_mono (by omega)
  have hc := daysBeforeYear_closed 1031
  omega

/-- The text of `toString` has the intended form. -/
theorem toString_shape (buf : List UInt8) (hb : buf.length = 40) (t : Nat) (ms : Nat) (ht : t < 32535216000) (hm : ms ≤ 999) (app : Bool) (happ : app = false → ms = 0) :
    ∃ s, toString buf { time := t, msec := ms } app = .ok s ∧
      Shape Digits s (gmtime t).year (gmtime t).mon (gmtime t).mday (gmtime t).hour (gmtime t).min (gmtime t).sec ms := by
  obtain ⟨h1, h2, h3, h4, h5, h6, h7, _, _⟩ := gmtime_spec t
  have hy := year_bound t ht
  have hd := dbm_le (gmtime t).year _ h2
  have key : ∀ tail, ((tail = [] ∧ ms = 0) ∨ (tail = [90] ∧ ms = 0) ∨ (∃ t, (tail = 46 :: t ∨ tail = 46 :: (t ++ [90])) ∧ Digits 3 0 999 t ms)) →
      Shape Digits (strftime (gmtime t) ++ tail) (gmtime t).year (gmtime t).mon (gmtime t).mday (gmtime t).hour (gmtime t).min (gmtime t).sec ms := by
    intro tail htail
    have := Shape.mk (F := Digits) (dig4 (gmtime t).year) (dig2 ((gmtime t).mon + 1)) (dig2 (gmtime t).mday) (dig2 (gmtime t).hour) (dig2 (gmtime t).min)
      (dig2 (gmtime t).sec) tail 45 32 (gmtime t).year (gmtime t).mon (gmtime t).mday (gmtime t).hour (gmtime t).min (gmtime t).sec ms
      ⟨rfl, value_dig4 _ (by omega), h1, hy⟩ (.inl rfl) (.inr (dig2_digits _ _ _ (by omega) (by omega) (by omega)))
      (dig2_digits _ _ _ (by omega) (by omega) (by omega)) (.inl rfl) (dig2_digits _ _ _ (by omega) (by omega) (by omega))
      (dig2_digits _ _ _ (by omega) (by omega) (by omega)) (dig2_digits _ _ _ (by omega) (by omega) (by omega)) htail
    exact this
  rw [toString]
  simp only [Int.toNat_natCast]
  cases app with
  | false =>
    rw [if_neg (by simp)]
    refine ⟨_, rfl, ?_⟩
    have := key [] (.inl ⟨rfl, happ rfl⟩)
    rwa [List.append_nil] at this
  | true =>
    rw [if_pos rfl, Itoa.itoaWithZero, Itoa.convertFromInt_eq buf hb (ms : Int) (by omega) (by omega)]
    simp only [Res.ok_bind]
    have hdec : Itoa.decInt (ms : Int) = Itoa.dec ms := by
      rw [Itoa.decInt, if_neg (by omega), Int.toNat_natCast]
    rw [hdec]
    have hall : ∀ i : Fin 1000, (Itoa.dec i.val).length ≤ 3 ∧ value? 10 (List.replicate (3 - (Itoa.dec i.val).length) 48 ++ Itoa.dec i.val) = some i.val := by
      intro i
      have hcan : Canonical 10 (Itoa.dec i.val) i.val := Itoa.canonical_digs (by omega) Itoa.isDig_dec i.val
      refine ⟨?_, ?_⟩
      · have hi := i.isLt
        rw [Itoa.dec, Itoa.digs]
        split
        · rw [Itoa.digs]
          split
          · rw [Itoa.digs_lt (by omega)]; simp
          · simp
        · simp
      · rw [value_eq_valFrom, valFrom_zeros 10 _ (by omega), ← value_eq_valFrom]
        exact hcan.2.1
    obtain ⟨hl, hv⟩ := hall ⟨ms, by omega⟩
    simp only at hl hv
    by_cases hlt : (Itoa.dec ms).length < 3
    · rw [if_pos hlt, if_pos (by omega)]
      refine ⟨_, rfl, ?_⟩
      have := key (46 :: (List.replicate (3 - (Itoa.dec ms).length) 48 ++ Itoa.dec ms)) (.inr (.inr ⟨_, .inl rfl, by simp; omega, hv, by omega, hm⟩))
      simpa using this
    · rw [if_neg hlt]
      refine ⟨_, rfl, ?_⟩
      have h3' : 3 - (Itoa.dec ms).length = 0 := by omega
      rw [h3'] at hv
      have := key (46 :: Itoa.dec ms) (.inr (.inr ⟨_, .inl rfl, by omega, by simpa using hv, by omega, hm⟩))
      simpa using this

end Verif.Time
