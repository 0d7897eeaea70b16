import Verif.Model.Atoi
import Verif.Proof.Itoa
import Verif.Proof.Common

set_option linter.unusedSimpArgs false

namespace Verif.Atoi
open Verif.Spec.Numeral

/-- `value?` continued from an accumulator. -/
def valFrom (b : Nat) (x : Nat) : List UInt8 → Option Nat
  | [] => some x
  | c :: s =>
    match digit? c with
    | some d => if d < b then valFrom b (x * b + d) s else none
    | none => none

theorem foldl_none (b : Nat) (s : List UInt8) :
    s.foldl (fun acc c =>
    match acc, digit? c with
    | some v, some d => if d < b then some (v * b + d) else none
    | _, _ => none) none = none := by
  induction s with
  | nil => rfl
  | cons c s ih => simpa using ih

theorem value_eq_valFrom (b : Nat) (s : List UInt8) : value? b s = valFrom b 0 s := by
  simp only [value?]
  generalize 0 = x
  induction s generalizing x with
  | nil => rfl
  | cons c s ih =>
    simp only [List.foldl_cons, valFrom]
    cases h : digit? c with
    | none => simp only; exact foldl_none b s
    | some d =>
      simp only
      split
      · exact ih _
      · exact foldl_none b s

theorem valFrom_ge {b x v : Nat} {s : List UInt8} (hb : 1 ≤ b) (h : valFrom b x s = some v) :
    x ≤ v := by
  induction s generalizing x with
  | nil => simp [valFrom] at h; omega
  | cons c s ih =>
    simp only [valFrom] at h
    cases hd : digit? c with
    | none => simp [hd] at h
    | some d =>
      simp only [hd] at h
      split at h
      · have := ih h
        have : x * 1 ≤ x * b := Nat.mul_le_mul_left _ hb
        omega
      · simp at h

/-- Keep a value only if it is at most `hi`. -/
def cap (hi : Nat) (o : Option Nat) : Option Nat := o.filter (fun v => v ≤ hi)

theorem cap_over {b x hi : Nat} {s : List UInt8} (hb : 1 ≤ b) (h : hi < x) :
    cap hi (valFrom b x s) = none := by
  cases e : valFrom b x s with
  | none => rfl
  | some v =>
    have := valFrom_ge hb e
    simp [cap, Option.filter]; omega

theorem digitOf_eq (c : UInt8) : digitOf c = (c.toNat + 2 ^ 32 - 48) % 2 ^ 32 := by
  have := c.toNat_lt
  simp [digitOf, UInt32.toNat_sub]
  omega

theorem digitOf_dec (c : UInt8) :
    (digitOf c ≤ 9 ∧ digit? c = some (digitOf c) ∧ c.toNat = 48 + digitOf c) ∨
    (digitOf c > 9 ∧ (digit? c = none ∨ ∃ d, digit? c = some d ∧ 10 ≤ d)) := by
  have hc := c.toNat_lt
  by_cases h : 48 ≤ c.toNat ∧ c.toNat ≤ 57
  · left
    have e : digitOf c = c.toNat - 48 := by rw [digitOf_eq]; omega
    refine ⟨by omega, ?_, by omega⟩
    rw [e]
    have : (48 : UInt8) ≤ c ∧ c ≤ 57 := by
      constructor <;> (rw [UInt8.le_iff_toNat_le]; simp; omega)
    simp [digit?, this]
  · right
    refine ⟨by rw [digitOf_eq]; omega, ?_⟩
    have : ¬ ((48 : UInt8) ≤ c ∧ c ≤ 57) := by
      rw [UInt8.le_iff_toNat_le, UInt8.le_iff_toNat_le]; simpa using h
    simp only [digit?, this, if_false]
    split
    · right; refine ⟨_, rfl, ?_⟩
      rename_i h'
      have := UInt8.le_iff_toNat_le.mp h'.1
      simp at this; omega
    · split
      · right; refine ⟨_, rfl, ?_⟩
        rename_i h'
        have := UInt8.le_iff_toNat_le.mp h'.1
        simp at this; omega
      · left; rfl

theorem valFrom_bad {x : Nat} {c : UInt8} {s : List UInt8}
    (h : digit? c = none ∨ ∃ d, digit? c = some d ∧ 10 ≤ d) : valFrom 10 x (c :: s) = none := by
  rcases h with h | ⟨d, h, hd⟩
  · simp [valFrom, h]
  · simp [valFrom, h]; omega

theorem upToNul_cons {c : UInt8} {s : List UInt8} (h : c ≠ 0) :
    upToNul (c :: s) = c :: upToNul s := by simp [upToNul, h]

theorem upToNul_zero {s : List UInt8} : upToNul (0 :: s) = [] := by simp [upToNul]

/-! ### unsigned -/

def UInt.Valid (ty : UInt) : Prop :=
  ty.hi + 1 = ty.overflow1 * 10 + (ty.overflow2.toNat - 48) ∧ 48 < ty.overflow2.toNat ∧
    ty.overflow2.toNat ≤ 57

instance (ty : UInt) : Decidable ty.Valid := by unfold UInt.Valid; infer_instance

theorem scanUint_spec (ty : UInt) (hv : ty.Valid) (x left : Nat) (mem : List UInt8)
    (hl : left ≤ mem.length) (hx : x ≤ ty.hi) :
    scanUint ty x left mem = .ok (cap ty.hi (valFrom 10 x (upToNul (mem.take left)))) := by
  obtain ⟨v1, v2, v3⟩ := hv
  induction mem generalizing x left with
  | nil =>
    have : left = 0 := by simpa using hl
    subst this
    simp [scanUint, upToNul, valFrom, cap, Option.filter, hx]
  | cons c mem ih =>
    cases left with
    | zero => simp [scanUint, upToNul, valFrom, cap, Option.filter, hx]
    | succ left =>
      simp only [scanUint, List.take_succ_cons]
      by_cases hc : c = 0
      · subst hc
        simp [upToNul_zero, valFrom, cap, Option.filter, hx]
      · rw [if_neg hc, upToNul_cons hc]
        rcases digitOf_dec c with ⟨h9, hd, hcn⟩ | ⟨h9, hd⟩
        · by_cases ho : x * 10 + digitOf c ≤ ty.hi
          · have : ¬ (digitOf c > 9 ∨ x > ty.overflow1 ∨
              (x = ty.overflow1 ∧ c ≥ ty.overflow2)) := by
              rw [ge_iff_le, UInt8.le_iff_toNat_le]; omega
            rw [if_neg this, Nat.mod_eq_of_lt (by omega), ih _ _ (by simpa using hl) ho]
            simp only [valFrom, hd]
            rw [if_pos (by omega)]
          · have : (digitOf c > 9 ∨ x > ty.overflow1 ∨
              (x = ty.overflow1 ∧ c ≥ ty.overflow2)) := by
              rw [ge_iff_le, UInt8.le_iff_toNat_le]; omega
            rw [if_pos this]
            simp only [valFrom, hd]
            rw [if_pos (by omega), cap_over (by omega) (by omega)]
        · rw [if_pos (Or.inl h9), valFrom_bad hd]
          rfl

theorem valFrom_zeros (b k : Nat) (hb : 1 ≤ b) (s : List UInt8) :
    valFrom b 0 (List.replicate k 48 ++ s) = valFrom b 0 s := by
  induction k with
  | zero => rfl
  | succ k ih =>
    simp only [List.replicate_succ, List.cons_append, valFrom, Itoa.digit_48]
    rw [if_pos (by omega)]; simpa using ih

theorem upToNul_zeros (k : Nat) (s : List UInt8) :
    upToNul (List.replicate k 48 ++ s) = List.replicate k 48 ++ upToNul s := by
  induction k with
  | zero => rfl
  | succ k ih =>
    simp only [List.replicate_succ, List.cons_append]
    rw [upToNul_cons (by decide), ih]

theorem skipZero_spec (left : Nat) (mem : List UInt8) (hl : left ≤ mem.length) :
    ∃ k left' mem', skipZero left mem = .ok (left', mem') ∧ left' ≤ mem'.length ∧
      mem.take left = List.replicate k 48 ++ mem'.take left' ∧
      (mem'.take left').head? ≠ some 48 := by
  induction mem generalizing left with
  | nil =>
    have : left = 0 := by simpa using hl
    subst this
    exact ⟨0, 0, [], by simp [skipZero], by simp, by simp, by simp⟩
  | cons c mem ih =>
    cases left with
    | zero => exact ⟨0, 0, c :: mem, by simp [skipZero], by simp, by simp, by simp⟩
    | succ left =>
      by_cases hc : c = 48
      · obtain ⟨k, l', m', h1, h2, h3, h4⟩ := ih left (by simpa using hl)
        refine ⟨k + 1, l', m', by simp [skipZero, hc, h1], h2, ?_, h4⟩
        simp [List.replicate_succ, hc, h3]
      · exact ⟨0, left + 1, c :: mem, by simp [skipZero, hc], hl, by simp, by simpa using hc⟩

theorem fail_eq {α : Type} (flag : Bool) (mem : List UInt8) (size : Nat)
    (h : size ≤ mem.length) :
    (fail flag mem size : Res (Option α)) = if flag then .ok none else .throw := by
  simp only [fail]
  split
  · rfl
  · rw [if_pos (by omega)]

/-- How a parse result is reported to the caller. -/
def report {α : Type} (flag : Bool) (o : Option α) : Res (Option α) :=
  match o with
  | some v => .ok (some v)
  | none => if flag then .ok none else .throw

theorem parseNat_eq (b hi : Nat) (s : List UInt8) (h : s ≠ []) :
    parseNat b hi s = cap hi (valFrom b 0 s) := by
  simp only [parseNat, h, if_false, value_eq_valFrom]
  cases valFrom b 0 s <;> simp [cap, Option.filter]

theorem convertToUint_spec (ty : UInt) (hv : ty.Valid) (flag : Bool) (mem : List UInt8)
    (size : Nat) (h : size ≤ mem.length) :
    convertToUint ty flag mem size = report flag (parseNat 10 ty.hi (upToNul (mem.take size))) := by
  simp only [convertToUint]
  by_cases hs : size = 0
  · simp only [hs, if_true]
    rw [fail_eq _ _ _ (by omega)]
    simp [upToNul, parseNat, report]
  · rw [if_neg hs]
    cases mem with
    | nil => simp at h; omega
    | cons c mem =>
      cases size with
      | zero => omega
      | succ n =>
        simp only [at?, List.getElem?_cons_zero, Res.ok_bind, List.take_succ_cons]
        by_cases hc : c = 0
        · subst hc
          rw [if_pos rfl, fail_eq _ _ _ h, upToNul_zero]
          simp [parseNat, report]
        · rw [if_neg hc]
          obtain ⟨k, l', m', h1, h2, h3, h4⟩ := skipZero_spec (n + 1) (c :: mem) h
          simp only [h1, Res.ok_bind]
          rw [scanUint_spec ty hv 0 l' m' h2 (Nat.zero_le _)]
          simp only [Res.ok_bind]
          have e : valFrom 10 0 (upToNul (m'.take l')) =
              valFrom 10 0 (upToNul (c :: mem.take n)) := by
            rw [← List.take_succ_cons, h3, upToNul_zeros, valFrom_zeros _ _ (by omega)]
          rw [parseNat_eq _ _ _ (by rw [upToNul_cons hc]; simp), ← e]
          cases cap ty.hi (valFrom 10 0 (upToNul (List.take l' m'))) with
          | some v => rfl
          | none => simp only [fail_eq _ _ _ h, report]

/-! ### hexadecimal -/

theorem hexDigit_eq (c : UInt8) :
    (∃ d, hexDigit c = some d ∧ digit? c = some d ∧ d < 16) ∨
      (hexDigit c = none ∧ digit? c = none) := by
  have := forall_byte (p := fun c => hexDigit c == digit? c && (digit? c).all (· < 16))
    (by decide +kernel) c
  simp only [Bool.and_eq_true, beq_iff_eq] at this
  rw [this.1]
  cases h : digit? c with
  | none => right; simp
  | some d => left; exact ⟨d, rfl, rfl, by simpa [h] using this.2⟩

theorem scanHex_spec (hi : Nat) (hv : (hi + 1) % 16 = 0) (x left : Nat) (mem : List UInt8)
    (hl : left ≤ mem.length) (hx : x ≤ hi) :
    scanHex hi x left mem = .ok (cap hi (valFrom 16 x (upToNul (mem.take left)))) := by
  induction mem generalizing x left with
  | nil =>
    have : left = 0 := by simpa using hl
    subst this
    simp [scanHex, upToNul, valFrom, cap, Option.filter, hx]
  | cons c mem ih =>
    cases left with
    | zero => simp [scanHex, upToNul, valFrom, cap, Option.filter, hx]
    | succ left =>
      simp only [scanHex, List.take_succ_cons]
      by_cases hc : c = 0
      · subst hc
        simp [upToNul_zero, valFrom, cap, Option.filter, hx]
      · rw [if_neg hc, upToNul_cons hc]
        rcases hexDigit_eq c with ⟨d, h1, h2, h3⟩ | ⟨h1, h2⟩
        · simp only [h1, valFrom, h2, h3, if_true]
          by_cases ho : x > hi / 16
          · rw [if_pos ho, cap_over (by omega) (by omega)]
          · rw [if_neg ho, if_neg (by omega), ih _ _ (by simpa using hl) (by omega)]
        · simp [h1, valFrom, h2, cap]

theorem convertHexToInt_spec (hi : Nat) (hv : (hi + 1) % 16 = 0) (flag : Bool) (mem : List UInt8)
    (size : Nat) (h : size ≤ mem.length) :
    convertHexToInt hi flag mem size = report flag (parseNat 16 hi (upToNul (mem.take size))) := by
  simp only [convertHexToInt]
  by_cases hs : size = 0
  · simp only [hs, if_true]
    rw [fail_eq _ _ _ (by omega)]
    simp [upToNul, parseNat, report]
  · rw [if_neg hs]
    cases mem with
    | nil => simp at h; omega
    | cons c mem =>
      cases size with
      | zero => omega
      | succ n =>
        simp only [at?, List.getElem?_cons_zero, Res.ok_bind, List.take_succ_cons]
        by_cases hc : c = 0
        · subst hc
          rw [if_pos rfl, fail_eq _ _ _ h, upToNul_zero]
          simp [parseNat, report]
        · rw [if_neg hc]
          rw [scanHex_spec hi hv 0 (n + 1) _ h (Nat.zero_le _)]
          simp only [Res.ok_bind, List.take_succ_cons]
          rw [parseNat_eq _ _ _ (by rw [upToNul_cons hc]; simp)]
          cases cap hi (valFrom 16 0 (upToNul (c :: mem.take n))) with
          | some v => rfl
          | none => simp only [fail_eq _ _ _ h, report]

/-! ### uniqueness of canonical decimal numerals -/

theorem valFrom_append {b x : Nat} {s t : List UInt8} :
    valFrom b x (s ++ t) = (valFrom b x s).bind (fun u => valFrom b u t) := by
  induction s generalizing x with
  | nil => rfl
  | cons c s ih =>
    simp only [List.cons_append, valFrom]
    cases digit? c with
    | none => rfl
    | some d => simp only; split
                · exact ih
                · rfl

theorem dec_digit {c : UInt8} {d : Nat} (h : digit? c = some d) (hd : d < 10) :
    c = UInt8.ofNat (48 + d) := by
  rcases digitOf_dec c with ⟨h9, h', hn⟩ | ⟨h9, h' | ⟨e, h', he⟩⟩
  · rw [h] at h'; simp at h'; rw [h', ← hn]; simp
  · rw [h] at h'; simp at h'
  · rw [h] at h'; simp at h'; omega

theorem value_pos {s : List UInt8} {v : Nat} (hs : s ≠ []) (h0 : s.head? ≠ some 48)
    (hv : valFrom 10 0 s = some v) : 0 < v := by
  cases s with
  | nil => exact absurd rfl hs
  | cons c s =>
    simp only [valFrom] at hv
    cases hd : digit? c with
    | none => simp [hd] at hv
    | some d =>
      simp only [hd] at hv
      split at hv
      · have := valFrom_ge (by omega) hv
        rcases Nat.eq_zero_or_pos d with rfl | hp
        · have := dec_digit hd (by omega)
          simp [this] at h0
        · omega
      · simp at hv

theorem canonical_unique (n : Nat) : ∀ (s : List UInt8) (v : Nat), s.length = n →
    s ≠ [] → s.head? ≠ some 48 → valFrom 10 0 s = some v → s = Itoa.dec v := by
  induction n with
  | zero => intro s v hl hs; exact absurd (List.eq_nil_of_length_eq_zero hl) hs
  | succ n ih =>
    intro s v hl hs h0 hv
    have hsplit := (List.dropLast_concat_getLast hs).symm
    generalize hc : s.getLast hs = c at hsplit
    generalize ht : s.dropLast = t at hsplit
    have hvp := value_pos hs h0 hv
    rw [hsplit, valFrom_append] at hv
    cases hu : valFrom 10 0 t with
    | none => simp [hu] at hv
    | some u =>
      simp only [hu, Option.bind_some, valFrom] at hv
      cases hd : digit? c with
      | none => simp [hd] at hv
      | some d =>
        simp only [hd] at hv
        split at hv
        · rename_i hd10
          simp only [Option.some.injEq] at hv
          have hcd := dec_digit hd hd10
          by_cases ht0 : t = []
          · subst ht0
            simp [valFrom] at hu
            subst hu
            rw [hsplit, Itoa.dec, Itoa.digs_lt (by omega)]
            simp [hcd, ← hv, Nat.mod_eq_of_lt hd10]
          · have hth : t.head? ≠ some 48 := by
              rw [hsplit, List.head?_append] at h0
              intro e; rw [e] at h0; simp at h0
            have hup := value_pos ht0 hth hu
            have := ih t u (by rw [hsplit] at hl; simpa using hl) ht0 hth hu
            rw [hsplit, this, Itoa.dec, Itoa.dec, Itoa.digs_ge (x := v) (by omega) (by omega)]
            have e1 : v / 10 = u := by omega
            have e2 : v % 10 = d := by omega
            simp [e1, e2, hcd]
        · simp at hv

/-! ### signed -/

/-- The arguments of `convertToInt` belong to the type with minimum `-W` and maximum `W - 1`. -/
def SInt.Valid (ty : SInt) (W : Nat) : Prop :=
  ty.max = Itoa.dec W ∧ ty.min = -W ∧ ty.overflow1 = (W / 10 : Nat) ∧
    ty.overflow2.toNat = 48 + W % 10 ∧ ty.hi = W - 1 ∧ W % 10 ≠ 0

def sgn (m : Bool) (v : Nat) : Int := if m then -(v : Int) else v

theorem scanInt_spec (ty : SInt) (W : Nat) (hv : ty.Valid W) (m : Bool) (x left : Nat)
    (mem : List UInt8) (hl : left ≤ mem.length) (hx : x ≤ W - 1) :
    scanInt ty m x left mem =
      .ok ((cap (W - 1) (valFrom 10 x (upToNul (mem.take left)))).map (sgn m)) := by
  obtain ⟨-, -, v3, v4, v5, v6⟩ := hv
  induction mem generalizing x left with
  | nil =>
    have : left = 0 := by simpa using hl
    subst this
    simp [scanInt, upToNul, valFrom, cap, Option.filter, hx, sgn]
  | cons c mem ih =>
    cases left with
    | zero => simp [scanInt, upToNul, valFrom, cap, Option.filter, hx, sgn]
    | succ left =>
      simp only [scanInt, List.take_succ_cons]
      by_cases hc : c = 0
      · subst hc
        simp [upToNul_zero, valFrom, cap, Option.filter, hx, sgn]
      · rw [if_neg hc, upToNul_cons hc]
        rcases digitOf_dec c with ⟨h9, hd, hcn⟩ | ⟨h9, hd⟩
        · by_cases ho : x * 10 + digitOf c ≤ W - 1
          · have : ¬ (digitOf c > 9 ∨ (x : Int) > ty.overflow1 ∨
              ((x : Int) = ty.overflow1 ∧ c ≥ ty.overflow2)) := by
              rw [ge_iff_le, UInt8.le_iff_toNat_le, v3, v4]; omega
            rw [if_neg this, if_neg (by rw [v5]; omega)]
            have := ih (x * 10 + digitOf c) left (by simpa using hl) ho
            rw [Int.natCast_add, Int.natCast_mul, show ((10 : Nat) : Int) = 10 from rfl] at this
            rw [this]
            simp only [valFrom, hd]
            rw [if_pos (by omega)]
          · have : (digitOf c > 9 ∨ (x : Int) > ty.overflow1 ∨
              ((x : Int) = ty.overflow1 ∧ c ≥ ty.overflow2)) := by
              rw [ge_iff_le, UInt8.le_iff_toNat_le, v3, v4]; omega
            rw [if_pos this]
            simp only [valFrom, hd]
            rw [if_pos (by omega), cap_over (by omega) (by omega)]
            rfl
        · rw [if_pos (Or.inl h9), valFrom_bad hd]
          rfl

theorem zeros_prefix {k k' : Nat} {s s' : List UInt8} (h : s.head? ≠ some 48)
    (h' : s'.head? ≠ some 48) (e : List.replicate k 48 ++ s = List.replicate k' 48 ++ s') :
    s = s' := by
  induction k generalizing k' with
  | zero =>
    cases k' with
    | zero => simpa using e
    | succ k' =>
      simp only [List.replicate_zero, List.nil_append, List.replicate_succ, List.cons_append] at e
      rw [e] at h; simp at h
  | succ k ih =>
    cases k' with
    | zero =>
      simp only [List.replicate_zero, List.nil_append, List.replicate_succ, List.cons_append] at e
      rw [← e] at h'; simp at h'
    | succ k' =>
      simp only [List.replicate_succ, List.cons_append, List.cons.injEq, true_and] at e
      exact ih e

theorem canonical_dec {d : List UInt8} {W : Nat} (hW : W ≠ 0) (h : Canonical 10 d W) :
    d = Itoa.dec W ∧ d.head? ≠ some 48 := by
  obtain ⟨h1, h2, h3⟩ := h
  rw [value_eq_valFrom] at h2
  have h4 : d.head? ≠ some 48 := by
    intro e
    have := h3 e
    match d, e, this with
    | [c], e, _ =>
      simp at e; subst e
      simp [valFrom, Itoa.digit_48] at h2
      omega
  exact ⟨canonical_unique _ d W rfl h1 h4 h2, h4⟩

theorem digs_noNul {b x : Nat} (hb : 2 ≤ b) (dig : Nat → UInt8) (hd : Itoa.IsDig b dig) :
    ∀ c ∈ Itoa.digs b dig x, c ≠ 0 := by
  induction x using Nat.strongRecOn with
  | ind x ih =>
    have h0 : ∀ y, dig y ≠ 0 := by
      intro y e
      have := hd y
      rw [e] at this
      simp [digit?] at this
    by_cases h : x < b
    · rw [Itoa.digs_lt h]; simpa using h0 x
    · rw [Itoa.digs_ge hb (by omega)]
      intro c hc
      rcases List.mem_append.mp hc with hc | hc
      · exact ih _ (Nat.div_lt_self (by omega) (by omega)) c hc
      · simp at hc; rw [hc]; exact h0 x

theorem upToNul_append {d r : List UInt8} (h : ∀ c ∈ d, c ≠ 0) :
    upToNul (d ++ r) = d ++ upToNul r := by
  induction d with
  | nil => rfl
  | cons c d ih =>
    rw [List.cons_append, upToNul_cons (h c (by simp)), ih (fun c hc => h c (by simp [hc]))]
    rfl

theorem valFrom_dec (W : Nat) : valFrom 10 0 (Itoa.dec W) = some W := by
  rw [← value_eq_valFrom]; exact Itoa.value_digs (by omega) Itoa.isDig_dec W

theorem cap_ne {W : Nat} {o : Option Nat} (h : o ≠ some W) : cap (W - 1) o = cap W o := by
  cases o with
  | none => rfl
  | some v =>
    have : v ≠ W := by simpa using h
    simp only [cap, Option.filter]
    by_cases h' : v ≤ W
    · rw [if_pos (by simp; omega), if_pos (by simpa using h')]
    · rw [if_neg (by simp; omega), if_neg (by simpa using h')]

theorem not_minThenMore {W : Nat} {t : List UInt8} (h : t.head? ≠ some 45) :
    ¬ MinThenMore W t := by
  rintro ⟨k, d, c, r, rfl, _⟩
  simp at h

theorem parseInt_nonneg {lo hi : Nat} {t : List UInt8} (h : t.head? ≠ some 45) :
    parseInt lo hi t = (parseNat 10 hi t).map (fun v : Nat => (v : Int)) := by
  unfold parseInt
  split
  · simp at h
  · rfl

/-- Values a run of `convertToInt` reports. -/
theorem convertToInt_nonneg (ty : SInt) (W : Nat) (hv : ty.Valid W) (flag : Bool) (c : UInt8)
    (mem : List UInt8) (n : Nat) (h : n ≤ mem.length) (hc : c ≠ 0) (hm : c ≠ 45) :
    convertToInt ty flag (c :: mem) (n + 1) =
      report flag (parseInt W (W - 1) (upToNul ((c :: mem).take (n + 1)))) := by
  have hb : (c == 45) = false := by simpa using hm
  have hz : (c != 0) = true := by simpa using hc
  simp only [convertToInt, at?, List.getElem?_cons_zero, Res.ok_bind, hc, hb, hz, if_false,
    Nat.add_one_ne_zero, Bool.false_eq_true, Nat.zero_lt_succ, if_true, Res.pure_eq, false_and,
    Nat.sub_zero, List.drop_zero]
  obtain ⟨k, l', m', h1, h2, h3, h4⟩ := skipZero_spec (n + 1) (c :: mem) (by simpa using h)
  simp only [h1, Res.ok_bind]
  have := scanInt_spec ty W hv false 0 l' m' h2 (Nat.zero_le _)
  simp only [Int.natCast_zero] at this
  rw [this]
  simp only [Res.ok_bind]
  have ht : upToNul ((c :: mem).take (n + 1)) = c :: upToNul (mem.take n) := by
    rw [List.take_succ_cons, upToNul_cons hc]
  rw [parseInt_nonneg (by rw [ht]; simpa using hm), parseNat_eq _ _ _ (by rw [ht]; simp)]
  rw [h3, upToNul_zeros, valFrom_zeros _ _ (by omega)]
  cases cap (W - 1) (valFrom 10 0 (upToNul (List.take l' m'))) with
  | some v => simp [report, sgn]
  | none => simp [report, fail_eq _ _ _ (show n + 1 ≤ (c :: mem).length by simpa using h)]

theorem convertToInt_neg (ty : SInt) (W : Nat) (hv : ty.Valid W) (flag : Bool)
    (mem : List UInt8) (n : Nat) (h : n ≤ mem.length) :
    (MinThenMore W (upToNul ((45 :: mem).take (n + 1))) →
      convertToInt ty flag (45 :: mem) (n + 1) = .ok (some ty.min)) ∧
    (¬ MinThenMore W (upToNul ((45 :: mem).take (n + 1))) →
      convertToInt ty flag (45 :: mem) (n + 1) =
        report flag (parseInt W (W - 1) (upToNul ((45 :: mem).take (n + 1))))) := by
  have hW : W ≠ 0 := by intro h; have := hv.2.2.2.2.2; simp [h] at this
  have ht : upToNul ((45 :: mem).take (n + 1)) = 45 :: upToNul (mem.take n) := by
    rw [List.take_succ_cons, upToNul_cons (by decide)]
  have hfail := fail_eq (α := Int) flag (45 :: mem) (n + 1) (by simpa using h)
  simp only [ht]
  have hpi : parseInt W (W - 1) (45 :: upToNul (mem.take n)) =
      (parseNat 10 W (upToNul (mem.take n))).map (fun v : Nat => -(v : Int)) := rfl
  rw [hpi]
  have hdecne : Itoa.dec W ≠ [] := Itoa.digs_ne_nil
  simp only [convertToInt, at?, List.getElem?_cons_zero, Res.ok_bind, beq_self_eq_true, if_true,
    Nat.add_one_ne_zero, if_false, show ((45 : UInt8) = 0) = False by simp]
  cases n with
  | zero =>
    simp only [List.take_zero]
    simp only [upToNul, List.takeWhile_nil, parseNat, Nat.zero_add, Nat.lt_irrefl, if_false,
      Res.ok_bind, Res.pure_eq, Bool.false_eq_true] at hfail ⊢
    refine ⟨?_, fun _ => by rw [hfail]; simp [report]⟩
    rintro ⟨k, d, c, r, e, _⟩
    simp at e
  | succ n =>
    cases mem with
    | nil => simp at h
    | cons c mem =>
      simp only [Nat.lt_add_left_iff_pos, Nat.zero_lt_succ, if_true, List.getElem?_cons_succ,
        List.getElem?_cons_zero, Res.ok_bind, Res.pure_eq, List.take_succ_cons, Nat.add_sub_cancel,
        List.drop_succ_cons, List.drop_zero]
      by_cases hc : c = 0
      · subst hc
        simp only [upToNul_zero, parseNat]
        rw [if_neg (by simp), hfail]
        refine ⟨?_, fun _ => by simp [report]⟩
        rintro ⟨k, d, c, r, e, _⟩
        simp at e
      · have hz : (c != 0) = true := by simpa using hc
        simp only [hz, if_true]
        obtain ⟨k, l', m', h1, h2, h3, h4⟩ := skipZero_spec (n + 1) (c :: mem) (by simpa using h)
        rw [List.take_succ_cons] at h3
        simp only [h1, Res.ok_bind, h3, upToNul_zeros]
        generalize hs : upToNul (m'.take l') = s
        have hs48 : s.head? ≠ some 48 := by
          intro e
          rw [← hs] at e
          apply h4
          cases hm : m'.take l' with
          | nil => rw [hm] at e; simp [upToNul] at e
          | cons c' m'' =>
            rw [hm] at e
            by_cases h0 : c' = 0
            · rw [h0, upToNul_zero] at e; simp at e
            · rw [upToNul_cons h0] at e; simpa using e
        have hne : List.replicate k 48 ++ s ≠ [] := by
          rw [← hs, ← upToNul_zeros, ← h3, upToNul_cons hc]; simp
        rw [parseNat_eq _ _ _ hne, valFrom_zeros _ _ (by omega)]
        -- the minimum test
        have hpre : s <+: m'.take l' := by
          rw [← hs]; exact List.takeWhile_prefix _
        have hmin : (∃ r, s = Itoa.dec W ++ r) ↔
            (l' ≥ ty.max.length ∧ m'.take ty.max.length = ty.max) := by
          rw [hv.1]
          constructor
          · rintro ⟨r, e⟩
            have hp : Itoa.dec W <+: m'.take l' :=
              List.IsPrefix.trans (by rw [e]; exact List.prefix_append _ _) hpre
            have hl := hp.length_le
            rw [List.length_take] at hl
            refine ⟨by omega, ?_⟩
            have := List.prefix_iff_eq_take.mp hp
            rw [List.take_take] at this
            rw [show min (Itoa.dec W).length l' = (Itoa.dec W).length by omega] at this
            exact this.symm
          · rintro ⟨hl, e⟩
            have hp : m'.take l' = Itoa.dec W ++ (m'.take l').drop (Itoa.dec W).length := by
              have := (List.take_append_drop (Itoa.dec W).length (m'.take l')).symm
              rw [List.take_take, show min (Itoa.dec W).length l' = (Itoa.dec W).length by omega,
                e] at this
              exact this
            rw [← hs, hp, upToNul_append (d := Itoa.dec W)
              (digs_noNul (by omega) _ Itoa.isDig_dec)]
            exact ⟨_, rfl⟩
        have hmem : l' ≥ ty.max.length → memEq ty.max m' = .ok (m'.take ty.max.length == ty.max) :=
          fun hl => by simp only [memEq]; rw [if_pos (by omega)]
        have hmore : MinThenMore W (45 :: (List.replicate k 48 ++ s)) ↔
            ∃ c r, s = Itoa.dec W ++ c :: r := by
          constructor
          · rintro ⟨k', d, c', r, e, hd⟩
            obtain ⟨e1, e2⟩ := canonical_dec hW hd
            simp only [List.cons.injEq, true_and, List.append_assoc] at e
            refine ⟨c', r, ?_⟩
            rw [← e1]
            refine zeros_prefix hs48 ?_ e
            rw [List.head?_append]
            cases hd' : d.head? with
            | none => rw [List.head?_eq_none_iff] at hd'; rw [← e1] at hdecne; exact absurd hd' hdecne
            | some c => rw [hd'] at e2; simpa using e2
          · rintro ⟨c', r, e⟩
            exact ⟨k, Itoa.dec W, c', r, by rw [e]; simp,
              Itoa.canonical_digs (by omega) Itoa.isDig_dec W⟩
        by_cases hmn : l' ≥ ty.max.length ∧ m'.take ty.max.length = ty.max
        · have hcond : (l' ≥ ty.max.length) := hmn.1
          simp only [true_and, hcond, if_true, hmem hcond, Res.ok_bind, hmn.2, beq_self_eq_true,
            true_implies]
          refine ⟨fun _ => trivial, fun hnm => ?_⟩
          obtain ⟨r, e⟩ := hmin.mpr hmn
          cases r with
          | cons c' r => exact absurd (hmore.mpr ⟨c', r, e⟩) hnm
          | nil =>
            rw [e, List.append_nil, valFrom_dec]
            simp [cap, Option.filter, report, hv.2.1]
        · have hnm : ¬ MinThenMore W (45 :: (List.replicate k 48 ++ s)) := by
            rw [hmore]; rintro ⟨c', r, e⟩
            exact hmn (hmin.mp ⟨_, e⟩)
          refine ⟨fun h => absurd h hnm, fun _ => ?_⟩
          have := scanInt_spec ty W hv true 0 l' m' h2 (Nat.zero_le _)
          simp only [Int.natCast_zero, hs] at this
          have hneW : valFrom 10 0 s ≠ some W := by
            intro e
            by_cases hs0 : s = []
            · rw [hs0] at e; simp [valFrom] at e; omega
            · have := canonical_unique _ s W rfl hs0 hs48 e
              exact hmn (hmin.mp ⟨[], by simpa using this⟩)
          rw [cap_ne hneW] at this
          by_cases hl : l' ≥ ty.max.length
          · have hne' : (m'.take ty.max.length == ty.max) = false := by
              simpa using fun e => hmn ⟨hl, e⟩
            simp only [true_and, hl, if_true, hmem hl, Res.ok_bind, hne', Bool.false_eq_true,
              if_false, this]
            cases cap W (valFrom 10 0 s) with
            | some v => simp [report, sgn]
            | none => simp [report, hfail]
          · simp only [true_and, hl, Res.ok_bind, Bool.false_eq_true, if_false, this]
            cases cap W (valFrom 10 0 s) with
            | some v => simp [report, sgn]
            | none => simp [report, hfail]

theorem convertToInt_empty (ty : SInt) (flag : Bool) (mem : List UInt8) (size : Nat)
    (h : size ≤ mem.length) (he : upToNul (mem.take size) = []) :
    convertToInt ty flag mem size = report flag none := by
  have hf := fail_eq (α := Int) flag mem size h
  simp only [convertToInt]
  by_cases hs : size = 0
  · rw [if_pos hs, hf]; rfl
  · rw [if_neg hs]
    cases mem with
    | nil => simp at h; omega
    | cons c mem =>
      cases size with
      | zero => omega
      | succ n =>
        have hc : c = 0 := by
          apply Classical.byContradiction
          intro hc
          rw [List.take_succ_cons, upToNul_cons hc] at he
          simp at he
        simp only [at?, List.getElem?_cons_zero, Res.ok_bind, hc, if_true]
        rw [hc] at hf
        rw [hf]; rfl

/-- Complete description of `convertToInt` on a readable range. -/
theorem convertToInt_spec (ty : SInt) (W : Nat) (hv : ty.Valid W) (flag : Bool) (mem : List UInt8)
    (size : Nat) (h : size ≤ mem.length) :
    (MinThenMore W (upToNul (mem.take size)) →
      convertToInt ty flag mem size = .ok (some ty.min)) ∧
    (¬ MinThenMore W (upToNul (mem.take size)) →
      convertToInt ty flag mem size =
        report flag (parseInt W (W - 1) (upToNul (mem.take size)))) := by
  cases he : upToNul (mem.take size) with
  | nil =>
    rw [convertToInt_empty ty flag mem size h he]
    exact ⟨fun ⟨_, _, _, _, e, _⟩ => by simp at e, fun _ => by simp [parseInt, parseNat]⟩
  | cons c t =>
    cases mem with
    | nil => simp [upToNul] at he
    | cons c' mem =>
      cases size with
      | zero => simp [upToNul] at he
      | succ n =>
        have hc : c' ≠ 0 := by
          intro hc; rw [List.take_succ_cons, hc, upToNul_zero] at he; simp at he
        have hcc : c' = c := by
          rw [List.take_succ_cons, upToNul_cons hc] at he; simp at he; exact he.1
        rw [← he]
        by_cases hm : c' = 45
        · subst hm
          exact convertToInt_neg ty W hv flag mem n (by simpa using h)
        · have hh : (upToNul ((c' :: mem).take (n + 1))).head? ≠ some 45 := by
            rw [List.take_succ_cons, upToNul_cons hc]; simpa using hm
          exact ⟨fun h' => absurd h' (not_minThenMore hh), fun _ =>
            convertToInt_nonneg ty W hv flag c' mem n (by simpa using h) hc hm⟩

theorem dec_eq {W : Nat} {d : List UInt8} (hW : W ≠ 0) (h : value? 10 d = some W)
    (h1 : d ≠ []) (h2 : d.head? ≠ some 48) : d = Itoa.dec W :=
  (canonical_dec hW ⟨h1, h, fun h => absurd h h2⟩).1

theorem valid8 : sint8.Valid 128 :=
  ⟨dec_eq (by decide) (by decide +kernel) (by decide +kernel) (by decide +kernel), by decide, by decide, by decide, by decide, by decide⟩
theorem valid16 : sint16.Valid 32768 :=
  ⟨dec_eq (by decide) (by decide +kernel) (by decide +kernel) (by decide +kernel), by decide, by decide, by decide, by decide, by decide⟩
theorem valid32 : sint32.Valid 2147483648 :=
  ⟨dec_eq (by decide) (by decide +kernel) (by decide +kernel) (by decide +kernel), by decide, by decide, by decide, by decide, by decide⟩
theorem valid64 : sint64.Valid 9223372036854775808 :=
  ⟨dec_eq (by decide) (by decide +kernel) (by decide +kernel) (by decide +kernel), by decide, by decide, by decide, by decide, by decide⟩

theorem uvalid8 : uint8.Valid := by decide
theorem uvalid16 : uint16.Valid := by decide
theorem uvalid32 : uint32.Valid := by decide
theorem uvalid64 : uint64.Valid := by decide

/-! ### NUL-terminated texts with a size beyond the terminator -/

theorem scanUint_left (ty : UInt) (s e : List UInt8) (x l1 l2 : Nat) (h1 : s.length < l1) (h2 : s.length < l2) :
    scanUint ty x l1 (s ++ 0 :: e) = scanUint ty x l2 (s ++ 0 :: e) := by
  induction s generalizing x l1 l2 with
  | nil =>
    obtain ⟨a, rfl⟩ := Nat.exists_eq_succ_of_ne_zero (show l1 ≠ 0 by simp at h1; omega)
    obtain ⟨b, rfl⟩ := Nat.exists_eq_succ_of_ne_zero (show l2 ≠ 0 by simp at h2; omega)
    simp [scanUint]
  | cons c s ih =>
    obtain ⟨a, rfl⟩ := Nat.exists_eq_succ_of_ne_zero (show l1 ≠ 0 by omega)
    obtain ⟨b, rfl⟩ := Nat.exists_eq_succ_of_ne_zero (show l2 ≠ 0 by omega)
    simp only [List.length_cons] at h1 h2
    simp only [List.cons_append, scanUint]
    split
    · rfl
    · split
      · rfl
      · exact ih _ a b (by omega) (by omega)

theorem scanHex_left (hi : Nat) (s e : List UInt8) (x l1 l2 : Nat) (h1 : s.length < l1) (h2 : s.length < l2) :
    scanHex hi x l1 (s ++ 0 :: e) = scanHex hi x l2 (s ++ 0 :: e) := by
  induction s generalizing x l1 l2 with
  | nil =>
    obtain ⟨a, rfl⟩ := Nat.exists_eq_succ_of_ne_zero (show l1 ≠ 0 by simp at h1; omega)
    obtain ⟨b, rfl⟩ := Nat.exists_eq_succ_of_ne_zero (show l2 ≠ 0 by simp at h2; omega)
    simp [scanHex]
  | cons c s ih =>
    obtain ⟨a, rfl⟩ := Nat.exists_eq_succ_of_ne_zero (show l1 ≠ 0 by omega)
    obtain ⟨b, rfl⟩ := Nat.exists_eq_succ_of_ne_zero (show l2 ≠ 0 by omega)
    simp only [List.length_cons] at h1 h2
    simp only [List.cons_append, scanHex]
    split
    · rfl
    · cases hexDigit c with
      | none => rfl
      | some d =>
        simp only
        split
        · rfl
        · split
          · rfl
          · exact ih _ a b (by omega) (by omega)

theorem skipZero_left (s e : List UInt8) (l : Nat) (h : s.length < l) :
    ∃ k, k ≤ s.length ∧ skipZero l (s ++ 0 :: e) = .ok (l - k, s.drop k ++ 0 :: e) ∧
      ∀ l2, s.length < l2 → skipZero l2 (s ++ 0 :: e) = .ok (l2 - k, s.drop k ++ 0 :: e) := by
  have key : ∃ k, k ≤ s.length ∧ ∀ l2, s.length < l2 → skipZero l2 (s ++ 0 :: e) = .ok (l2 - k, s.drop k ++ 0 :: e) := by
    clear h
    induction s with
    | nil =>
      refine ⟨0, Nat.le_refl _, fun l2 h2 => ?_⟩
      obtain ⟨b, rfl⟩ := Nat.exists_eq_succ_of_ne_zero (show l2 ≠ 0 by simp at h2; omega)
      simp [skipZero]
    | cons c s ih =>
      by_cases hc : c = 48
      · obtain ⟨k, hk, h⟩ := ih
        refine ⟨k + 1, by simpa using hk, fun l2 h2 => ?_⟩
        simp only [List.length_cons] at h2
        obtain ⟨b, rfl⟩ := Nat.exists_eq_succ_of_ne_zero (show l2 ≠ 0 by omega)
        rw [List.cons_append, skipZero, if_pos hc, h b (by omega), List.drop_succ_cons, Nat.succ_sub_succ]
      · refine ⟨0, Nat.zero_le _, fun l2 h2 => ?_⟩
        simp only [List.length_cons] at h2
        obtain ⟨b, rfl⟩ := Nat.exists_eq_succ_of_ne_zero (show l2 ≠ 0 by omega)
        rw [List.cons_append, skipZero, if_neg hc]
        rfl
  obtain ⟨k, hk, h'⟩ := key
  exact ⟨k, hk, h' l h, h'⟩

/-- What the caller of the form without a size learns: the exception reads 16 bytes. -/
def reportC {α : Type} (flag : Bool) (avail : Nat) (o : Option α) : Res (Option α) :=
  match o with
  | some v => .ok (some v)
  | none => if flag then .ok none else if 16 ≤ avail then .throw else .ub

theorem upToNul_text {s : List UInt8} (hs : 0 ∉ s) (e : List UInt8) : upToNul ((s ++ 0 :: e).take (s.length + 1)) = s := by
  have : (s ++ 0 :: e).take (s.length + 1) = s ++ [0] := by
    rw [show s ++ 0 :: e = (s ++ [0]) ++ e by simp, List.take_left' (by simp)]
  rw [this]
  clear this
  induction s with
  | nil => exact upToNul_zero
  | cons c s ih =>
    simp only [List.mem_cons, not_or] at hs
    rw [List.cons_append, upToNul_cons (fun h => hs.1 h.symm), ih hs.2]

theorem convertToUint_cstr (ty : UInt) (hv : ty.Valid) (flag : Bool) (s e : List UInt8) (hs : 0 ∉ s) (size : Nat) (h : s.length < size) (h16 : 16 ≤ size) :
    convertToUint ty flag (s ++ 0 :: e) size = reportC flag (s.length + 1 + e.length) (parseNat 10 ty.hi s) := by
  have href := convertToUint_spec ty hv true (s ++ 0 :: e) (s.length + 1) (by simp)
  rw [upToNul_text hs] at href
  have hfail : ∀ f : Bool, (fail f (s ++ 0 :: e) size : Res (Option Nat)) = reportC f (s.length + 1 + e.length) none := by
    intro f
    rw [fail, reportC, Nat.min_eq_right h16]
    simp only [List.length_append, List.length_cons]
    rw [show s.length + (e.length + 1) = s.length + 1 + e.length by omega]
  simp only [convertToUint, if_neg (show ¬ size = 0 by omega)]
  simp only [convertToUint, if_neg (show ¬ s.length + 1 = 0 by omega)] at href
  have hat : ∃ c, at? (s ++ 0 :: e) 0 = .ok c := by
    cases s with
    | nil => exact ⟨0, rfl⟩
    | cons c s => exact ⟨c, rfl⟩
  obtain ⟨c, hc⟩ := hat
  rw [hc, Res.ok_bind] at href ⊢
  split
  · rename_i h0
    rw [if_pos h0, fail, if_pos rfl] at href
    rw [hfail]
    cases hp : parseNat 10 ty.hi s with
    | none => rfl
    | some v => rw [hp] at href; cases href
  · rename_i h0
    rw [if_neg h0] at href
    obtain ⟨k, hk, k1, k2⟩ := skipZero_left s e size h
    rw [k1]
    rw [k2 (s.length + 1) (by omega)] at href
    simp only [Res.ok_bind] at href ⊢
    rw [scanUint_left ty (s.drop k) e 0 (size - k) (s.length + 1 - k) (by simp; omega) (by simp; omega)]
    have hsc := scanUint_spec ty hv 0 (s.length + 1 - k) (s.drop k ++ 0 :: e) (by simp; omega) (Nat.zero_le _)
    rw [hsc, Res.ok_bind] at href ⊢
    cases hr : cap ty.hi (valFrom 10 0 (upToNul ((s.drop k ++ 0 :: e).take (s.length + 1 - k)))) with
    | some v =>
      rw [hr] at href
      cases hp : parseNat 10 ty.hi s with
      | none => rw [hp] at href; cases href
      | some v' => rw [hp] at href; exact href
    | none =>
      rw [hr] at href
      simp only at href ⊢
      rw [hfail]
      cases hp : parseNat 10 ty.hi s with
      | none => rfl
      | some v => rw [hp] at href; cases href

theorem convertHexToInt_cstr (hi : Nat) (hv : (hi + 1) % 16 = 0) (flag : Bool) (s e : List UInt8) (hs : 0 ∉ s) (size : Nat) (h : s.length < size) (h16 : 16 ≤ size) :
    convertHexToInt hi flag (s ++ 0 :: e) size = reportC flag (s.length + 1 + e.length) (parseNat 16 hi s) := by
  have href := convertHexToInt_spec hi hv true (s ++ 0 :: e) (s.length + 1) (by simp)
  rw [upToNul_text hs] at href
  have hfail : ∀ f : Bool, (fail f (s ++ 0 :: e) size : Res (Option Nat)) = reportC f (s.length + 1 + e.length) none := by
    intro f
    rw [fail, reportC, Nat.min_eq_right h16]
    simp only [List.length_append, List.length_cons]
    rw [show s.length + (e.length + 1) = s.length + 1 + e.length by omega]
  simp only [convertHexToInt, if_neg (show ¬ size = 0 by omega)]
  simp only [convertHexToInt, if_neg (show ¬ s.length + 1 = 0 by omega)] at href
  have hat : ∃ c, at? (s ++ 0 :: e) 0 = .ok c := by
    cases s with
    | nil => exact ⟨0, rfl⟩
    | cons c s => exact ⟨c, rfl⟩
  obtain ⟨c, hc⟩ := hat
  rw [hc, Res.ok_bind] at href ⊢
  split
  · rename_i h0
    rw [if_pos h0, fail, if_pos rfl] at href
    rw [hfail]
    cases hp : parseNat 16 hi s with
    | none => rfl
    | some v => rw [hp] at href; cases href
  · rename_i h0
    rw [if_neg h0] at href
    rw [scanHex_left hi s e 0 size (s.length + 1) (by omega) (by omega)]
    have hsc := scanHex_spec hi hv 0 (s.length + 1) (s ++ 0 :: e) (by simp) (Nat.zero_le _)
    rw [hsc, Res.ok_bind] at href ⊢
    cases hr : cap hi (valFrom 16 0 (upToNul ((s ++ 0 :: e).take (s.length + 1)))) with
    | some v =>
      rw [hr] at href
      cases hp : parseNat 16 hi s with
      | none => rw [hp] at href; cases href
      | some v' => rw [hp] at href; exact href
    | none =>
      rw [hr] at href
      simp only at href ⊢
      rw [hfail]
      cases hp : parseNat 16 hi s with
      | none => rfl
      | some v => rw [hp] at href; cases href

theorem scanInt_left (ty : SInt) (m : Bool) (s e : List UInt8) (x : Int) (l1 l2 : Nat) (h1 : s.length < l1) (h2 : s.length < l2) :
    scanInt ty m x l1 (s ++ 0 :: e) = scanInt ty m x l2 (s ++ 0 :: e) := by
  induction s generalizing x l1 l2 with
  | nil =>
    obtain ⟨a, rfl⟩ := Nat.exists_eq_succ_of_ne_zero (show l1 ≠ 0 by simp at h1; omega)
    obtain ⟨b, rfl⟩ := Nat.exists_eq_succ_of_ne_zero (show l2 ≠ 0 by simp at h2; omega)
    simp [scanInt]
  | cons c s ih =>
    obtain ⟨a, rfl⟩ := Nat.exists_eq_succ_of_ne_zero (show l1 ≠ 0 by omega)
    obtain ⟨b, rfl⟩ := Nat.exists_eq_succ_of_ne_zero (show l2 ≠ 0 by omega)
    simp only [List.length_cons] at h1 h2
    simp only [List.cons_append, scanInt]
    split
    · rfl
    · split
      · rfl
      · split
        · rfl
        · exact ih _ a b (by omega) (by omega)

theorem ite_bind {α β : Type} (P : Prop) [Decidable P] (a b : Res α) (f : α → Res β) :
    (if P then a >>= f else b >>= f) = (if P then a else b) >>= f := by split <;> rfl

/-- `memcmp` across the terminator finds a difference. -/
theorem memEq_across (mx s e : List UInt8) (hmx : 0 ∉ mx) (h1 : mx.length ≤ s.length + 1 + e.length) (h2 : s.length < mx.length) :
    memEq mx (s ++ 0 :: e) = .ok false := by
  rw [memEq, if_pos (by simp; omega)]
  congr 1
  rw [beq_eq_false_iff_ne]
  intro he
  apply hmx
  rw [← he, List.mem_take_iff_getElem]
  exact ⟨s.length, by simp; omega, by simp⟩

theorem convertToInt_cstr (ty : SInt) (hmx : 0 ∉ ty.max) (flag : Bool) (s e : List UInt8) (size : Nat) (h : s.length < size)
    (h16 : 16 ≤ size) (hend : s.head? = some 45 → ty.max.length ≤ e.length + 1) {o : Option Int}
    (href : convertToInt ty true (s ++ 0 :: e) (s.length + 1) = .ok o) :
    convertToInt ty flag (s ++ 0 :: e) size = reportC flag (s.length + 1 + e.length) o := by
  have hfail : ∀ f : Bool, (fail f (s ++ 0 :: e) size : Res (Option Int)) = reportC f (s.length + 1 + e.length) none := by
    intro f
    rw [fail, reportC, Nat.min_eq_right h16]
    simp only [List.length_append, List.length_cons]
    rw [show s.length + (e.length + 1) = s.length + 1 + e.length by omega]
  have hnone : (fail true (s ++ 0 :: e) (s.length + 1) : Res (Option Int)) = .ok none := by rw [fail, if_pos rfl]
  simp only [convertToInt, if_neg (show ¬ size = 0 by omega)]
  simp only [convertToInt, if_neg (show ¬ s.length + 1 = 0 by omega)] at href
  cases s with
  | nil =>
    rw [show at? ([] ++ 0 :: e) 0 = .ok (0 : UInt8) from rfl, Res.ok_bind, if_pos rfl] at href ⊢
    rw [hnone] at href
    cases href
    exact hfail flag
  | cons c s =>
    rw [show at? (c :: s ++ 0 :: e) 0 = .ok c from rfl, Res.ok_bind] at href ⊢
    by_cases h0 : c = 0
    · rw [if_pos h0] at href ⊢
      rw [hnone] at href
      cases href
      exact hfail flag
    rw [if_neg h0] at href ⊢
    -- the text after the sign
    obtain ⟨t, ht, hlen, hi, hm⟩ : ∃ t : List UInt8, (c :: s ++ 0 :: e).drop (if (c == 45) = true then 1 else 0) = t ++ 0 :: e ∧
        t.length + (if (c == 45) = true then 1 else 0) = (c :: s).length ∧
        at? (c :: s ++ 0 :: e) (if (c == 45) = true then 1 else 0) = at? (t ++ 0 :: e) 0 ∧
        (t = s ∨ t = c :: s) := by
      by_cases h45 : c = 45
      · refine ⟨s, ?_, ?_, ?_, Or.inl rfl⟩
        · rw [if_pos (by simpa using h45)]; rfl
        · rw [if_pos (by simpa using h45)]; rfl
        · rw [if_pos (by simpa using h45)]; rfl
      · refine ⟨c :: s, ?_, ?_, ?_, Or.inr rfl⟩
        · rw [if_neg (by simpa using h45)]; rfl
        · rw [if_neg (by simpa using h45)]; rfl
        · rw [if_neg (by simpa using h45)]
    have hend' : (c == 45) = true → ty.max.length ≤ e.length + 1 := by
      intro hc; apply hend; simpa using hc
    revert href
    generalize hib : (if (c == 45) = true then 1 else 0) = i at *
    rw [ht, hi]
    rw [if_pos (show i < (c :: s).length + 1 by omega), if_pos (show i < size by omega)]
    have hat : ∃ d, at? (t ++ 0 :: e) 0 = .ok d := by
      cases t with
      | nil => exact ⟨0, rfl⟩
      | cons d t => exact ⟨d, rfl⟩
    obtain ⟨d, hd⟩ := hat
    rw [hd, Res.ok_bind, Res.ok_bind, Res.pure_eq, Res.ok_bind, Res.ok_bind]
    intro href
    by_cases hd0 : (d != 0) = true
    · rw [if_pos hd0] at href ⊢
      obtain ⟨k, hk, k1, k2⟩ := skipZero_left t e (size - i) (by omega)
      rw [k1]
      rw [k2 ((c :: s).length + 1 - i) (by omega)] at href
      rw [Res.ok_bind] at href ⊢
      dsimp only at href ⊢
      rw [ite_bind] at href ⊢
      have hmem : (if (c == 45) = true ∧ size - i - k ≥ ty.max.length then memEq ty.max (t.drop k ++ 0 :: e) else pure false) =
          (if (c == 45) = true ∧ (c :: s).length + 1 - i - k ≥ ty.max.length then memEq ty.max (t.drop k ++ 0 :: e) else pure false) := by
        by_cases h45 : (c == 45) = true
        · by_cases hle : ty.max.length ≤ (c :: s).length + 1 - i - k
          · rw [if_pos ⟨h45, show size - i - k ≥ ty.max.length by omega⟩, if_pos ⟨h45, hle⟩]
          · rw [if_neg (show ¬ ((c == 45) = true ∧ (c :: s).length + 1 - i - k ≥ ty.max.length) from fun hh => hle hh.2)]
            split
            · refine memEq_across _ _ _ hmx ?_ ?_
              · have := hend' h45; simp; omega
              · simp; omega
            · rfl
        · rw [if_neg (fun hh => h45 hh.1), if_neg (fun hh => h45 hh.1)]
      rw [hmem]
      generalize (if (c == 45) = true ∧ (c :: s).length + 1 - i - k ≥ ty.max.length then memEq ty.max (t.drop k ++ 0 :: e) else pure false) = q at href ⊢
      cases q with
      | ub => cases href
      | throw => cases href
      | ok b =>
        rw [Res.ok_bind] at href ⊢
        cases b with
        | true => rw [if_pos rfl] at href ⊢; cases href; rfl
        | false =>
          rw [if_neg (by simp)] at href ⊢
          rw [scanInt_left ty _ (t.drop k) e 0 (size - i - k) ((c :: s).length + 1 - i - k)
            (by rw [List.length_drop]; omega) (by rw [List.length_drop]; omega)]
          generalize scanInt ty (c == 45) 0 ((c :: s).length + 1 - i - k) (t.drop k ++ 0 :: e) = q at href ⊢
          cases q with
          | ub => cases href
          | throw => cases href
          | ok r =>
            rw [Res.ok_bind] at href ⊢
            cases r with
            | some v => cases href; rfl
            | none =>
              simp only at href ⊢
              rw [hnone] at href
              cases href
              exact hfail flag
    · rw [if_neg hd0] at href ⊢
      rw [hnone] at href
      cases href
      exact hfail flag

end Verif.Atoi
