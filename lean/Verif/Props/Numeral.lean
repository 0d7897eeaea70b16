import Verif.Proof.Atoi

/-!
# C04 - C07: integers and text
-/
namespace Verif.Props.Numeral
open Verif Verif.Itoa Verif.Atoi Verif.Spec.Numeral

/-! ## C04 -/

/-- Text `d` is right-aligned in a buffer: `buf` below it is untouched, the reported size is its
length; if it does not fit, the reported size is 0. -/
def RightAligned (buf d : List UInt8) (res : List UInt8 × Nat) : Prop :=
  (d.length ≤ buf.length → res = (buf.take (buf.length - d.length) ++ d, d.length)) ∧
  (buf.length < d.length → res.2 = 0)

/-- C04.  `uintToDec`, for every value and every buffer. -/
theorem C04_uintToDec (buf : List UInt8) (x : Nat) :
    ∃ d, Canonical 10 d x ∧ RightAligned buf d (uintToDec buf x) ∧
      (uintToDec buf x).1.length = buf.length :=
  ⟨dec x, canonical_digs (by omega) isDig_dec x,
    ⟨fun h => uintToDec_ok buf x h, fun h => uintToDec_fail buf x h⟩, uintToDec_length buf x⟩

/-- C04.  `uintToHex`, both letter cases. -/
theorem C04_uintToHex (buf : List UInt8) (x : Nat) (u : Bool) :
    ∃ d, Canonical 16 d x ∧ RightAligned buf d (uintToHex buf x u) ∧
      (uintToHex buf x u).1.length = buf.length := by
  refine ⟨digs 16 (hexChar u) x, canonical_digs (by omega) (isDig_hex u) x, ⟨fun h => ?_, fun h => ?_⟩,
    loop_length _ _ _⟩
  · simp only [uintToHex]
    rw [loop_ok (by omega) (fun _ => rfl) _ _ _ (Nat.le_refl _) (Nat.le_refl _) h]
    simp
  · exact loop_fail (by omega) (fun _ => rfl) _ _ _ h

/-- C04.  `uintToBin`. -/
theorem C04_uintToBin (buf : List UInt8) (x : Nat) :
    ∃ d, Canonical 2 d x ∧ RightAligned buf d (uintToBin buf x) ∧
      (uintToBin buf x).1.length = buf.length := by
  refine ⟨_, canonical_digs (by omega) isDig_bin x, ⟨fun h => ?_, fun h => ?_⟩, loop_length _ _ _⟩
  · simp only [uintToBin]
    rw [loop_ok (by omega) shr1 _ _ _ (Nat.le_refl _) (Nat.le_refl _) h]
    simp
  · exact loop_fail (by omega) shr1 _ _ _ h

/-- C04.  `intToDec<long long>`, for every 64-bit value including the minimum and every buffer. -/
theorem C04_intToDec (buf : List UInt8) (x : Int) (h1 : -2 ^ 63 ≤ x) :
    ∃ d res, CanonicalInt d x ∧ intToDec (-2 ^ 63) buf x = .ok res ∧ RightAligned buf d res := by
  have hx : ¬ (x < 0 ∧ x = -2 ^ 63 ∧ x ≠ -9223372036854775808) := by omega
  by_cases h : (decInt x).length ≤ buf.length
  · exact ⟨decInt x, _, canonical_decInt x, intToDec_ok _ _ _ hx h, fun _ => rfl, fun h' => by omega⟩
  · obtain ⟨b, e⟩ := intToDec_fail (-2 ^ 63) buf x hx (by omega)
    exact ⟨decInt x, _, canonical_decInt x, e, fun h' => by omega, fun _ => rfl⟩

/-- C04 (finding).  The template `intToDec<int>` negates `INT_MIN`, which overflows. -/
theorem C04_intToDec_int_min_ub (buf : List UInt8) : intToDec (-2 ^ 31) buf (-2 ^ 31) = .ub := by
  simp [intToDec]

/-- C04.  `itoa` of unsigned values: the canonical decimal numeral, whatever the stack buffer
contained. -/
theorem C04_itoa_unsigned (buf : List UInt8) (hb : buf.length = 40) (x : Nat) (h : x < 2 ^ 64) :
    ∃ d, convertFromUint buf x = .ok d ∧ Canonical 10 d x :=
  ⟨_, convertFromUint_eq buf hb x h, canonical_digs (by omega) isDig_dec x⟩

/-- C04.  `itoa` of signed values. -/
theorem C04_itoa_signed (buf : List UInt8) (hb : buf.length = 40) (x : Int)
    (h1 : -2 ^ 63 ≤ x) (h2 : x < 2 ^ 63) :
    ∃ d, convertFromInt buf x = .ok d ∧ CanonicalInt d x :=
  ⟨_, convertFromInt_eq buf hb x h1 h2, canonical_decInt x⟩

/-- C04.  `itoa(long)`, where `long` has 32 or 64 bits. -/
theorem C04_itoa_long (w : Nat) (hw : w = 32 ∨ w = 64) (buf : List UInt8) (hb : buf.length = 40) (x : BitVec w) :
    ∃ d, itoaLong w buf x = .ok d ∧ CanonicalInt d x.toInt := by
  have hr : -2 ^ 63 ≤ x.toInt ∧ x.toInt < 2 ^ 63 := by
    have h1 := BitVec.two_mul_toInt_lt (x := x)
    have h2 := BitVec.le_two_mul_toInt (x := x)
    rcases hw with rfl | rfl <;> omega
  have e : itoaLong w buf x = convertFromInt buf x.toInt := by
    rcases hw with rfl | rfl <;> simp [itoaLong]
  rw [e]
  exact C04_itoa_signed buf hb _ hr.1 hr.2

/-- C04.  `itoa(unsigned long)` where `long` has 64 bits. -/
theorem C04_itoa_ulong64 (buf : List UInt8) (hb : buf.length = 40) (x : BitVec 64) :
    ∃ d, itoaULong 64 buf x = .ok d ∧ Canonical 10 d x.toNat := by
  simp only [itoaULong, if_true]
  exact C04_itoa_unsigned buf hb _ x.isLt

/-- C04 (finding).  Where `long` has 32 bits `itoa(unsigned long)` casts to `int`: exactly the values from `2^31` on are printed
as something else, the negative number `x - 2^32`. -/
theorem C04_finding_ulong32 (buf : List UInt8) (hb : buf.length = 40) (x : BitVec 32) :
    ∃ d, itoaULong 32 buf x = .ok d ∧ CanonicalInt d (if x.toNat < 2 ^ 31 then x.toNat else x.toNat - 2 ^ 32) ∧
      (Canonical 10 d x.toNat ↔ x.toNat < 2 ^ 31) := by
  have hx := x.isLt
  have e : (x.setWidth 32).toInt = if x.toNat < 2 ^ 31 then (x.toNat : Int) else x.toNat - 2 ^ 32 := by
    rw [BitVec.setWidth_eq, BitVec.toInt_eq_toNat_cond]
    split <;> split <;> omega
  obtain ⟨d, h1, h2⟩ := C04_itoa_signed buf hb ((x.setWidth 32).toInt) (by rw [e]; split <;> omega) (by rw [e]; split <;> omega)
  refine ⟨d, by rw [itoaULong, if_neg (by decide)]; exact h1, by rw [← e]; exact h2, ?_⟩
  rw [e] at h2
  by_cases h : x.toNat < 2 ^ 31
  · simp only [h, if_true, iff_true, CanonicalInt] at h2 ⊢
    rw [if_neg (by omega)] at h2
    simpa using h2
  · simp only [h, if_false, iff_false, CanonicalInt] at h2 ⊢
    rw [if_pos (by omega)] at h2
    obtain ⟨t, rfl, -⟩ := h2
    intro hc
    have := hc.2.1
    rw [value?, List.foldl_cons, show digit? 45 = none by decide] at this
    have hn : ∀ (f : Option Nat → UInt8 → Option Nat) (l : List UInt8), (∀ c, f none c = none) → l.foldl f none = none := by
      intro f l hf
      induction l with
      | nil => rfl
      | cons c l ih => rw [List.foldl_cons, hf, ih]
    rw [hn _ t (fun c => rfl)] at this
    cases this

example : itoaULong 32 (List.replicate 40 0) 0xffffffff#32 = .ok "-1".toUTF8.toList := by decide +kernel

/-- C04.  `itohex` without zero padding is the canonical numeral; with padding it has exactly
`2 * sizeof(T)` digits and the same value. -/
theorem C04_itohex (size x : Nat) (u : Bool) (h : x < 16 ^ (size * 2)) :
    Canonical 16 (itohex size x u false) x ∧
    value? 16 (itohex size x u true) = some x ∧ (itohex size x u true).length = size * 2 := by
  refine ⟨?_, ?_, ?_⟩
  · rw [itohex_noZero]; exact canonical_digs (by omega) (isDig_hex u) x
  · rw [itohex_zero, value_fixed (by omega) (isDig_hex u), Nat.mod_eq_of_lt h]
  · rw [itohex_zero, fixed_length]

/-- C04.  `itobin` likewise. -/
theorem C04_itobin (size x : Nat) (h : x < 2 ^ (size * 8)) :
    Canonical 2 (itobin size x false) x ∧
    value? 2 (itobin size x true) = some x ∧ (itobin size x true).length = size * 8 := by
  refine ⟨?_, ?_, ?_⟩
  · rw [itobin_noZero]; exact canonical_digs (by omega) isDig_bin x
  · rw [itobin_zero, value_fixed (by omega) isDig_bin, Nat.mod_eq_of_lt h]
  · rw [itobin_zero, fixed_length]

theorem itobinLoopS_eq (left : Nat) : ∀ (out : List UInt8) (x : Int) (m : Nat), x % 2 ^ left = (m : Int) % 2 ^ left →
    itobinLoopS left out x = itobinLoop left out m := by
  induction left with
  | zero => intro out x m _; rfl
  | succ left ih =>
    intro out x m h
    have hp : (2 : Int) ^ (left + 1) = 2 * 2 ^ left := by rw [Int.pow_succ, Int.mul_comm]
    rw [hp] at h
    have h2 : x % 2 = (m : Int) % 2 := by
      have := congrArg (· % (2 : Int)) h
      simp only [Int.mul_emod_right, Int.emod_emod_of_dvd _ (Int.dvd_mul_right 2 _)] at this
      exact this
    rw [itobinLoopS, itobinLoop, Nat.and_one_is_mod, show (x % 2).toNat = m % 2 by omega, shr1]
    apply ih
    have hx := Int.mul_ediv_add_emod x 2
    have hm := Int.mul_ediv_add_emod (m : Int) 2
    have e : ∀ y : Int, y % (2 * 2 ^ left) = 2 * (y / 2 % 2 ^ left) + y % 2 := by
      intro y
      have h1 := Int.mul_ediv_add_emod y (2 * 2 ^ left)
      have h3 := Int.mul_ediv_add_emod (y / 2) (2 ^ left)
      have h4 := Int.mul_ediv_add_emod y 2
      have h5 : y / (2 * 2 ^ left) = y / 2 / 2 ^ left := (Int.ediv_ediv_of_nonneg (by omega)).symm
      rw [h5, Int.mul_assoc] at h1
      omega
    rw [e, e, h2] at h
    have : ((m / 2 : Nat) : Int) = (m : Int) / 2 := by omega
    rw [this]
    omega

/-- C04.  `itobin` of a signed value, padded: all bits of the two's complement.  Not padded, a value that is not negative: the canonical numeral. -/
theorem C04_itobin_signed (w : Nat) (hw : w = 8 ∨ w = 16 ∨ w = 32 ∨ w = 64) (x : BitVec w) :
    value? 2 (itobinS x true) = some x.toNat ∧ (itobinS x true).length = w ∧ (0 ≤ x.toInt → Canonical 2 (itobinS x false) x.toNat) := by
  have hpad : itobinS x true = itobinLoop w (List.replicate w 0) x.toNat := by
    simp only [itobinS, if_true]
    apply itobinLoopS_eq
    rw [BitVec.toInt_eq_toNat_bmod]
    have : ((2 ^ w : Nat) : Int) = 2 ^ w := by simp
    rw [← this, Int.bmod_emod]
  rw [hpad, itobinLoop_eq _ _ _ (by simp)]
  refine ⟨?_, by simp [fixed_length], fun h => ?_⟩
  · simp only [List.drop_replicate, Nat.sub_self, List.replicate_zero, List.append_nil]
    rw [value_fixed (by omega) isDig_bin, Nat.mod_eq_of_lt x.isLt]
  · have hi : x.toInt = (x.toNat : Int) := by
      rw [BitVec.toInt_eq_toNat_cond] at h ⊢
      split
      · rfl
      · rename_i hc; rw [if_neg hc] at h; have := x.isLt; omega
    have hl : getBinLengthS x = getBinLength x.toNat := by
      have h0 : x = 0 ↔ x.toNat = 0 := ⟨fun h => by subst h; rfl, fun h => BitVec.eq_of_toNat_eq h⟩
      simp only [getBinLengthS, getBinLength, h0]
      by_cases h64 : w = 64
      · rw [if_pos h64]
      · rw [if_neg h64]
        have : (x.signExtend 32).toNat = x.toNat := by
          have hlt : x.toNat < 2 ^ 32 := Nat.lt_of_lt_of_le x.isLt (Nat.pow_le_pow_right (by decide) (by omega))
          have : x.signExtend 32 = BitVec.ofInt 32 x.toInt := rfl
          rw [this, hi, BitVec.ofInt_natCast, BitVec.toNat_ofNat, Nat.mod_eq_of_lt hlt]
        rw [this]
    have : itobinS x false = itobin 0 x.toNat false := by
      simp only [itobinS, itobin, hl, hi]
      exact itobinLoopS_eq _ _ _ _ rfl
    rw [this]
    exact (itobin_noZero 0 x.toNat ▸ canonical_digs (by omega) isDig_bin x.toNat)

/-- Finding for C04.  Without padding a negative value of 8 or 16 bits has 32 digits: more than with padding, and another number. -/
theorem C04_finding_itobin_negative (w : Nat) (hw : w = 8 ∨ w = 16) (x : BitVec w) (h : x.toInt < 0) :
    (itobinS x false).length = 32 ∧ value? 2 (itobinS x false) = some (2 ^ 32 - 2 ^ w + x.toNat) := by
  have hx := x.isLt
  have h0 : x ≠ 0 := by rintro rfl; simp at h
  have hi : x.toInt = (x.toNat : Int) - 2 ^ w := by
    rw [BitVec.toInt_eq_toNat_cond] at h ⊢
    split
    · rename_i hc; rw [if_pos hc] at h; omega
    · simp
  have hge : 2 ^ w ≤ 2 * x.toNat := by
    rw [BitVec.toInt_eq_toNat_cond] at h
    split at h
    · omega
    · omega
  have hse : (x.signExtend 32).toNat = 2 ^ 32 - 2 ^ w + x.toNat := by
    have : x.signExtend 32 = BitVec.ofInt 32 x.toInt := rfl
    rw [this, hi, BitVec.toNat_ofInt]
    rcases hw with rfl | rfl
    · simp only [Nat.reducePow, Int.reducePow] at *; omega
    · simp only [Nat.reducePow, Int.reducePow] at *; omega
  have hl : getBinLengthS x = 32 := by
    have hw' : w ≠ 64 := by omega
    rw [getBinLengthS, if_neg h0, if_neg hw', hse, bsr]
    have : (2 ^ 32 - 2 ^ w + x.toNat).log2 = 31 := by
      rw [Nat.log2_eq_iff (by rcases hw with rfl | rfl <;> simp)]
      rcases hw with rfl | rfl
      · simp only [Nat.reducePow] at *; omega
      · simp only [Nat.reducePow] at *; omega
    rw [this]
  have hs : itobinS x false = itobinLoop 32 (List.replicate 32 0) (2 ^ 32 - 2 ^ w + x.toNat) := by
    simp only [itobinS, hl, Bool.false_eq_true, if_false]
    apply itobinLoopS_eq
    rw [hi]
    rcases hw with rfl | rfl
    · simp only [Nat.reducePow, Int.reducePow] at *; omega
    · simp only [Nat.reducePow, Int.reducePow] at *; omega
  rw [hs, itobinLoop_eq _ _ _ (by simp)]
  refine ⟨by simp [fixed_length], ?_⟩
  simp only [List.drop_replicate, Nat.sub_self, List.replicate_zero, List.append_nil]
  rw [value_fixed (by omega) isDig_bin, Nat.mod_eq_of_lt]
  rcases hw with rfl | rfl
  · simp only [Nat.reducePow] at *; omega
  · simp only [Nat.reducePow] at *; omega

example : itobinS (0xfe#8) true = "11111110".toUTF8.toList ∧ itobinS (0xfe#8) false = "11111111111111111111111111111110".toUTF8.toList := by
  decide +kernel

/-- Finding for C04.  `itohex` into a buffer of enough digits for a negative value reads outside its table. -/
theorem C04_finding_itohex_negative (u : Bool) (len : Nat) : ∀ (out : List UInt8) (x : Int), x < 0 → x.natAbs < 16 ^ len →
    itohexLoopS u len out x = .ub := by
  induction len with
  | zero => intro out x h1 h2; simp at h2; omega
  | succ len ih =>
    intro out x h1 h2
    rw [itohexLoopS]
    by_cases hm : x.tmod 16 < 0
    · rw [if_pos hm]
    · rw [if_neg hm]
      have hd : x.tdiv 16 = -((-x) / 16) := by
        rw [← Int.neg_neg x, Int.neg_tdiv, Int.tdiv_eq_ediv_of_nonneg (by omega), Int.neg_neg]
      have ht := Int.mul_tdiv_add_tmod x 16
      rw [Nat.pow_succ] at h2
      apply ih <;> omega

/-- C04.  `itohex` of a signed value that is not negative is that of the unsigned one. -/
theorem C04_itohex_signed (u : Bool) (len : Nat) : ∀ (out : List UInt8) (x : Nat), itohexLoopS u len out (x : Int) = .ok (itohexLoop u len out x) := by
  induction len with
  | zero => intro out x; rfl
  | succ len ih =>
    intro out x
    have e1 : ((x : Int).tmod 16).toNat = x % 16 := by rw [Int.tmod_eq_emod_of_nonneg (by omega)]; omega
    have e2 : (x : Int).tdiv 16 = ((x / 16 : Nat) : Int) := by rw [Int.tdiv_eq_ediv_of_nonneg (by omega)]; omega
    have e3 : hexChar u (x % 16) = hexChar u x := by simp [hexChar]
    rw [itohexLoopS, if_neg (by rw [Int.tmod_eq_emod_of_nonneg (by omega)]; omega), e1, e2, e3, ih, itohexLoop]

example : itohexLoopS true 2 [0, 0] (-16) = .ub := C04_finding_itohex_negative _ _ _ _ (by decide) (by decide)

/-- C04.  `itoaWithZero(x, len, '0')`: padding zeros between the sign and the digits, total length
at least `len`. -/
theorem C04_itoaWithZero (buf : List UInt8) (hb : buf.length = 40) (x : Int) (len : Nat)
    (h1 : -2 ^ 63 ≤ x) (h2 : x < 2 ^ 63) :
    ∃ d k r, CanonicalInt d x ∧ itoaWithZero buf x len 48 = .ok r ∧ r.length = max len d.length ∧
      (0 ≤ x → r = List.replicate k 48 ++ d) ∧
      (x < 0 → ∃ t, d = 45 :: t ∧ r = 45 :: (List.replicate k 48 ++ t)) := by
  have hc := canonical_decInt x
  refine ⟨decInt x, len - (decInt x).length, ?_⟩
  simp only [itoaWithZero, convertFromInt_eq buf hb x h1 h2, Res.ok_bind]
  by_cases hn : x < 0
  · simp only [CanonicalInt, hn, if_true] at hc
    obtain ⟨t, ht, hcan⟩ := hc
    rw [ht] at *
    split
    · rename_i hl
      rw [if_neg (by omega)]
      refine ⟨_, by simp only [CanonicalInt, hn, if_true]; exact ⟨t, rfl, hcan⟩, rfl, ?_,
        fun h => by omega, fun _ => ⟨t, rfl, by simp⟩⟩
      simp at hl ⊢; omega
    · rename_i hl
      refine ⟨_, by simp only [CanonicalInt, hn, if_true]; exact ⟨t, rfl, hcan⟩, rfl, ?_,
        fun h => by omega, fun _ => ⟨t, rfl, ?_⟩⟩
      · simp at hl ⊢; omega
      · have : len - (t.length + 1) = 0 := by simp at hl; omega
        simp [this]
  · split
    · rename_i hl
      rw [if_pos (by omega)]
      refine ⟨_, hc, rfl, ?_, fun _ => rfl, fun h => absurd h hn⟩
      simp; omega
    · rename_i hl
      refine ⟨_, hc, rfl, by omega, fun _ => ?_, fun h => absurd h hn⟩
      have : len - (decInt x).length = 0 := by omega
      simp [this]

example : intToDec (-2 ^ 63) [7, 7, 7, 7, 7] (-120) = .ok ([7, 45, 49, 50, 48], 4) := by decide
example : uintToDec [7, 7] 345 = ([52, 53], 0) := by decide
example : itohex 2 0x1af true true = [48, 49, 65, 70] := by decide
example : itoaWithZero (List.replicate 40 9) (-12) 4 48 = .ok [45, 48, 49, 50] := by decide

/-! ## C05 -/

/-- How a caller learns the outcome: the value, or (`*b = false` | exception). -/
def Reported {α : Type} (flag : Bool) (want : Option α) (got : Res (Option α)) : Prop :=
  match want with
  | some v => got = .ok (some v)
  | none => got = if flag then .ok none else .throw

theorem reported_report {α : Type} (flag : Bool) (o : Option α) :
    Reported flag o (report flag o) := by cases o <;> rfl

/-- C05.  Unsigned types: `atoi` accepts exactly the in-range numerals and returns their value, for
every readable range (in particular every `std::string`), and never leaves it. -/
theorem C05_atoi_unsigned (ty : Atoi.UInt) (hty : ty ∈ [uint8, uint16, uint32, uint64])
    (flag : Bool) (mem : List UInt8) (size : Nat) (h : size ≤ mem.length) :
    Reported flag (parseNat 10 ty.hi (upToNul (mem.take size))) (convertToUint ty flag mem size) := by
  have hv : ty.Valid := by
    simp only [List.mem_cons, List.not_mem_nil, or_false] at hty
    rcases hty with rfl | rfl | rfl | rfl <;> decide
  rw [convertToUint_spec ty hv flag mem size h]
  exact reported_report flag _

/-- The four signed types with their magnitude `W` (range `[-W, W-1]`). -/
def signedTypes : List (SInt × Nat) :=
  [(sint8, 2 ^ 7), (sint16, 2 ^ 15), (sint32, 2 ^ 31), (sint64, 2 ^ 63)]

theorem signed_valid {ty : SInt} {W : Nat} (h : (ty, W) ∈ signedTypes) : ty.Valid W := by
  simp only [signedTypes, List.mem_cons, List.not_mem_nil, or_false, Prod.mk.injEq] at h
  rcases h with ⟨rfl, rfl⟩ | ⟨rfl, rfl⟩ | ⟨rfl, rfl⟩ | ⟨rfl, rfl⟩
  · exact valid8
  · exact valid16
  · exact valid32
  · exact valid64

/-- C05, partial.  Signed types: `atoi` accepts exactly the in-range numerals and returns their
value, except for texts that consist of the type's minimum followed by further characters (see the
next theorem).  Missing for the full statement: exactly those texts. -/
theorem C05_atoi_signed_partial (ty : SInt) (W : Nat) (hty : (ty, W) ∈ signedTypes) (flag : Bool)
    (mem : List UInt8) (size : Nat) (h : size ≤ mem.length)
    (hm : ¬ MinThenMore W (upToNul (mem.take size))) :
    Reported flag (parseInt W (W - 1) (upToNul (mem.take size))) (convertToInt ty flag mem size) := by
  rw [(convertToInt_spec ty W (signed_valid hty) flag mem size h).2 hm]
  exact reported_report flag _

/-- C05 (finding).  Every text consisting of the type's minimum followed by anything is accepted and
yields the minimum, although it is not an in-range numeral. -/
theorem C05_min_then_more_accepted (ty : SInt) (W : Nat) (hty : (ty, W) ∈ signedTypes) (flag : Bool)
    (mem : List UInt8) (size : Nat) (h : size ≤ mem.length)
    (hm : MinThenMore W (upToNul (mem.take size))) :
    convertToInt ty flag mem size = .ok (some (-W)) ∧
      parseInt W (W - 1) (upToNul (mem.take size)) = none := by
  have hv := signed_valid hty
  refine ⟨by rw [(convertToInt_spec ty W hv flag mem size h).1 hm, hv.2.1], ?_⟩
  obtain ⟨k, d, c, r, e, hd⟩ := hm
  have hW : W ≠ 0 := by intro h; have := hv.2.2.2.2.2; simp [h] at this
  rw [e]
  show Option.map _ (parseNat 10 W _) = none
  rw [parseNat_eq _ _ _ (by simp), List.append_assoc, valFrom_zeros _ _ (by omega),
    (canonical_dec hW hd).1, valFrom_append, valFrom_dec]
  simp only [Option.bind_some, valFrom]
  cases hdg : digit? c with
  | none => rfl
  | some d =>
    simp only
    split
    · rw [cap_over (by omega) (by omega)]; rfl
    · rfl

/-- "-2147483648xyz" is such a text: the full C05 fails. -/
theorem C05_full_statement_fails :
    atoiS sint32 true "-2147483648xyz".toUTF8.data.toList = .ok (some (-2147483648)) ∧
    atoiS sint32 false "-21474836480".toUTF8.data.toList = .ok (some (-2147483648)) ∧
    parseInt (2 ^ 31) (2 ^ 31 - 1) "-2147483648xyz".toUTF8.data.toList = none := by decide +kernel

/-- How a caller that passed a NUL-terminated text without its size learns the outcome.  `avail` bytes are
readable from the start of the text; the exception quotes 16 bytes of it. -/
def ReportedC {α : Type} (flag : Bool) (avail : Nat) (want : Option α) (got : Res (Option α)) : Prop :=
  match want with
  | some v => got = .ok (some v)
  | none => (flag = true → got = .ok none) ∧ (flag = false → 16 ≤ avail → got = .throw) ∧
      (flag = false → avail < 16 → got = .ub)

theorem reportedC {α : Type} (flag : Bool) (avail : Nat) (o : Option α) :
    ReportedC flag avail o (reportC flag avail o) := by
  cases o with
  | some v => rfl
  | none =>
    refine ⟨fun h => by rw [h]; rfl, fun h h' => ?_, fun h h' => ?_⟩
    · rw [h]; simp [reportC, h']
    · rw [h]; simp [reportC]; omega

/-- C05.  A NUL-terminated text `s` followed by `e`, with a size of at least 16 that reaches beyond the
terminator (as the default argument does), unsigned types: the outcome is that of the text, except that
reporting a failure by an exception reads 16 bytes. -/
theorem C05_cstring_unsigned (ty : Atoi.UInt) (hty : ty ∈ [uint8, uint16, uint32, uint64]) (flag : Bool)
    (s e : List UInt8) (hs : 0 ∉ s) (size : Nat) (h : s.length < size) (h16 : 16 ≤ size) :
    ReportedC flag (s.length + 1 + e.length) (parseNat 10 ty.hi s) (convertToUint ty flag (s ++ 0 :: e) size) := by
  have hv : ty.Valid := by
    simp only [List.mem_cons, List.not_mem_nil, or_false] at hty
    rcases hty with rfl | rfl | rfl | rfl <;> decide
  rw [convertToUint_cstr ty hv flag s e hs size h h16]
  exact reportedC flag _ _

/-- C05.  The same for signed types, provided that a text with a minus sign is followed by as many readable
bytes as the digits of the minimum (without them see `C05_cstring_overread`). -/
theorem C05_cstring_signed_partial (ty : SInt) (W : Nat) (hty : (ty, W) ∈ signedTypes) (flag : Bool)
    (s e : List UInt8) (hs : 0 ∉ s) (size : Nat) (h : s.length < size) (h16 : 16 ≤ size)
    (hend : s.head? = some 45 → ty.max.length ≤ e.length + 1) (hm : ¬ MinThenMore W s) :
    ReportedC flag (s.length + 1 + e.length) (parseInt W (W - 1) s) (convertToInt ty flag (s ++ 0 :: e) size) := by
  have hmx : 0 ∉ ty.max := by
    simp only [signedTypes, List.mem_cons, List.not_mem_nil, or_false, Prod.mk.injEq] at hty
    rcases hty with ⟨rfl, -⟩ | ⟨rfl, -⟩ | ⟨rfl, -⟩ | ⟨rfl, -⟩ <;> decide +kernel
  have href := (convertToInt_spec ty W (signed_valid hty) true (s ++ 0 :: e) (s.length + 1) (by simp)).2
    (by rw [upToNul_text hs]; exact hm)
  rw [upToNul_text hs] at href
  have hok : report true (parseInt W (W - 1) s) = .ok (parseInt W (W - 1) s) := by
    cases parseInt W (W - 1) s <;> rfl
  rw [hok] at href
  rw [convertToInt_cstr ty hmx flag s e size h h16 hend href]
  exact reportedC flag _ _

example : (0 : UInt8) ∉ "4711".toUTF8.data.toList ∧ "4711".toUTF8.data.toList.length < 2 ^ 64 - 1 ∧
    convertToUint uint16 false ("4711".toUTF8.data.toList ++ 0 :: [1, 2]) (2 ^ 64 - 1) = .ok (some 4711) ∧
    convertToUint uint8 false ("4711".toUTF8.data.toList ++ 0 :: [1, 2]) (2 ^ 64 - 1) = .ub := by decide +kernel

example : convertToInt sint8 true ("-17".toUTF8.data.toList ++ 0 :: [1, 2]) (2 ^ 64 - 1) = .ok (some (-17)) ∧
    sint8.max.length ≤ [(1 : UInt8), 2].length + 1 := by decide +kernel

/-- C05 (finding).  On a NUL-terminated string without explicit size, a short negative number makes
`memcmp` read past the terminator; and the exception of the flag-less form reads 16 bytes. -/
theorem C05_cstring_overread :
    atoiC sint32 true "-5".toUTF8.data.toList = .ub ∧
    atoiC sint32 false "abc".toUTF8.data.toList = .ub := by decide +kernel

example : ¬ MinThenMore (2 ^ 31) (upToNul ("-0012".toUTF8.data.toList)) := by
  rw [show upToNul ("-0012".toUTF8.data.toList) = [45, 48, 48, 49, 50] by decide +kernel]
  rintro ⟨k, d, c, r, e, h1, h2, _⟩
  have hl : d.length ≤ 4 := by
    have := congrArg List.length e
    simp at this; omega
  have hmem : ∀ c ∈ d, c = 48 ∨ c = 49 ∨ c = 50 := by
    intro c' hc'
    have : c' ∈ ([45, 48, 48, 49, 50] : List UInt8).tail := by
      rw [e]; simp [hc']
    simpa using this
  match d, hl with
  | [], _ => simp at h1
  | [a], _ => simp at hmem; rcases hmem with rfl | rfl | rfl <;> revert h2 <;> decide
  | [a, b], _ =>
    simp at hmem; obtain ⟨ha, hb⟩ := hmem
    rcases ha with rfl | rfl | rfl <;> rcases hb with rfl | rfl | rfl <;> revert h2 <;> decide
  | [a, b, f], _ =>
    simp at hmem; obtain ⟨ha, hb, hf⟩ := hmem
    rcases ha with rfl | rfl | rfl <;> rcases hb with rfl | rfl | rfl <;>
      rcases hf with rfl | rfl | rfl <;> revert h2 <;> decide
  | [a, b, f, g], _ =>
    simp at hmem; obtain ⟨ha, hb, hf, hg⟩ := hmem
    rcases ha with rfl | rfl | rfl <;> rcases hb with rfl | rfl | rfl <;>
      rcases hf with rfl | rfl | rfl <;> rcases hg with rfl | rfl | rfl <;> revert h2 <;> decide
example : atoiS sint32 true "-0012".toUTF8.data.toList = .ok (some (-12)) := by decide +kernel
example : atoiS sint32 false "2147483648".toUTF8.data.toList = .throw := by decide +kernel
example : atoiU uint8 true "255".toUTF8.data.toList = .ok (some 255) := by decide +kernel
example : atoiU uint8 true "256".toUTF8.data.toList = .ok none := by decide +kernel

/-! ## C06 -/

theorem dec_ne_nil (v : Nat) : dec v ≠ [] := digs_ne_nil

theorem upToNul_self {s : List UInt8} (h : ∀ c ∈ s, c ≠ 0) : upToNul s = s := by
  have := upToNul_append (r := []) h
  simpa [upToNul] using this

theorem dec_noNul (v : Nat) : ∀ c ∈ dec v, c ≠ 0 := digs_noNul (by omega) _ isDig_dec

theorem decInt_noNul (x : Int) : ∀ c ∈ decInt x, c ≠ 0 := by
  intro c hc
  simp only [decInt] at hc
  split at hc
  · rcases List.mem_cons.mp hc with rfl | hc
    · decide
    · exact dec_noNul _ c hc
  · exact dec_noNul _ c hc

/-- C06.  Signed: for every type and every value of it, parsing the text of the value gives the value
back (with or without the flag). -/
theorem C06_signed (ty : SInt) (W : Nat) (hty : (ty, W) ∈ signedTypes) (flag : Bool)
    (buf s : List UInt8) (hb : buf.length = 40) (x : Int) (h1 : -(W : Int) ≤ x) (h2 : x < W)
    (hs : convertFromInt buf x = .ok s) : atoiS ty flag s = .ok (some x) := by
  have hv := signed_valid hty
  have hW : W ≠ 0 := by intro h; have := hv.2.2.2.2.2; simp [h] at this
  have hW2 : W ≤ 2 ^ 63 := by
    simp only [signedTypes, List.mem_cons, List.not_mem_nil, or_false, Prod.mk.injEq] at hty
    rcases hty with ⟨_, rfl⟩ | ⟨_, rfl⟩ | ⟨_, rfl⟩ | ⟨_, rfl⟩ <;> decide
  rw [convertFromInt_eq buf hb x (by omega) (by omega)] at hs
  simp only [Res.ok.injEq] at hs
  subst hs
  have ht : upToNul ((decInt x ++ [0]).take (decInt x).length) = decInt x := by
    simp; exact upToNul_self (decInt_noNul x)
  simp only [atoiS]
  rw [(convertToInt_spec ty W hv flag _ _ (by simp)).2, ht]
  · simp only [decInt]
    split
    · show report flag (Option.map _ (parseNat 10 W _)) = _
      rw [parseNat_eq _ _ _ (dec_ne_nil _), valFrom_dec]
      simp only [cap, Option.filter]
      rw [if_pos (by simp; omega)]
      simp only [Option.map_some, report, Res.ok.injEq, Option.some.injEq]
      omega
    · rw [parseInt_nonneg, parseNat_eq _ _ _ (dec_ne_nil _), valFrom_dec]
      · simp only [cap, Option.filter]
        rw [if_pos (by simp; omega)]
        simp only [Option.map_some, report, Res.ok.injEq, Option.some.injEq]
        omega
      · intro e
        have h45 : (45 : UInt8) ∈ dec x.toNat := List.mem_of_mem_head? (by rw [e]; rfl)
        have hval := valFrom_dec x.toNat
        cases hd : dec x.toNat with
        | nil => rw [hd] at e; simp at e
        | cons c t =>
          rw [hd] at e hval
          simp at e; subst e
          simp [valFrom, digit?] at hval
  · rw [ht]
    rintro ⟨k, d, c, r, e, hd⟩
    simp only [decInt] at e
    split at e
    · simp only [List.cons.injEq, true_and] at e
      have hval := valFrom_dec (-x).toNat
      rw [e, List.append_assoc, valFrom_zeros _ _ (by omega), (canonical_dec hW hd).1,
        valFrom_append, valFrom_dec] at hval
      simp only [Option.bind_some, valFrom] at hval
      cases hdg : digit? c with
      | none => simp [hdg] at hval
      | some d =>
        simp only [hdg] at hval
        split at hval
        · have := valFrom_ge (by omega) hval
          omega
        · simp at hval
    · have hval := valFrom_dec x.toNat
      rw [e] at hval
      simp [valFrom, digit?] at hval

/-- C06.  Unsigned. -/
theorem C06_unsigned (ty : Atoi.UInt) (hty : ty ∈ [uint8, uint16, uint32, uint64]) (flag : Bool)
    (buf s : List UInt8) (hb : buf.length = 40) (x : Nat) (h : x ≤ ty.hi)
    (hs : convertFromUint buf x = .ok s) : atoiU ty flag s = .ok (some x) := by
  have h64 : ty.hi < 2 ^ 64 ∧ ty.Valid := by
    simp only [List.mem_cons, List.not_mem_nil, or_false] at hty
    rcases hty with rfl | rfl | rfl | rfl <;> decide
  rw [convertFromUint_eq buf hb x (by omega)] at hs
  simp only [Res.ok.injEq] at hs
  subst hs
  simp only [atoiU]
  rw [convertToUint_spec ty h64.2 flag _ _ (by simp)]
  have ht : upToNul ((dec x ++ [0]).take (dec x).length) = dec x := by
    simp; exact upToNul_self (dec_noNul x)
  rw [ht, parseNat_eq _ _ _ (dec_ne_nil _), valFrom_dec]
  simp only [cap, Option.filter]
  rw [if_pos (by simpa using h)]
  rfl

example : (sint64, 2 ^ 63) ∈ signedTypes := by simp [signedTypes]
example : convertFromInt (List.replicate 40 0) (-2 ^ 63) =
    .ok "-9223372036854775808".toUTF8.data.toList := by decide +kernel

/-! ## C07 -/

/-- C07.  `hextoi` accepts exactly the in-range hexadecimal numerals and returns their value, for
every type (all maxima `2^k - 1` with `k ≥ 4` satisfy the hypothesis) and every readable range. -/
theorem C07_hextoi (hi : Nat) (hhi : (hi + 1) % 16 = 0) (flag : Bool) (mem : List UInt8)
    (size : Nat) (h : size ≤ mem.length) :
    Reported flag (parseNat 16 hi (upToNul (mem.take size))) (convertHexToInt hi flag mem size) := by
  rw [convertHexToInt_spec hi hhi flag mem size h]
  exact reported_report flag _

/-- C07.  `hextoi` of a NUL-terminated text without its size, as `C05_cstring_unsigned`. -/
theorem C07_cstring (hi : Nat) (hhi : (hi + 1) % 16 = 0) (flag : Bool) (s e : List UInt8) (hs : 0 ∉ s) (size : Nat)
    (h : s.length < size) (h16 : 16 ≤ size) :
    ReportedC flag (s.length + 1 + e.length) (parseNat 16 hi s) (convertHexToInt hi flag (s ++ 0 :: e) size) := by
  rw [convertHexToInt_cstr hi hhi flag s e hs size h h16]
  exact reportedC flag _ _

/-- C07.  `hextoi` inverts `itohex` (any case, with or without zero padding). -/
theorem C07_roundtrip (hi size x : Nat) (hhi : (hi + 1) % 16 = 0) (u z flag : Bool)
    (hx : x ≤ hi) (hsize : x < 16 ^ (size * 2)) (hs : 0 < size) :
    hextoiS hi flag (itohex size x u z) = .ok (some x) := by
  simp only [hextoiS]
  have key : ∀ d : List UInt8, d ≠ [] → value? 16 d = some x → (∀ c ∈ d, c ≠ 0) →
      convertHexToInt hi flag (d ++ [0]) d.length = .ok (some x) := by
    intro d hd hv hn
    rw [convertHexToInt_spec hi hhi flag _ _ (by simp)]
    have ht : upToNul ((d ++ [0]).take d.length) = d := by simp; exact upToNul_self hn
    rw [ht]
    simp [parseNat, hd, hv, hx, report]
  have h0 : ∀ y, hexChar u y ≠ 0 := by
    intro y e
    have := isDig_hex u y
    rw [e] at this
    simp [digit?] at this
  cases z with
  | false =>
    rw [itohex_noZero]
    exact key _ digs_ne_nil (value_digs (by omega) (isDig_hex u) x)
      (digs_noNul (by omega) _ (isDig_hex u))
  | true =>
    rw [itohex_zero]
    refine key _ ?_ (by rw [value_fixed (by omega) (isDig_hex u), Nat.mod_eq_of_lt hsize]) ?_
    · intro e
      have := @fixed_length 16 (hexChar u) (size * 2) x
      rw [e] at this; simp at this; omega
    · generalize size * 2 = k
      clear hsize
      have : ∀ x, ∀ c ∈ fixed 16 (hexChar u) k x, c ≠ 0 := by
        induction k with
        | zero => intro x c hc; simp [fixed] at hc
        | succ k ih =>
          intro x c hc
          rcases List.mem_append.mp hc with hc | hc
          · exact ih _ c hc
          · simp at hc; rw [hc]; exact h0 x
      exact this x

example : hextoiS 255 true "fF".toUTF8.data.toList = .ok (some 255) := by decide +kernel
example : hextoiS 255 true "100".toUTF8.data.toList = .ok none := by decide +kernel
example : (2 ^ 64 - 1 + 1) % 16 = 0 ∧ (127 + 1) % 16 = 0 := by decide

#print axioms C04_uintToDec
#print axioms C04_uintToHex
#print axioms C04_uintToBin
#print axioms C04_intToDec
#print axioms C04_intToDec_int_min_ub
#print axioms C04_itoa_unsigned
#print axioms C04_itoa_signed
#print axioms C04_itohex
#print axioms C04_itobin
#print axioms C04_itobin_signed
#print axioms C04_finding_itobin_negative
#print axioms C04_finding_itohex_negative
#print axioms C04_itohex_signed
#print axioms C04_itoaWithZero
#print axioms C05_atoi_unsigned
#print axioms C05_atoi_signed_partial
#print axioms C05_min_then_more_accepted
#print axioms C05_full_statement_fails
#print axioms C05_cstring_overread
#print axioms C05_cstring_unsigned
#print axioms C05_cstring_signed_partial
#print axioms C06_signed
#print axioms C06_unsigned
#print axioms C07_hextoi
#print axioms C07_cstring
#print axioms C07_roundtrip

end Verif.Props.Numeral
