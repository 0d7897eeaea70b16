import Verif.Model.Itoa
import Verif.Spec.Numeral

set_option linter.unusedSimpArgs false

namespace Verif.Itoa
open Verif.Spec.Numeral

/-- Digits of `x`, most significant first. -/
def digs (b : Nat) (dig : Nat → UInt8) (x : Nat) : List UInt8 :=
  if h : 2 ≤ b ∧ b ≤ x then digs b dig (x / b) ++ [dig x] else [dig x]
  termination_by x
  decreasing_by exact Nat.div_lt_self (by omega) (by omega)

theorem digs_lt {b x : Nat} {dig : Nat → UInt8} (h : x < b) : digs b dig x = [dig x] := by
  rw [digs]; simp; omega

theorem digs_ge {b x : Nat} {dig : Nat → UInt8} (hb : 2 ≤ b) (h : b ≤ x) :
    digs b dig x = digs b dig (x / b) ++ [dig x] := by
  rw [digs]; simp [hb, h]

theorem digs_ne_nil {b x : Nat} {dig : Nat → UInt8} : digs b dig x ≠ [] := by
  rw [digs]; split <;> simp

theorem digs_pos {b x : Nat} {dig : Nat → UInt8} : 0 < (digs b dig x).length :=
  List.length_pos_iff.mpr digs_ne_nil

/-- A digit function for base `b`. -/
def IsDig (b : Nat) (dig : Nat → UInt8) : Prop := ∀ x, digit? (dig x) = some (x % b)

theorem value_snoc {b : Nat} {s : List UInt8} {c : UInt8} {v d : Nat} (hv : value? b s = some v)
    (hc : digit? c = some d) (hd : d < b) : value? b (s ++ [c]) = some (v * b + d) := by
  simp only [value?] at *
  rw [List.foldl_append, hv]
  simp [hc, hd]

theorem value_digs {b : Nat} {dig : Nat → UInt8} (hb : 2 ≤ b) (hd : IsDig b dig) (x : Nat) :
    value? b (digs b dig x) = some x := by
  induction x using Nat.strongRecOn with
  | ind x ih =>
    have hm : x % b < b := Nat.mod_lt _ (by omega)
    by_cases h : x < b
    · rw [digs_lt h]
      have := value_snoc (b := b) (s := []) (v := 0) (by rfl) (hd x) hm
      simpa [Nat.mod_eq_of_lt h] using this
    · rw [digs_ge hb (by omega)]
      rw [value_snoc (ih _ (Nat.div_lt_self (by omega) (by omega))) (hd x) hm]
      rw [Nat.mul_comm, Nat.div_add_mod]

theorem digit_48 : digit? 48 = some 0 := by decide

theorem head_digs {b : Nat} {dig : Nat → UInt8} (hb : 2 ≤ b) (hd : IsDig b dig) (x : Nat)
    (hx : x ≠ 0) : (digs b dig x).head? ≠ some 48 := by
  induction x using Nat.strongRecOn with
  | ind x ih =>
    by_cases h : x < b
    · rw [digs_lt h]
      simp only [List.head?_cons]
      intro e
      have := hd x
      simp only [Option.some.injEq] at e
      rw [e, digit_48, Nat.mod_eq_of_lt h] at this
      simp at this; omega
    · rw [digs_ge hb (by omega)]
      have := ih (x / b) (Nat.div_lt_self (by omega) (by omega))
        (Nat.ne_of_gt (Nat.div_pos (by omega) (by omega)))
      rw [List.head?_append]
      cases h' : (digs b dig (x / b)).head? with
      | none => simp [digs_ne_nil] at h'
      | some c => rw [h'] at this; simpa using this

theorem canonical_digs {b : Nat} {dig : Nat → UInt8} (hb : 2 ≤ b) (hd : IsDig b dig) (x : Nat) :
    Canonical b (digs b dig x) x := by
  refine ⟨digs_ne_nil, value_digs hb hd x, fun h => ?_⟩
  by_cases hx : x = 0
  · subst hx; rw [digs_lt (by omega)]; rfl
  · exact absurd h (head_digs hb hd x hx)

theorem loop_ok {b N : Nat} {dig : Nat → UInt8} {next : Nat → Nat} (hb : 2 ≤ b)
    (hn : ∀ x, next x = x / b) (left : Nat) (buf : List UInt8) (x : Nat)
    (hl : left ≤ buf.length) (hN : left ≤ N) (hd : (digs b dig x).length ≤ left) :
    loop N dig next left buf x =
        (buf.take (left - (digs b dig x).length) ++ digs b dig x ++ buf.drop left,
          N - left + (digs b dig x).length) := by
  induction left generalizing buf x with
  | zero => have := @digs_pos b x dig; omega
  | succ left ih =>
    simp only [loop, hn]
    by_cases h : x < b
    · rw [digs_lt h]
      have h0 : x / b = 0 := Nat.div_eq_of_lt h
      simp only [h0, if_true, List.length_singleton, Nat.add_sub_cancel]
      refine Prod.ext ?_ (by simp; omega)
      simp only
      rw [List.set_eq_take_append_cons_drop]
      simp; omega
    · have h0 : x / b ≠ 0 := Nat.ne_of_gt (Nat.div_pos (by omega) (by omega))
      simp only [h0, if_false]
      have e := digs_ge (dig := dig) hb (show b ≤ x by omega)
      have el : (digs b dig x).length = (digs b dig (x / b)).length + 1 := by rw [e]; simp
      rw [ih _ _ (by simp; omega) (by omega) (by omega)]
      refine Prod.ext ?_ (by simp; omega)
      simp only [e]
      have e2 : left + 1 - (digs b dig (x / b) ++ [dig x]).length
          = left - (digs b dig (x / b)).length := by simp
      rw [e2, List.set_eq_take_append_cons_drop]
      have hlt : left < buf.length := by omega
      simp only [hlt, if_true]
      rw [List.take_append_of_le_length (by simp; omega), List.take_take,
        List.drop_append_of_le_length (by simp; omega)]
      have e3 : min (left - (digs b dig (x / b)).length) left
          = left - (digs b dig (x / b)).length := by omega
      rw [e3]
      simp

theorem loop_fail {b N : Nat} {dig : Nat → UInt8} {next : Nat → Nat} (hb : 2 ≤ b)
    (hn : ∀ x, next x = x / b) (left : Nat) (buf : List UInt8) (x : Nat)
    (hd : left < (digs b dig x).length) :
    (loop N dig next left buf x).2 = 0 := by
  induction left generalizing buf x with
  | zero => simp [loop]
  | succ left ih =>
    simp only [loop, hn]
    by_cases h : x < b
    · rw [digs_lt h] at hd; simp at hd
    · have h0 : x / b ≠ 0 := Nat.ne_of_gt (Nat.div_pos (by omega) (by omega))
      simp only [h0, if_false]
      apply ih
      rw [digs_ge hb (by omega)] at hd
      simp at hd; omega

theorem loop_length {N : Nat} {dig : Nat → UInt8} {next : Nat → Nat} (left : Nat)
    (buf : List UInt8) (x : Nat) : (loop N dig next left buf x).1.length = buf.length := by
  induction left generalizing buf x with
  | zero => rfl
  | succ left ih =>
    simp only [loop]
    split
    · simp
    · rw [ih]; simp

def dec (x : Nat) : List UInt8 := digs 10 (fun x => UInt8.ofNat (48 + x % 10)) x

theorem isDig_dec : IsDig 10 (fun x => UInt8.ofNat (48 + x % 10)) := by
  intro x
  have h : ∀ i, i < 10 → digit? (UInt8.ofNat (48 + i)) = some i := by decide
  exact h _ (Nat.mod_lt _ (by omega))

theorem isDig_hex (u : Bool) : IsDig 16 (hexChar u) := by
  intro x
  have h : ∀ u, ∀ i, i < 16 → digit? ((hexTbl u)[i]?.getD 0) = some i := by decide +kernel
  exact h u _ (Nat.mod_lt _ (by omega))

theorem isDig_bin : IsDig 2 (fun x => UInt8.ofNat (48 + (x &&& 1))) := by
  intro x
  have h : ∀ i, i < 2 → digit? (UInt8.ofNat (48 + i)) = some i := by decide
  have e : x &&& 1 = x % 2 := Nat.and_two_pow_sub_one_eq_mod x 1
  simp only [e]
  exact h _ (Nat.mod_lt _ (by omega))

theorem shr1 (x : Nat) : x >>> 1 = x / 2 := by simp [Nat.shiftRight_eq_div_pow]

/-- Number of digits: below `b ^ k` at most `k` digits. -/
theorem digs_length {b : Nat} {dig : Nat → UInt8} (hb : 2 ≤ b) (k x : Nat) (hk : 0 < k)
    (h : x < b ^ k) : (digs b dig x).length ≤ k := by
  induction k generalizing x with
  | zero => omega
  | succ k ih =>
    by_cases hx : x < b
    · rw [digs_lt hx]; simp
    · rw [digs_ge hb (by omega)]
      have hk0 : 0 < k := by
        rcases Nat.eq_zero_or_pos k with rfl | h'
        · simp at h; omega
        · exact h'
      have : x / b < b ^ k := by
        apply Nat.div_lt_of_lt_mul
        rw [Nat.pow_succ, Nat.mul_comm] at h
        exact h
      have := ih (x / b) hk0 this
      simp; omega

/-- Number of digits: at least `b ^ k` means more than `k` digits. -/
theorem lt_digs_length {b : Nat} {dig : Nat → UInt8} (hb : 2 ≤ b) (k x : Nat)
    (h : b ^ k ≤ x) : k < (digs b dig x).length := by
  induction k generalizing x with
  | zero => exact digs_pos
  | succ k ih =>
    have h1 : 1 ≤ b ^ k := Nat.one_le_pow _ _ (by omega)
    have h2 : b ≤ x := by
      have : b ^ (k + 1) = b ^ k * b := Nat.pow_succ ..
      have := Nat.mul_le_mul_right b h1
      omega
    rw [digs_ge hb h2]
    have : b ^ k ≤ x / b := by
      rw [Nat.le_div_iff_mul_le (by omega)]
      rw [Nat.pow_succ] at h; exact h
    have := ih _ this
    simp; omega

/-! ### fixed-length digit strings -/

/-- The last `k` digits of `x`. -/
def fixed (b : Nat) (dig : Nat → UInt8) : Nat → Nat → List UInt8
  | 0, _ => []
  | k + 1, x => fixed b dig k (x / b) ++ [dig x]

theorem fixed_length {b : Nat} {dig : Nat → UInt8} (k x : Nat) :
    (fixed b dig k x).length = k := by
  induction k generalizing x with
  | zero => rfl
  | succ k ih => simp [fixed, ih]

theorem value_fixed {b : Nat} {dig : Nat → UInt8} (hb : 2 ≤ b) (hd : IsDig b dig) (k x : Nat) :
    value? b (fixed b dig k x) = some (x % b ^ k) := by
  induction k generalizing x with
  | zero => simp [fixed, value?, Nat.mod_one]
  | succ k ih =>
    simp only [fixed]
    rw [value_snoc (ih _) (hd x) (Nat.mod_lt _ (by omega))]
    rw [Nat.pow_succ, Nat.mul_comm (b ^ k) b, Nat.mod_mul, Nat.mul_comm]
    simp [Nat.add_comm]

theorem fixed_eq_digs {b : Nat} {dig : Nat → UInt8} (hb : 2 ≤ b) (k x : Nat)
    (h1 : k = 0 ∨ b ^ k ≤ x) (h2 : x < b ^ (k + 1)) : fixed b dig (k + 1) x = digs b dig x := by
  induction k generalizing x with
  | zero => rw [digs_lt (by simpa using h2)]; rfl
  | succ k ih =>
    have h1 : b ^ (k + 1) ≤ x := by omega
    have hbk : b ≤ b ^ (k + 1) := Nat.le_self_pow (by omega) b
    rw [digs_ge hb (by omega), ← ih]
    · rfl
    · right; rw [Nat.le_div_iff_mul_le (by omega), ← Nat.pow_succ]; exact h1
    · apply Nat.div_lt_of_lt_mul; rw [Nat.mul_comm, ← Nat.pow_succ]; exact h2

theorem set_fixed {b left : Nat} {dig : Nat → UInt8} (out : List UInt8) (x : Nat)
    (h : left + 1 ≤ out.length) :
    fixed b dig left (x / b) ++ (out.set left (dig x)).drop left
      = fixed b dig (left + 1) x ++ out.drop (left + 1) := by
  rw [List.drop_set]
  simp only [Nat.lt_irrefl, if_false, Nat.sub_self, fixed]
  have e : out.drop left = out[left] :: out.drop (left + 1) := List.drop_eq_getElem_cons (by omega)
  rw [e]
  simp only [List.set_cons_zero, List.append_assoc, List.singleton_append]

theorem itohexLoop_eq (u : Bool) (left : Nat) (out : List UInt8) (x : Nat)
    (h : left ≤ out.length) :
    itohexLoop u left out x = fixed 16 (hexChar u) left x ++ out.drop left := by
  induction left generalizing out x with
  | zero => simp [itohexLoop, fixed]
  | succ left ih => rw [itohexLoop, ih _ _ (by simp; omega), set_fixed _ _ h]

theorem itobinLoop_eq (left : Nat) (out : List UInt8) (x : Nat) (h : left ≤ out.length) :
    itobinLoop left out x
      = fixed 2 (fun x => UInt8.ofNat (48 + (x &&& 1))) left x ++ out.drop left := by
  induction left generalizing out x with
  | zero => simp [itobinLoop, fixed]
  | succ left ih =>
    rw [itobinLoop, ih _ _ (by simp; omega), shr1]
    exact set_fixed (dig := fun x => UInt8.ofNat (48 + (x &&& 1))) _ _ h

theorem hexLength_bounds (x : Nat) : ∃ k, getHexLength x = k + 1 ∧
    (k = 0 ∨ 16 ^ k ≤ x) ∧ x < 16 ^ (k + 1) := by
  by_cases h : x = 0
  · exact ⟨0, by simp [getHexLength, h], Or.inl rfl, by simp [h]⟩
  · refine ⟨x.log2 / 4, by simp [getHexLength, h, bsr], Or.inr ?_, ?_⟩
    · have h1 := Nat.log2_self_le h
      have h2 : 2 ^ (4 * (x.log2 / 4)) ≤ 2 ^ x.log2 := Nat.pow_le_pow_right (by omega) (by omega)
      rw [Nat.pow_mul] at h2
      exact Nat.le_trans h2 h1
    · have h1 := @Nat.lt_log2_self x
      have h2 : 2 ^ (x.log2 + 1) ≤ 2 ^ (4 * (x.log2 / 4 + 1)) :=
        Nat.pow_le_pow_right (by omega) (by omega)
      rw [Nat.pow_mul] at h2
      exact Nat.lt_of_lt_of_le h1 h2

theorem binLength_bounds (x : Nat) : ∃ k, getBinLength x = k + 1 ∧
    (k = 0 ∨ 2 ^ k ≤ x) ∧ x < 2 ^ (k + 1) := by
  by_cases h : x = 0
  · exact ⟨0, by simp [getBinLength, h], Or.inl rfl, by simp [h]⟩
  · exact ⟨x.log2, by simp [getBinLength, h, bsr], Or.inr (Nat.log2_self_le h), Nat.lt_log2_self⟩

theorem itohex_noZero (size x : Nat) (u : Bool) :
    itohex size x u false = digs 16 (hexChar u) x := by
  obtain ⟨k, e, h1, h2⟩ := hexLength_bounds x
  simp only [itohex, e]
  rw [if_neg (by simp), itohexLoop_eq _ _ _ _ (by simp), fixed_eq_digs (by omega) k x h1 h2]
  simp

theorem itohex_zero (size x : Nat) (u : Bool) :
    itohex size x u true = fixed 16 (hexChar u) (size * 2) x := by
  simp [itohex]
  rw [itohexLoop_eq _ _ _ _ (by simp)]
  simp

theorem itobin_noZero (size x : Nat) :
    itobin size x false = digs 2 (fun x => UInt8.ofNat (48 + (x &&& 1))) x := by
  obtain ⟨k, e, h1, h2⟩ := binLength_bounds x
  simp only [itobin, e]
  rw [if_neg (by simp), itobinLoop_eq _ _ _ (by simp), fixed_eq_digs (by omega) k x h1 h2]
  simp

theorem itobin_zero (size x : Nat) :
    itobin size x true = fixed 2 (fun x => UInt8.ofNat (48 + (x &&& 1))) (size * 8) x := by
  simp [itobin]
  rw [itobinLoop_eq _ _ _ (by simp)]
  simp

/-! ### decimal conversion of signed values -/

/-- The decimal text of an integer. -/
def decInt (x : Int) : List UInt8 := if x < 0 then 45 :: dec (-x).toNat else dec x.toNat

theorem canonical_decInt (x : Int) : CanonicalInt (decInt x) x := by
  simp only [CanonicalInt, decInt]
  split
  · exact ⟨_, rfl, canonical_digs (by omega) isDig_dec _⟩
  · exact canonical_digs (by omega) isDig_dec _

theorem minStr_eq : minStr = decInt (-9223372036854775808) := by
  simp only [decInt]
  rw [if_pos (by omega)]
  have h : dec 9223372036854775808 = minStr.tail := by
    simp only [dec]
    repeat rw [digs_ge (by omega) (by omega)]
    rw [digs_lt (by omega)]
    decide +kernel
  rw [show (-(-9223372036854775808 : Int)).toNat = 9223372036854775808 by decide, h]
  decide +kernel

theorem uintToDec_ok (buf : List UInt8) (x : Nat) (h : (dec x).length ≤ buf.length) :
    uintToDec buf x = (buf.take (buf.length - (dec x).length) ++ dec x, (dec x).length) := by
  simp only [uintToDec, dec] at *
  rw [loop_ok (by omega) (fun _ => rfl) _ _ _ (Nat.le_refl _) (Nat.le_refl _) h]
  simp

theorem uintToDec_fail (buf : List UInt8) (x : Nat) (h : buf.length < (dec x).length) :
    (uintToDec buf x).2 = 0 := loop_fail (by omega) (fun _ => rfl) _ _ _ h

theorem uintToDec_length (buf : List UInt8) (x : Nat) :
    (uintToDec buf x).1.length = buf.length := loop_length _ _ _

theorem dec_pos {x : Nat} : 0 < (dec x).length := digs_pos

theorem intToDec_ok (lo : Int) (buf : List UInt8) (x : Int)
    (hx : ¬ (x < 0 ∧ x = lo ∧ x ≠ -9223372036854775808))
    (h : (decInt x).length ≤ buf.length) :
    intToDec lo buf x =
      .ok (buf.take (buf.length - (decInt x).length) ++ decInt x, (decInt x).length) := by
  simp only [intToDec]
  by_cases hm : x = -9223372036854775808
  · subst hm
    rw [if_pos rfl, minStr_eq, if_neg (by omega)]
  · rw [if_neg hm, if_neg (fun h' => hx ⟨h'.1, h'.2, hm⟩)]
    by_cases hn : x < 0
    · simp only [decInt, hn, if_true] at h ⊢
      simp only [List.length_cons] at h
      rw [uintToDec_ok _ _ (by omega)]
      have hp := @dec_pos (-x).toNat
      simp only
      rw [if_neg (by omega)]
      rw [if_neg (by simp; omega)]
      simp only [List.length_append, List.length_take, List.length_cons]
      congr 2
      generalize hD : dec (-x).toNat = d at *
      have e1 : min (buf.length - d.length) buf.length + d.length - (d.length + 1)
        = buf.length - (d.length + 1) := by omega
      rw [e1, List.set_append_left _ _ (by simp; omega)]
      have e2 : buf.length - d.length = (buf.length - (d.length + 1)) + 1 := by omega
      rw [e2, List.take_add_one, List.set_append]
      rw [if_neg (by simp)]
      have : buf.length - (d.length + 1) < buf.length := by omega
      have e3 : min (buf.length - (d.length + 1)) buf.length = buf.length - (d.length + 1) := by
        omega
      simp [e3, List.getElem?_eq_getElem this]
    · simp only [decInt, hn, if_false] at h ⊢
      rw [uintToDec_ok _ _ h]
      have hp := @dec_pos x.toNat
      simp only
      rw [if_neg (by omega)]

theorem intToDec_fail (lo : Int) (buf : List UInt8) (x : Int)
    (hx : ¬ (x < 0 ∧ x = lo ∧ x ≠ -9223372036854775808))
    (h : buf.length < (decInt x).length) :
    ∃ buf', intToDec lo buf x = .ok (buf', 0) := by
  simp only [intToDec]
  by_cases hm : x = -9223372036854775808
  · subst hm
    rw [if_pos rfl, minStr_eq, if_pos (by omega)]
    exact ⟨_, rfl⟩
  · rw [if_neg hm, if_neg (fun h' => hx ⟨h'.1, h'.2, hm⟩)]
    by_cases hn : x < 0
    · simp only [decInt, hn, if_true] at h ⊢
      simp only [List.length_cons] at h
      by_cases h2 : buf.length < (dec (-x).toNat).length
      · have := uintToDec_fail _ _ h2
        rw [if_pos this]; exact ⟨_, rfl⟩
      · rw [uintToDec_ok _ _ (by omega)]
        have hp := @dec_pos (-x).toNat
        simp only
        rw [if_neg (by omega), if_pos (by simp; omega)]
        exact ⟨_, rfl⟩
    · simp only [decInt, hn, if_false] at h ⊢
      have := uintToDec_fail _ _ h
      rw [if_pos this]; exact ⟨_, rfl⟩

theorem dec_length_64 {x : Nat} (h : x < 2 ^ 64) : (dec x).length ≤ 20 :=
  digs_length (by omega) 20 x (by omega) (by omega)

theorem decInt_length_64 {x : Int} (h1 : -2 ^ 63 ≤ x) (h2 : x < 2 ^ 63) :
    (decInt x).length ≤ 20 := by
  simp only [decInt]
  split
  · simp only [List.length_cons]
    have := digs_length (dig := fun x => UInt8.ofNat (48 + x % 10)) (show 2 ≤ 10 by omega) 19
      (-x).toNat (by omega) (by omega)
    simp only [dec]; omega
  · exact dec_length_64 (by omega)

theorem convertFromUint_eq (buf : List UInt8) (hb : buf.length = 40) (x : Nat) (h : x < 2 ^ 64) :
    convertFromUint buf x = .ok (dec x) := by
  have := dec_length_64 h
  simp only [convertFromUint]
  rw [uintToDec_ok _ _ (by omega)]
  have hp := @dec_pos x
  simp only [gt_iff_lt, hp, if_true, Res.ok.injEq, List.length_append, List.length_take]
  rw [List.drop_append_of_le_length (by simp)]
  have : min (buf.length - (dec x).length) buf.length + (dec x).length - (dec x).length
    = buf.length - (dec x).length := by omega
  simp [this]

theorem decInt_pos {x : Int} : 0 < (decInt x).length := by
  simp only [decInt]; split
  · simp
  · exact dec_pos

theorem convertFromInt_eq (buf : List UInt8) (hb : buf.length = 40) (x : Int)
    (h1 : -2 ^ 63 ≤ x) (h2 : x < 2 ^ 63) :
    convertFromInt buf x = .ok (decInt x) := by
  have := decInt_length_64 h1 h2
  simp only [convertFromInt]
  rw [intToDec_ok _ _ _ (by omega) (by omega)]
  have hp := @decInt_pos x
  simp only [Res.ok_bind, gt_iff_lt, hp, if_true, Res.ok.injEq, List.length_append,
    List.length_take]
  rw [List.drop_append_of_le_length (by simp)]
  have : min (buf.length - (decInt x).length) buf.length + (decInt x).length - (decInt x).length
    = buf.length - (decInt x).length := by omega
  simp [this]

end Verif.Itoa
