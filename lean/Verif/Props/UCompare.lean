import Verif.Model.UCompare
import Verif.Proof.UString
set_option linter.unusedSimpArgs false

/-! # C133: comparing parts of strings, moving strings, and strings as keys of a hash table -/
namespace Verif.Props.UCompare
open Verif Verif.UString Verif.UCompare Verif.Spec.UString

/-- The at most `n` characters of `a` from position `off` on. -/
def Part (a : List Int) (off n : Nat) (p : List Int) : Prop :=
  ∃ l r, a = l ++ p ++ r ∧ l.length = off ∧ p.length ≤ n ∧ (p.length < n → r = [])

/-- `r` tells the order of `x` and `y`: negative, zero or positive. -/
def Tells (r : Int) (x y : List Int) : Prop :=
  (r < 0 ↔ Before (· < ·) x y) ∧ (r = 0 ↔ x = y) ∧ (0 < r ↔ Before (· < ·) y x)

theorem part_take (a : List Int) (off n : Nat) (h : off ≤ a.length) : Part a off n ((a.drop off).take n) := by
  refine ⟨a.take off, (a.drop off).drop n, ?_, by simp [h], by simp; omega, fun hn => ?_⟩
  · rw [List.append_assoc, List.take_append_drop, List.take_append_drop]
  · apply List.drop_eq_nil_of_le
    simp only [List.length_take, List.length_drop] at hn ⊢
    omega

theorem part_unique {a p : List Int} {off n : Nat} (h : Part a off n p) : off ≤ a.length ∧ p = (a.drop off).take n := by
  obtain ⟨l, r, rfl, rfl, h1, h2⟩ := h
  refine ⟨by simp, ?_⟩
  rw [List.append_assoc, List.drop_left]
  by_cases h3 : p.length < n
  · rw [h2 h3, List.append_nil, List.take_of_length_le h1]
  · rw [List.take_append_of_le_length (by omega), List.take_of_length_le h1]

theorem tells (x y : List Int) : Tells (compare x y) x y := by
  have h3 := compare_swap x y
  refine ⟨compare_neg x y, compare_zero x y, ?_⟩
  rw [← compare_neg y x]; omega

theorem cstr_some : ∀ (b rest : List Int), (∀ c ∈ b, c ≠ 0) → cstr (b ++ 0 :: rest) = some b
  | [], rest, _ => by simp [cstr]
  | c :: b, rest, h => by
    simp [cstr, h c (by simp), cstr_some b rest fun d hd => h d (by simp [hd])]

/-- C133.  Comparing a part: exactly a position behind the end throws; otherwise the sign is that of the dictionary order of the part and
the other string. -/
theorem C133_part (a b : List Int) (off n : Nat) :
    (compareSub a off n b = .throw ↔ a.length < off) ∧
      ∀ p, Part a off n p → ∃ r, compareSub a off n b = .ok r ∧ Tells r p b := by
  refine ⟨?_, fun p hp => ?_⟩
  · rw [compareSub]; split <;> simp <;> omega
  · obtain ⟨h, rfl⟩ := part_unique hp
    exact ⟨_, by rw [compareSub, if_neg (by omega)], tells _ _⟩

/-- C133.  Comparing two parts. -/
theorem C133_parts (a b : List Int) (off n off' n' : Nat) :
    (compareSub2 a off n b off' n' = .throw ↔ a.length < off ∨ b.length < off') ∧
      ∀ p q, Part a off n p → Part b off' n' q → ∃ r, compareSub2 a off n b off' n' = .ok r ∧ Tells r p q := by
  refine ⟨?_, fun p q hp hq => ?_⟩
  · rw [compareSub2]
    split
    · simp; omega
    · split <;> simp <;> omega
  · obtain ⟨h, rfl⟩ := part_unique hp
    obtain ⟨h', rfl⟩ := part_unique hq
    exact ⟨_, by rw [compareSub2, if_neg (by omega), if_neg (by omega)], tells _ _⟩

/-- C133.  There is a part exactly for the positions up to the end, so the theorems speak of every call. -/
theorem C133_part_exists (a : List Int) (off n : Nat) : (∃ p, Part a off n p) ↔ off ≤ a.length :=
  ⟨fun ⟨_, h⟩ => (part_unique h).1, fun h => ⟨_, part_take a off n h⟩⟩

/-- C133.  Comparing with a C string compares with the characters before the first NUL, and with a range with its `count` characters,
NULs among them; nothing behind is looked at. -/
theorem C133_pointer (a b rest : List Int) (off n : Nat) :
    ((∀ c ∈ b, c ≠ 0) → (∃ r, comparePtr a (b ++ 0 :: rest) = .ok r ∧ Tells r a b) ∧
      (a.length < off → compareSubPtr a off n (b ++ 0 :: rest) = .throw) ∧
      (∀ p, Part a off n p → ∃ r, compareSubPtr a off n (b ++ 0 :: rest) = .ok r ∧ Tells r p b)) ∧
    (a.length < off → compareSubRange a off n (b ++ rest) b.length = .throw) ∧
    ∀ p, Part a off n p → ∃ r, compareSubRange a off n (b ++ rest) b.length = .ok r ∧ Tells r p b := by
  refine ⟨fun hb => ⟨⟨_, by rw [comparePtr, cstr_some b rest hb], tells _ _⟩, fun h => by rw [compareSubPtr, if_pos h], fun p hp => ?_⟩,
    fun h => by rw [compareSubRange, if_pos h], fun p hp => ?_⟩
  · obtain ⟨h, rfl⟩ := part_unique hp
    exact ⟨_, by rw [compareSubPtr, if_neg (by omega), comparePtr, cstr_some b rest hb], tells _ _⟩
  · obtain ⟨h, rfl⟩ := part_unique hp
    exact ⟨_, by rw [compareSubRange, if_neg (by omega), if_neg (by simp), List.take_left], tells _ _⟩

/-- C133.  A text without a terminator, or shorter than the count, is read past its end. -/
theorem C133_unterminated (a mem : List Int) (h : ∀ c ∈ mem, c ≠ 0) : comparePtr a mem = .ub ∧
    ∀ off n count, off ≤ a.length → compareSubPtr a off n mem = .ub ∧ (mem.length < count → compareSubRange a off n mem count = .ub) := by
  have hc : cstr mem = none := by
    clear a
    induction mem with
    | nil => rfl
    | cons c m ih => rw [cstr, if_neg (h c List.mem_cons_self), ih (fun x hx => h x (List.mem_cons_of_mem _ hx))]; rfl
  have hp : ∀ a, comparePtr a mem = .ub := fun a => by rw [comparePtr, hc]
  exact ⟨hp a, fun off n count ho => ⟨by rw [compareSubPtr, if_neg (by omega), hp], fun hl => by rw [compareSubRange, if_neg (by omega), if_pos hl]⟩⟩

/-- C133.  A string can be compared with its own `c_str()` and is found equal exactly if it holds no NUL character. -/
theorem C133_finding_nul (a : List Int) : (∃ r, comparePtr a (a ++ [0]) = .ok r ∧ (r = 0 ↔ ∀ c ∈ a, c ≠ 0)) := by
  have key : ∀ s : List Int, ∃ p, cstr (s ++ [0]) = some p ∧ (∀ c ∈ p, c ≠ 0) ∧ (s ≠ p ∨ ∀ c ∈ s, c ≠ 0) := by
    intro s
    induction s with
    | nil => exact ⟨[], by simp [cstr], by simp, .inr (by simp)⟩
    | cons c s ih =>
      obtain ⟨p, h1, h2, h3⟩ := ih
      by_cases hc : c = 0
      · exact ⟨[], by simp [cstr, hc], by simp, .inl (by simp)⟩
      · refine ⟨c :: p, by simp [cstr, hc, h1], by simp [hc]; exact h2, ?_⟩
        rcases h3 with h3 | h3
        · exact .inl (by simpa using h3)
        · exact .inr (by simp [hc]; exact h3)
  obtain ⟨p, h1, h2, h3⟩ := key a
  refine ⟨compare a p, by rw [comparePtr, h1], (compare_zero a p).trans ⟨fun h => h ▸ h2, fun h => ?_⟩⟩
  rw [cstr_some a [] h] at h1
  exact Option.some.inj h1

/-- C133.  A move gives the target the characters of the source, whatever is left in the source; no other object changes. -/
theorem C133_move (st : Store) (i j : Nat) (b rest : List Int) (hij : i ≠ j) (hi : i < st.length) (hb : st[j]? = some b) :
    (∃ st', moveAssign st i j rest = .ok st' ∧ st'[i]? = some b ∧ ∀ k : Nat, k ≠ i → k ≠ j → st'[k]? = st[k]?) ∧
    (∃ st', moveConstruct st j rest = .ok st' ∧ st'[st.length]? = some b ∧ ∀ k : Nat, k < st.length → k ≠ j → st'[k]? = st[k]?) := by
  have h1 : at? st j = .ok b := by simp [at?, hb]
  refine ⟨⟨(st.set i b).set j rest, ?_, ?_, fun k h1 h2 => ?_⟩, ⟨st.set j rest ++ [b], ?_, ?_, fun k h2 h3 => ?_⟩⟩
  · rw [moveAssign, h1, at?_eq_ok hi]; rfl
  · rw [List.getElem?_set_ne (Ne.symm hij), List.getElem?_set_self hi]
  · rw [List.getElem?_set_ne (Ne.symm h2), List.getElem?_set_ne (Ne.symm h1)]
  · rw [moveConstruct, h1]; rfl
  · simp
  · rw [List.getElem?_append_left (by simpa using h2), List.getElem?_set_ne (Ne.symm h3)]

/-- C133.  `std::move(a) + b` is the concatenation, also with `a` itself on the right; only the object moved from changes. -/
theorem C133_plus_move (st : Store) (i j : Nat) (a b rest : List Int) (ha : st[i]? = some a) (hb : st[j]? = some b) :
    ∃ st', plusMove st i j rest = .ok (a ++ b, st') ∧ ∀ k : Nat, k ≠ i → st'[k]? = st[k]? := by
  have hi : i < st.length := (List.getElem?_eq_some_iff.mp ha).1
  have h1 : at? st i = .ok a := by simp [at?, ha]
  have h2 : at? st j = .ok b := by simp [at?, hb]
  refine ⟨(st.set i (a ++ b)).set i rest, ?_, fun k hk => ?_⟩
  · have h3 : at? (st.set i (a ++ b)) i = .ok (a ++ b) := by simp [at?, hi]
    rw [plusMove, UString.append, h1, h2]
    simp only [Res.ok_bind, Res.pure_eq, Store.put, h3]
  · rw [List.getElem?_set_ne (Ne.symm hk), List.getElem?_set_ne (Ne.symm hk)]

/-! ## Hashes -/

theorem mul_odd_inj {w : Nat} {p q x y : BitVec w} (hpq : p * q = 1#w) (h : x * p = y * p) : x = y := by
  have := congrArg (· * q) h
  simp only [BitVec.mul_assoc, hpq, BitVec.mul_one] at this
  exact this

theorem xor_left_inj {w : Nat} {x y c : BitVec w} (h : x ^^^ c = y ^^^ c) : x = y := by
  have := congrArg (· ^^^ c) h
  simpa [BitVec.xor_assoc] using this

theorem xor_right_inj {w : Nat} {x c d : BitVec w} (h : x ^^^ c = x ^^^ d) : c = d := by
  rw [BitVec.xor_comm x c, BitVec.xor_comm x d] at h
  exact xor_left_inj h

theorem fold_inj {v w : BitVec 64} (h : v ^^^ (v >>> 32) = w ^^^ (w >>> 32)) : v = w := by
  have key : ∀ x : BitVec 64, (x ^^^ (x >>> 32)) ^^^ ((x ^^^ (x >>> 32)) >>> 32) = x := by
    intro x
    rw [BitVec.ushiftRight_xor_distrib, ← BitVec.shiftRight_add]
    have : x >>> (32 + 32) = 0#64 := BitVec.ushiftRight_eq_zero (by decide)
    rw [this, BitVec.xor_zero, BitVec.xor_assoc, BitVec.xor_self, BitVec.xor_zero]
  rw [← key v, ← key w, h]


theorem iter_inj {α β : Type} (f : β → α → β) (hf : ∀ x a b, f a x = f b x → a = b) (l : List α) (a b : β)
    (h : Hash.iter f l a = Hash.iter f l b) : a = b := by
  induction l generalizing a b with
  | nil => exact h
  | cons x l ih => exact hf x _ _ (ih _ _ h)

theorem iter_append {α β : Type} (f : β → α → β) (l m : List α) (a : β) :
    Hash.iter f (l ++ m) a = Hash.iter f m (Hash.iter f l a) := by
  induction l generalizing a with
  | nil => rfl
  | cons x l ih => exact ih _

theorem iter_cons {α β : Type} (f : β → α → β) (c : α) (m : List α) (a : β) : Hash.iter f (c :: m) a = Hash.iter f m (f a c) := rfl

theorem step64_inj {v w c : BitVec 64} (h : Hash.step64 v c = Hash.step64 w c) : v = w :=
  xor_left_inj (mul_odd_inj (q := 0xce965057aff6957b#64) (by decide) h)

theorem step64_char {v c d : BitVec 64} (h : Hash.step64 v c = Hash.step64 v d) : c = d :=
  xor_right_inj (mul_odd_inj (q := 0xce965057aff6957b#64) (by decide) h)

theorem step32_inj {v w c : BitVec 32} (h : Hash.step32 v c = Hash.step32 w c) : v = w :=
  xor_left_inj (mul_odd_inj (q := 0x359c449b#32) (by decide) h)

theorem step32_char {v c d : BitVec 32} (h : Hash.step32 v c = Hash.step32 v d) : c = d :=
  xor_right_inj (mul_odd_inj (q := 0x359c449b#32) (by decide) h)

theorem loop64_inj {α : Type} (conv : α → BitVec 64) (l : List α) (a b : BitVec 64) (h : Hash.loop64 conv l a = Hash.loop64 conv l b) :
    a = b := iter_inj (fun v x => Hash.step64 v (conv x)) (fun _ _ _ e => step64_inj e) l a b h

theorem loop64_append {α : Type} (conv : α → BitVec 64) (l m : List α) (a : BitVec 64) :
    Hash.loop64 conv (l ++ m) a = Hash.loop64 conv m (Hash.loop64 conv l a) := iter_append _ l m a

theorem loop64_cons {α : Type} (conv : α → BitVec 64) (c : α) (m : List α) (a : BitVec 64) :
    Hash.loop64 conv (c :: m) a = Hash.loop64 conv m (Hash.step64 a (conv c)) := by
  rw [Hash.loop64, Hash.loop64, iter_cons]

theorem loop32_inj {α : Type} (conv : α → BitVec 32) (l : List α) (a b : BitVec 32) (h : Hash.loop32 conv l a = Hash.loop32 conv l b) :
    a = b := iter_inj (fun v x => Hash.step32 v (conv x)) (fun _ _ _ e => step32_inj e) l a b h

theorem loop32_append {α : Type} (conv : α → BitVec 32) (l m : List α) (a : BitVec 32) :
    Hash.loop32 conv (l ++ m) a = Hash.loop32 conv m (Hash.loop32 conv l a) := iter_append _ l m a

theorem loop32_cons {α : Type} (conv : α → BitVec 32) (c : α) (m : List α) (a : BitVec 32) :
    Hash.loop32 conv (c :: m) a = Hash.loop32 conv m (Hash.step32 a (conv c)) := by
  rw [Hash.loop32, Hash.loop32, iter_cons]

/-- C133.  `hash64` of two sequences that differ in exactly one element is different, for every seed. -/
theorem C133_hash64_one_place {α : Type} (conv : α → BitVec 64) (l m : List α) (c d : α) (v : BitVec 64) (h : conv c ≠ conv d) :
    Hash.hash64 conv (l ++ c :: m) v ≠ Hash.hash64 conv (l ++ d :: m) v := by
  intro e
  have e := fold_inj e
  rw [loop64_append, loop64_append, loop64_cons, loop64_cons] at e
  exact h (step64_char (loop64_inj conv m _ _ e))

/-- C133.  The same for `hash32`. -/
theorem C133_hash32_one_place {α : Type} (conv : α → BitVec 32) (l m : List α) (c d : α) (v : BitVec 32) (h : conv c ≠ conv d) :
    Hash.hash32 conv (l ++ c :: m) v ≠ Hash.hash32 conv (l ++ d :: m) v := by
  intro e
  rw [Hash.hash32, Hash.hash32, loop32_append, loop32_append, loop32_cons, loop32_cons] at e
  exact h (step32_char (loop32_inj conv m _ _ e))

/-- C133.  Different seeds give different hashes of the same sequence, except that 0 stands for the default seed. -/
theorem C133_hash64_seed {α : Type} (conv : α → BitVec 64) (l : List α) (v w : BitVec 64) (hv : v ≠ 0) (hw : w ≠ 0) (h : v ≠ w) :
    Hash.hash64 conv l v ≠ Hash.hash64 conv l w := by
  intro e
  have e := fold_inj e
  rw [if_neg hv, if_neg hw] at e
  exact h (loop64_inj conv l _ _ e)

/-- C133.  The same for `hash32`. -/
theorem C133_hash32_seed {α : Type} (conv : α → BitVec 32) (l : List α) (v w : BitVec 32) (hv : v ≠ 0) (hw : w ≠ 0) (h : v ≠ w) :
    Hash.hash32 conv l v ≠ Hash.hash32 conv l w := by
  intro e
  rw [Hash.hash32, Hash.hash32, if_neg hv, if_neg hw] at e
  exact h (loop32_inj conv l _ _ e)

theorem ofInt_inj {c d : Int} (hc : -2 ^ 31 ≤ c ∧ c < 2 ^ 31) (hd : -2 ^ 31 ≤ d ∧ d < 2 ^ 31)
    (h : BitVec.ofInt 64 c = BitVec.ofInt 64 d) : c = d := by
  have := congrArg BitVec.toInt h
  rw [BitVec.toInt_ofInt, BitVec.toInt_ofInt, Int.bmod_eq_of_le (by omega) (by omega), Int.bmod_eq_of_le (by omega) (by omega)] at this
  exact this

/-- C133.  Two strings that differ in exactly one character have different hashes. -/
theorem C133_hash_one_place (l m : List Int) (c d : Int) (hc : -2 ^ 31 ≤ c ∧ c < 2 ^ 31) (hd : -2 ^ 31 ≤ d ∧ d < 2 ^ 31) (h : c ≠ d) :
    hashString (l ++ c :: m) ≠ hashString (l ++ d :: m) :=
  C133_hash64_one_place _ l m c d 0 fun e => h (ofInt_inj hc hd e)

theorem toNat_char {c : Nat} (hc : c < 2 ^ 21) : (BitVec.ofInt 64 (c : Int)).toNat = c := by
  rw [BitVec.ofInt_natCast, BitVec.toNat_ofNat]; omega

theorem xor_div (v c : BitVec 64) (hc : c.toNat < 2 ^ 21) : (v ^^^ c).toNat / 2 ^ 21 = v.toNat / 2 ^ 21 := by
  rw [BitVec.toNat_xor, ← Nat.shiftRight_eq_div_pow, Nat.shiftRight_xor_distrib, Nat.shiftRight_eq_div_pow c.toNat, Nat.div_eq_of_lt hc,
    Nat.xor_zero, Nat.shiftRight_eq_div_pow]

theorem arith (a b k1 k2 y1 y2 : Nat) (h1 : a / 2097152 = b / 2097152) (h2 : y1 / 2097152 = y2 / 2097152)
    (e1 : a * 1099511628211 = y1 + 18446744073709551616 * k1) (e2 : b * 1099511628211 = y2 + 18446744073709551616 * k2) : a = b := by
  have h3 : ∃ t : Int, (a : Int) - b = t ∧ -2097152 < t ∧ t < 2097152 := ⟨_, rfl, by omega, by omega⟩
  have h4 : ∃ u : Int, (y1 : Int) - y2 = u ∧ -2097152 < u ∧ u < 2097152 := ⟨_, rfl, by omega, by omega⟩
  obtain ⟨t, ht, h5, h6⟩ := h3
  obtain ⟨u, hu, h7, h8⟩ := h4
  have h9 : t * 1099511628211 = u + 18446744073709551616 * ((k1 : Int) - k2) := by omega
  generalize (k1 : Int) - k2 = k at h9
  have h10 : t * 435 - u = 1099511627776 * (16777216 * k - t) := by omega
  have h11 : 16777216 * k - t = 0 := by omega
  omega

theorem step64_toNat (v c : BitVec 64) : (Hash.step64 v c).toNat = (v ^^^ c).toNat * 1099511628211 % 18446744073709551616 := by
  rw [Hash.step64, BitVec.toNat_mul]
  have h1 : (1099511628211 : BitVec 64).toNat = 1099511628211 := by decide
  have h2 : 2 ^ 64 = 18446744073709551616 := by decide
  rw [h1, h2]

/-- C133.  Two strings of code points that differ in at most two neighbouring characters, for instance with the two exchanged, have different
hashes. -/
theorem C133_hash_two_places (l m : List Int) (c c' d d' : Nat) (hc : c < 2 ^ 21) (hc' : c' < 2 ^ 21) (hd : d < 2 ^ 21) (hd' : d' < 2 ^ 21)
    (h : (c, c') ≠ (d, d')) :
    hashString (l ++ (c : Int) :: (c' : Int) :: m) ≠ hashString (l ++ (d : Int) :: (d' : Int) :: m) := by
  intro e
  by_cases hcd : c = d
  · subst hcd
    have : c' ≠ d' := fun e => h (by rw [e])
    refine C133_hash_one_place (l ++ [(c : Int)]) m c' d' (by omega) (by omega) (by omega) ?_
    simpa using e
  · have e := fold_inj e
    rw [loop64_append, loop64_append, loop64_cons, loop64_cons, loop64_cons, loop64_cons] at e
    have e := mul_odd_inj (q := 0xce965057aff6957b#64) (by decide) (loop64_inj _ m _ _ e)
    generalize Hash.loop64 _ l _ = v at e
    have t := congrArg (fun x : BitVec 64 => x.toNat / 2 ^ 21) e
    rw [xor_div _ _ (by rw [toNat_char hc']; exact hc'), xor_div _ _ (by rw [toNat_char hd']; exact hd')] at t
    have ec := xor_div v (BitVec.ofInt 64 (c : Int)) (by rw [toNat_char hc]; exact hc)
    have ed := xor_div v (BitVec.ofInt 64 (d : Int)) (by rw [toNat_char hd]; exact hd)
    have eq : v ^^^ BitVec.ofInt 64 (c : Int) = v ^^^ BitVec.ofInt 64 (d : Int) := by
      apply BitVec.eq_of_toNat_eq
      have ex := ec.trans ed.symm
      rw [step64_toNat, step64_toNat] at t
      generalize (v ^^^ BitVec.ofInt 64 (c : Int)).toNat = x at ex t
      generalize (v ^^^ BitVec.ofInt 64 (d : Int)).toNat = y at ex t
      have p21 : 2 ^ 21 = 2097152 := by decide
      rw [p21] at ex t
      exact arith x y (x * 1099511628211 / 18446744073709551616) (y * 1099511628211 / 18446744073709551616) _ _ ex t
        (by rw [Nat.mod_add_div]) (by rw [Nat.mod_add_div])
    have := congrArg BitVec.toNat (xor_right_inj eq)
    rw [toNat_char hc, toNat_char hd] at this
    exact hcd this

/-! Concrete cases. -/
example : Part [97, 98, 99, 100] 1 2 [98, 99] ∧ Part [97, 98, 99, 100] 3 9 [100] ∧ Part [97] 1 5 [] :=
  ⟨⟨[97], [100], rfl, rfl, by decide, by decide⟩, ⟨[97, 98, 99], [], rfl, rfl, by decide, by decide⟩, ⟨[97], [], rfl, rfl, by decide, by decide⟩⟩
example : compareSub [97, 98, 99] 1 1 [98] = .ok 0 ∧ compareSub2 [97, 98, 99] 1 2 [98, 99] 0 1 = .ok 1 ∧ compareSub [97] 2 1 [98] = .throw := by
  decide
example : comparePtr [97, 0] [97, 0, 0] = .ok 1 ∧ compareSubRange [97, 0] 0 2 [97, 0, 0] 2 = .ok 0 := by decide
example : moveAssign [[97], [98]] 0 1 [] = .ok [[98], []] ∧ plusMove [[97], [98]] 0 0 [] = .ok ([97, 97], [[], [98]]) := ⟨rfl, rfl⟩
example : ((12354, 12356) : Nat × Nat) ≠ (12356, 12354) ∧ 12356 < 2 ^ 21 := by decide

#print axioms C133_part
#print axioms C133_parts
#print axioms C133_part_exists
#print axioms C133_pointer
#print axioms C133_finding_nul
#print axioms C133_move
#print axioms C133_plus_move
#print axioms C133_hash64_one_place
#print axioms C133_hash32_one_place
#print axioms C133_hash64_seed
#print axioms C133_hash32_seed
#print axioms C133_hash_one_place
#print axioms C133_hash_two_places
#print axioms C133_unterminated

end Verif.Props.UCompare
