import Verif.Proof.BitVector

/-! # C10, C11: BitVector -/
namespace Verif.Props.BitVector
open Verif Verif.BitVector Verif.Spec.BitVector

/-- Calls on a `BitVectorT<T>`.  `appendVec` appends another vector that represents the given bits;
`assign` stands for `o.extract(*this, pos, n)` from another vector. -/
inductive Op (w : Nat) where
  | clear
  | resize (n : Nat)
  | set (i : Nat) (b : Bool)
  | reset (i : Nat)
  | appendPtr (src : List (BitVec w)) (n : Nat)
  | appendWord (x : BitVec 64) (n : Nat)
  | appendVec (o : BV w)
  | extractFrom (o : BV w) (pos n : Nat)

/-- The call on the model. -/
def step {w : Nat} (st : BV w) : Op w → Res (BV w)
  | .clear => .ok (Verif.BitVector.clear st)
  | .resize n => Verif.BitVector.resize st n
  | .set i b => Verif.BitVector.set st i b
  | .reset i => Verif.BitVector.reset st i
  | .appendPtr src n => Verif.BitVector.appendPtr st src n
  | .appendWord x n => Verif.BitVector.appendWord st x n
  | .appendVec o => Verif.BitVector.appendVec st o
  | .extractFrom o pos n => Verif.BitVector.extractVec o st pos n

/-- The bits of a vector as seen through its size and words. -/
def bitsOfBV {w : Nat} (o : BV w) : List Bool := (bitsOf o.v).take o.bitLen

/-- The same call on a plain list of booleans; `none` is an exception.  -/
def specStep {w : Nat} (l : List Bool) : Op w → Option (List Bool)
  | .clear => some []
  | .resize n => some (Spec.BitVector.resize l n)
  | .set i b => if i < l.length then some (l.set i b) else none
  | .reset i => if i < l.length then some (l.set i false) else none
  | .appendPtr src n => some (l ++ (bitsOf src).take n)
  | .appendWord x n => if n ≤ w then some (l ++ (bitsOfWord x).take n) else none
  | .appendVec o => some (l ++ bitsOfBV o)
  | .extractFrom o pos n =>
    if pos + n ≤ o.bitLen ∨ n = 0 then some (range (bitsOfBV o) pos n) else none

/-- A vector in the state every public operation except `init` leaves it in: enough words, zero bits
above the size. -/
def Clean {w : Nat} (o : BV w) : Prop := Rep o (bitsOfBV o)

/-- What a caller has to respect: sizes representable (`size_t` sums do not wrap), source arrays long
enough, other vectors clean, and for `T` narrower than 64 bits no garbage above `T` in `append(uint64_t)`.
`len` is the current size. -/
def Pre {w : Nat} (len : Nat) : Op w → Prop
  | .clear => True
  | .resize n => n + w ≤ 2 ^ 64
  | .set _ _ => True
  | .reset _ => True
  | .appendPtr src n => (n + w - 1) / w ≤ src.length ∧ len + n + w ≤ 2 ^ 64
  | .appendWord x n => len + n + w ≤ 2 ^ 64 ∧ (n ≠ w ∨ w = 64 ∨ x.toNat < 2 ^ w)
  | .appendVec o => Clean o ∧ len + o.bitLen + w ≤ 2 ^ 64
  | .extractFrom o pos n => Clean o ∧ o.bitLen + w ≤ 2 ^ 64 ∧ pos + n < 2 ^ 64 ∧ n + w ≤ 2 ^ 64

theorem take_of_rep {w : Nat} (hw : 0 < w) {st : BV w} {l : List Bool} (h : Rep st l) :
    bitsOfBV st = l := by
  obtain ⟨h1, h2, h3⟩ := h
  have hb : (n : Nat) → n = l.length → ((bitsOf st.v).take n).length = n := by
    intro n hn
    exact len_take_bits (by rw [h2, hn]; exact Nat.le_refl _) hw
  apply list_ext
  · rw [bitsOfBV, h1, hb _ rfl]
  · intro i
    rw [bitsOfBV, getD_take, bitsOf_getD hw, h1, h3]
    split
    · rfl
    · rw [getD_ge (by omega)]

/-- C10.  One call: if the vector represents the list `l`, the call throws exactly when the list
operation fails and otherwise leaves the vector representing the result. -/
theorem C10_step {w : Nat} (hw : 0 < w) (hw64 : w ≤ 64) (st : BV w) (l : List Bool) (h : Rep st l)
    (op : Op w) (hp : Pre l.length op) :
    (∀ l', specStep l op = some l' → ∃ st', step st op = .ok st' ∧ Rep st' l') ∧
    (specStep l op = none → step st op = .throw) := by
  cases op with
  | clear =>
    refine ⟨fun l' h' => ?_, fun h' => by simp [specStep] at h'⟩
    simp only [specStep, Option.some.injEq] at h'
    subst h'
    refine ⟨_, rfl, rfl, ?_, fun i => ?_⟩
    · simp [Verif.BitVector.clear]; exact (Nat.div_eq_of_lt (by omega)).symm
    · simp [Verif.BitVector.clear, bitAt, wd]
  | resize n =>
    refine ⟨fun l' h' => ?_, fun h' => by simp [specStep] at h'⟩
    simp only [specStep, Option.some.injEq] at h'
    subst h'
    exact resize_rep hw h hp
  | set i b =>
    obtain ⟨s1, s2⟩ := set_rep hw h i b
    refine ⟨fun l' h' => ?_, fun h' => ?_⟩
    · simp only [specStep] at h'
      split at h'
      · cases h'; exact s2 ‹_›
      · cases h'
    · simp only [specStep] at h'
      split at h'
      · cases h'
      · exact s1 (by omega)
  | reset i =>
    obtain ⟨s1, s2⟩ := set_rep hw h i false
    simp only [Verif.BitVector.set, Bool.false_eq_true, if_false] at s1 s2
    refine ⟨fun l' h' => ?_, fun h' => ?_⟩
    · simp only [specStep] at h'
      split at h'
      · cases h'; exact s2 ‹_›
      · cases h'
    · simp only [specStep] at h'
      split at h'
      · cases h'
      · exact s1 (by omega)
  | appendPtr src n =>
    refine ⟨fun l' h' => ?_, fun h' => by simp [specStep] at h'⟩
    simp only [specStep, Option.some.injEq] at h'
    subst h'
    exact appendPtr_rep hw h src n hp.1 hp.2
  | appendWord x n =>
    refine ⟨fun l' h' => ?_, fun h' => ?_⟩
    · simp only [specStep] at h'
      split at h'
      · cases h'
        rename_i hn
        refine appendWord_rep hw hw64 h x n hn hp.1 ?_
        rcases hp.2 with h | h | h
        · left; omega
        · right; intro p hp; exact BitVec.getLsbD_of_ge _ _ (by omega)
        · right; intro p hp
          rw [← BitVec.testBit_toNat]
          exact Nat.testBit_lt_two_pow (Nat.lt_of_lt_of_le h (Nat.pow_le_pow_right (by omega) hp))
      · cases h'
    · simp only [specStep] at h'
      split at h'
      · cases h'
      · simp only [step, Verif.BitVector.appendWord]
        rw [if_neg (by omega), if_pos (by omega)]
  | appendVec o =>
    refine ⟨fun l' h' => ?_, fun h' => by simp [specStep] at h'⟩
    simp only [specStep, Option.some.injEq] at h'
    subst h'
    obtain ⟨o1, o2, o3⟩ := hp.1
    refine appendPtr_rep hw h o.v o.bitLen ?_ hp.2
    rw [o2, ← o1]; exact Nat.le_refl _
  | extractFrom o pos n =>
    obtain ⟨hc, p1, p2, p3⟩ := hp
    have hol : o.bitLen = (bitsOfBV o).length := hc.1
    obtain ⟨s1, s2⟩ := extractVec_rep hw hc h pos n p2 p3 (by rw [← hol]; exact p1)
    refine ⟨fun l' h' => ?_, fun h' => ?_⟩
    · simp only [specStep] at h'
      split at h'
      · cases h'
        rename_i hh
        by_cases hn : n = 0
        · subst hn
          obtain ⟨d1, e1, r1⟩ := resize_rep hw h p3
          refine ⟨d1, by simp [step, extractVec, extractPtr, e1], ?_⟩
          simpa [range, Spec.BitVector.resize] using r1
        · exact s2 (by omega)
      · cases h'
    · simp only [specStep] at h'
      split at h'
      · cases h'
      · exact s1 (by omega) (by omega)

/-- A history: after an exception the vector is used as it was before the call
(`set`/`reset`/`append` check first); a throwing `extract` has already resized its destination, so a
history continues there with the resized vector. -/
def run {w : Nat} (st : BV w) : List (Op w) → Res (BV w)
  | [] => .ok st
  | op :: ops =>
    match step st op with
    | .ok st' => run st' ops
    | .ub => .ub
    | .throw =>
      match op with
      | .extractFrom _ _ n => do run (← Verif.BitVector.resize st n) ops
      | _ => run st ops

/-- The history on lists. -/
def specRun {w : Nat} (l : List Bool) : List (Op w) → List Bool
  | [] => l
  | op :: ops =>
    match specStep l op with
    | some l' => specRun l' ops
    | none =>
      match op with
      | .extractFrom _ _ n => specRun (Spec.BitVector.resize l n) ops
      | _ => specRun l ops

/-- The preconditions hold along a history. -/
def PreAll {w : Nat} (l : List Bool) : List (Op w) → Prop
  | [] => True
  | op :: ops => Pre l.length op ∧ PreAll (specRun l [op]) ops

/-- C10.  Every history of calls, starting from any represented vector, ends in a vector that
represents the list given by the same calls on lists; it never reaches undefined behaviour. -/
theorem C10_history {w : Nat} (hw : 0 < w) (hw64 : w ≤ 64) (ops : List (Op w)) :
    ∀ (st : BV w) (l : List Bool), Rep st l → PreAll l ops →
      ∃ st', run st ops = .ok st' ∧ Rep st' (specRun l ops) := by
  induction ops with
  | nil => intro st l h _; exact ⟨st, rfl, h⟩
  | cons op ops ih =>
    intro st l h hp
    obtain ⟨s1, s2⟩ := C10_step hw hw64 st l h op hp.1
    have hp2 := hp.2
    cases hs : specStep l op with
    | some l' =>
      obtain ⟨st', e, r⟩ := s1 l' hs
      simp only [run, e, specRun, hs] at hp2 ⊢
      exact ih st' l' r hp2
    | none =>
      have e := s2 hs
      cases op with
      | extractFrom o pos n =>
        obtain ⟨d, e1, r1⟩ := resize_rep hw h (n := n) hp.1.2.2.2
        simp only [run, e, specRun, hs, e1, Res.ok_bind] at hp2 ⊢
        exact ih d _ r1 hp2
      | clear => simp only [run, e, specRun, hs] at hp2 ⊢; exact ih st l h hp2
      | resize n => simp only [run, e, specRun, hs] at hp2 ⊢; exact ih st l h hp2
      | set i b => simp only [run, e, specRun, hs] at hp2 ⊢; exact ih st l h hp2
      | reset i => simp only [run, e, specRun, hs] at hp2 ⊢; exact ih st l h hp2
      | appendPtr src n => simp only [run, e, specRun, hs] at hp2 ⊢; exact ih st l h hp2
      | appendWord x n => simp only [run, e, specRun, hs] at hp2 ⊢; exact ih st l h hp2
      | appendVec o => simp only [run, e, specRun, hs] at hp2 ⊢; exact ih st l h hp2

theorem rep_empty {w : Nat} (hw : 0 < w) : Rep (empty : BV w) [] := by
  refine ⟨rfl, ?_, fun i => ?_⟩
  · simp [empty]; exact (Nat.div_eq_of_lt (by omega)).symm
  · simp [empty, bitAt, wd]

/-- C10, read side.  A represented vector answers `size` and `get` as the list. -/
theorem C10_observe {w : Nat} (hw : 0 < w) (st : BV w) (l : List Bool) (h : Rep st l) :
    st.bitLen = l.length ∧ bitsOfBV st = l ∧
    ∀ i, Verif.BitVector.get st i = match l[i]? with | some b => .ok b | none => .throw :=
  ⟨h.1, take_of_rep hw h, get_rep hw h⟩

/-- C10.  `extract(T*, pos, n)` into a caller's array: the bits of the range, zeros up to the end of
the last word written, later words untouched.  Partial: the caller's `pos + n` must not wrap around
`2^64` (see `C10_extract_wrap_ub`). -/
theorem C10_extractPtr_partial {w : Nat} (hw : 0 < w) (st : BV w) (l : List Bool) (h : Rep st l)
    (dst : List (BitVec w)) (pos n : Nat) (hdst : (n + w - 1) / w ≤ dst.length)
    (hov : pos + n < 2 ^ 64) (hl : l.length + w ≤ 2 ^ 64) :
    (n ≠ 0 → l.length < pos + n → extractPtr st dst pos n = .throw) ∧
    (pos + n ≤ l.length →
      ∃ dst', extractPtr st dst pos n = .ok dst' ∧
        bitsOf dst' = range l pos n ++ List.replicate ((n + w - 1) / w * w - n) false ++
          (bitsOf dst).drop ((n + w - 1) / w * w)) := by
  obtain ⟨x1, x2⟩ := extractPtr_rep hw h dst pos n hdst hov hl
  refine ⟨x1, fun hc => ?_⟩
  obtain ⟨d, e1, e2, e3⟩ := x2 hc
  refine ⟨d, e1, ?_⟩
  have hlen : (range l pos n).length = n := by simp [range]; omega
  have hge : n ≤ (n + w - 1) / w * w := by
    have h1 := Nat.lt_mul_div_succ (n + w - 1) hw
    rw [Nat.mul_succ, Nat.mul_comm] at h1
    omega
  have hle : (n + w - 1) / w * w ≤ dst.length * w := Nat.mul_le_mul_right w hdst
  apply list_ext
  · simp only [List.length_append, hlen, List.length_replicate, List.length_drop, bitsOf_length, e2]
    omega
  · intro i
    rw [bitsOf_getD hw, getD_append', getD_drop, bitsOf_getD hw, getD_append', getD_replicate]
    simp only [List.length_append, hlen, List.length_replicate]
    obtain ⟨k, p, hp, rfl⟩ := split_index hw i
    rw [bitAt_mul_add hw _ hp, e3 k p hp]
    rw [show n + ((n + w - 1) / w * w - n) = (n + w - 1) / w * w + 0 by omega]
    by_cases hk : k < (n + w - 1) / w
    · rw [if_pos hk, if_pos ((lt_iff hp hw).mpr (Or.inl hk))]
      split
      · rfl
      · rw [getD_ge (by omega)]
    · have := Nat.mul_le_mul_right w (show (n + w - 1) / w ≤ k by omega)
      rw [if_neg hk, if_neg (by omega), ← bitAt_mul_add hw _ hp]
      congr 1; omega

/-- C10.  `T extract(pos, n)`.  Partial for the same reason. -/
theorem C10_extractWord_partial {w : Nat} (hw : 0 < w) (st : BV w) (l : List Bool) (h : Rep st l)
    (pos n : Nat) (hov : pos + n < 2 ^ 64) :
    (n ≠ 0 → (w < n ∨ l.length < pos + n) → extractWord st pos n = .throw) ∧
    (n ≤ w → pos + n ≤ l.length → ∃ x, extractWord st pos n = .ok x ∧
      bitsOfWord x = range l pos n ++ List.replicate (w - n) false) := by
  obtain ⟨x1, x2⟩ := extractWord_rep hw h pos n hov
  refine ⟨x1, fun hn hc => ?_⟩
  obtain ⟨x, e1, e2⟩ := x2 hn hc
  refine ⟨x, e1, ?_⟩
  have hlen : (range l pos n).length = n := by simp [range]; omega
  apply list_ext
  · simp [bitsOfWord, hlen]; omega
  · intro i
    rw [getD_append', getD_replicate, ← e2, hlen, ← bitsOf_single, bitsOf_getD hw]
    by_cases hi : i < w
    · have : bitAt [x] i = x.getLsbD i := by
        rw [bitAt, Nat.div_eq_of_lt hi, Nat.mod_eq_of_lt hi]; rfl
      rw [this]
      split
      · rfl
      · rw [e2, getD_ge (by omega)]
    · rw [bitAt_ge hw (by simp; omega), if_neg (by omega)]

/-- C10 (finding).  `init` copies whole words and keeps the bits above the size: after
`init({0xff}, 3)` and `resize(8)`, bit 5 reads as 1 though it was never part of the vector. -/
theorem C10_init_keeps_stale_bits :
    (do let a ← init (empty : BV 64) [0xff] 3
        let b ← Verif.BitVector.resize a 8
        Verif.BitVector.get b 5) = .ok true ∧
    (Spec.BitVector.resize ((bitsOf [(0xff : BitVec 64)]).take 3) 8)[5]? = some false := by
  decide +kernel

/-- C10 (finding).  `BitVectorT<uint32_t>::append(uint64_t, 32)` does not cut the argument to 32 bits
when the vector is not word-aligned: bits above the new size are set. -/
theorem C10_append32_keeps_garbage :
    (do let a ← appendWord (empty : BV 32) 0 4
        let b ← appendWord a 0xff00000000 32
        let c ← Verif.BitVector.resize b 40
        Verif.BitVector.get c 36) = .ok true ∧
    (Spec.BitVector.resize (List.replicate 4 false ++ (bitsOfWord (0xff00000000 : BitVec 64)).take 32) 40)[36]?
      = some false := by
  decide +kernel

/-- C10 (finding).  The range check of `extract` wraps around: the call reads outside the vector
instead of throwing. -/
theorem C10_extract_wrap_ub :
    (do let a ← Verif.BitVector.resize (empty : BV 64) 10
        extractWord a (2 ^ 64 - 1) 2) = .ub := by
  decide +kernel

/-- C10 (finding).  `RoundupBit` wraps around: `resize(2^64 - 1)` allocates nothing and then writes
before the start of the storage. -/
theorem C10_resize_wrap : Verif.BitVector.resize (empty : BV 64) (2 ^ 64 - 1) = .ub := by
  decide +kernel

/-- C11, partial.  On clean vectors of equal size, `==` is equality of the bits.  Missing: different
sizes (next theorem) and vectors filled by `init` (the one after). -/
theorem C11_eq_partial {w : Nat} (hw : 0 < w) (a b : BV w) (l m : List Bool) (ha : Rep a l)
    (hb : Rep b m) (hl : l.length = m.length) : eq a b = true ↔ l = m := by
  have hlen : a.v.length = b.v.length := by rw [ha.2.1, hb.2.1, hl]
  simp only [eq, beq_iff_eq]
  constructor
  · intro h
    apply list_ext hl
    intro i
    rw [← ha.2.2, ← hb.2.2, h]
  · rintro rfl
    exact eq_of_bits hw hlen fun i => (ha.2.2 i).trans (hb.2.2 i).symm

/-- C11 (finding).  `==` ignores the size: `0` and `00` compare equal. -/
theorem C11_length_ignored :
    ∃ a b : BV 64, Verif.BitVector.resize empty 1 = .ok a ∧ Verif.BitVector.resize empty 2 = .ok b ∧
      eq a b = true ∧ bitsOfBV a ≠ bitsOfBV b :=
  ⟨⟨1, [0]⟩, ⟨2, [0]⟩, by decide +kernel, by decide +kernel, by decide +kernel, by decide +kernel⟩

/-- C11 (finding).  After `init` with bits above the size, vectors with equal contents compare
different. -/
theorem C11_init_breaks_eq :
    ∃ a b : BV 64, init empty [0xff] 3 = .ok a ∧ init empty [0x07] 3 = .ok b ∧
      bitsOfBV a = bitsOfBV b ∧ eq a b = false :=
  ⟨⟨3, [0xff]⟩, ⟨3, [0x07]⟩, by decide +kernel, by decide +kernel, by decide +kernel, by decide +kernel⟩

/-- A history over word and bit boundaries that meets the preconditions. -/
example : PreAll ([] : List Bool)
    [Op.appendPtr [(5 : BitVec 64), 6] 70, .set 69 true, .set 70 true, .appendWord 0x1ff 9,
      .resize 100, .reset 3] := by
  simp [PreAll, Pre, specRun, specStep]
  decide +kernel
example : run (empty : BV 8) [Op.appendPtr [0xff, 0x01] 9, .appendWord 0x5 3, .resize 14, .set 13 true,
    .set 14 true] = .ok ⟨14, [0xff, 0x2b]⟩ := by decide +kernel

#print axioms C10_step
#print axioms C10_history
#print axioms C10_observe
#print axioms C10_extractPtr_partial
#print axioms C10_extractWord_partial
#print axioms C10_init_keeps_stale_bits
#print axioms C10_append32_keeps_garbage
#print axioms C10_extract_wrap_ub
#print axioms C10_resize_wrap
#print axioms C11_eq_partial
#print axioms C11_length_ignored
#print axioms C11_init_breaks_eq

end Verif.Props.BitVector
