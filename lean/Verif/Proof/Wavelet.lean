import Verif.Model.Wavelet
import Verif.Spec.Wavelet
import Verif.Proof.SucVectorTop
import Verif.Proof.BitVector
set_option linter.unusedSimpArgs false

/-! Lemmas for C14: the levels of the wavelet matrix. -/
namespace Verif.Wavelet
open Verif.BitVector (BV setAt? setAt?_ok)
open Verif.SucVector (SV sub64 sub64_eq getBlockNum NotFound rank_both)
open Verif.Spec.SucVector (rankOf)
open Verif.Spec.BitVector (bitsOf)

/-- The stable partition by bit `k`. -/
def part (k : Nat) (c : List Nat) : List Nat := c.filter (fun x => !x.testBit k) ++ c.filter (fun x => x.testBit k)

/-- Number of elements with bit `k` clear. -/
def zeros (k : Nat) (c : List Nat) : Nat := c.countP fun x => !x.testBit k

def ones (k : Nat) (c : List Nat) : Nat := c.countP fun x => x.testBit k

theorem zeros_ones (k : Nat) (c : List Nat) : zeros k c + ones k c = c.length := by
  induction c with
  | nil => rfl
  | cons x c ih =>
    simp only [zeros, ones, List.countP_cons, List.length_cons] at *
    cases x.testBit k <;> simp <;> omega

theorem countP_part (q : Nat → Bool) (k : Nat) (c : List Nat) : (part k c).countP q = c.countP q := by
  induction c with
  | nil => rfl
  | cons x c ih =>
    simp only [part, List.countP_append, List.filter_cons, List.countP_cons] at *
    cases x.testBit k <;> simp [List.countP_cons] <;> omega

theorem part_length (k : Nat) (c : List Nat) : (part k c).length = c.length := by
  have := zeros_ones k c
  simp only [part, List.length_append, zeros, ones, List.countP_eq_length_filter] at *
  omega

theorem mem_part {k : Nat} {c : List Nat} {x : Nat} : x ∈ part k c ↔ x ∈ c := by
  simp only [part, List.mem_append, List.mem_filter]
  cases h : x.testBit k <;> simp

theorem countZero_eq (c : List Nat) (k : Nat) : countZero c k = zeros k c := by
  induction c with
  | nil => rfl
  | cons x c ih =>
    by_cases hb : x.testBit k = true <;>
      simp [countZero, ih, getPos, zeros, List.countP_cons, hb, Nat.add_comm]

/-- A level answers rank up to and including its size, and reads below it. -/
structure Full (s : SV) (l : List Bool) : Prop where
  rank1 : ∀ p, p ≤ l.length → SucVector.rank1 false s p = .ok (rankOf l true p)
  get : ∀ p (h : p < l.length), SucVector.get s p = .ok l[p]
  get_ge : ∀ p, l.length ≤ p → SucVector.get s p = .throw

theorem full_of_init (o : SV) {bv : BV 64} {l : List Bool} (h : BitVector.Rep bv l) (hl : l.length ≤ 2 ^ 32) :
    ∃ sv, SucVector.init false false o bv.v bv.bitLen = .ok sv ∧ Full sv l := by
  obtain ⟨h1, h2, h3⟩ := h
  have hb : (l.length + 63) / 64 ≤ bv.v.length := by rw [h2]; omega
  rw [h1]
  obtain ⟨s', e1, e2, e3⟩ := SucVector.init_rep (big := false) (sel := false) o bv.v l.length
    (by simpa [SucVector.maxBitSize] using hl) (by simp) hb
  have hlt : l = (bitsOf bv.v).take l.length := by
    apply BitVector.list_ext
    · simp [BitVector.bitsOf_length]; omega
    · intro i
      rw [BitVector.getD_take, BitVector.bitsOf_getD (by omega), h3]
      split
      · rfl
      · rw [BitVector.getD_ge (by omega)]
  have hst := e2.stores (l := l) (by omega) (by rw [← SucVector.padWords_take hb] at hlt; exact hlt)
  have hc := SucVector.padWords_count hb (fun i g1 g2 => by rw [h3, BitVector.getD_ge (by omega)])
  refine ⟨s', e1, fun p hp => ?_, hst.get, fun p hp => ?_⟩
  · by_cases hlt' : p < l.length
    · exact hst.rank1 p hlt'
    · have : p = l.length := by omega
      subst this
      rw [e2.rank1_ge (by omega), hc, ← hlt, rankOf, List.take_length]
  · rw [SucVector.get, if_pos (by omega)]

theorem Full.rank {s : SV} {l : List Bool} (h : Full s l) (hl : l.length ≤ 2 ^ 32) (b : Bool) {p : Nat}
    (hp : p ≤ l.length) : SucVector.rank false s b p = .ok (rankOf l b p) := by
  cases b
  · simp only [SucVector.rank, Bool.false_eq_true, if_false]
    rw [SucVector.rank0, h.rank1 p hp, Res.ok_bind, Res.pure_eq]
    have := rank_both l (p := p) (by omega)
    rw [sub64_eq (by omega) (by omega)]
    congr 1; omega
  · simp only [SucVector.rank, if_true]; exact h.rank1 p hp

/-! ## The stable partition loop -/

theorem set_bits {bv : BV 64} {ds : List Bool} {n : Nat} {b : Bool}
    (h : BitVector.Rep bv (ds ++ List.replicate (n + 1) false)) :
    ∃ bv', setIf bv ds.length b = .ok bv' ∧
      BitVector.Rep bv' ((ds ++ [b]) ++ List.replicate n false) := by
  cases b
  · refine ⟨bv, by simp [setIf], ?_⟩
    rw [List.append_assoc, List.singleton_append, ← List.replicate_succ]; exact h
  · obtain ⟨st', e1, e2⟩ := (BitVector.set_rep (by omega) h ds.length true).2 (by simp)
    refine ⟨st', by simpa [setIf, BitVector.set] using e1, ?_⟩
    have : (ds ++ List.replicate (n + 1) false).set ds.length true = (ds ++ [true]) ++ List.replicate n false := by
      rw [List.set_append_right _ _ (by omega)]; simp [List.replicate_succ]
    rw [← this]; exact e2

structure LInv (k n off : Nat) (ds xs : List Nat) (s : LoopSt) : Prop where
  bits : BitVector.Rep s.bv (ds.map (fun x => x.testBit k) ++ List.replicate xs.length false)
  zp : s.zeroPos = zeros k ds
  op : s.onePos = off + ones k ds
  len : s.next.length = n
  z : s.next.take (zeros k ds) = ds.filter fun x => !x.testBit k
  o : (s.next.drop off).take (ones k ds) = ds.filter fun x => x.testBit k

theorem take_set_self {α : Type} (l : List α) (i : Nat) (x : α) (h : i < l.length) :
    (l.set i x).take (i + 1) = l.take i ++ [x] := by
  rw [List.take_add_one, List.take_set_of_le (Nat.le_refl _)]
  simp [h]

theorem levelLoop_inv {k n off : Nat} (xs : List Nat) :
    ∀ (ds : List Nat) (s : LoopSt), off = zeros k (ds ++ xs) → n = (ds ++ xs).length →
    LInv k n off ds xs s → ∃ s', levelLoop false k xs ds.length s = .ok s' ∧ LInv k n off (ds ++ xs) [] s' := by
  induction xs with
  | nil => intro ds s _ _ h; exact ⟨s, rfl, by simpa using h⟩
  | cons x xs ih =>
    intro ds s hoff hn h
    obtain ⟨h1, h2, h3, h4, h5, h6⟩ := h
    obtain ⟨bv', e1, e2⟩ := set_bits (b := x.testBit k) (n := xs.length) (by simpa using h1)
    rw [List.length_map] at e1
    have hzo := zeros_ones k (ds ++ x :: xs)
    have hz1 : zeros k (ds ++ x :: xs) = zeros k ds + (if x.testBit k then 0 else 1) + zeros k xs := by
      simp only [zeros, List.countP_append, List.countP_cons]
      cases x.testBit k <;> simp <;> omega
    have ho1 : ones k (ds ++ x :: xs) = ones k ds + (if x.testBit k then 1 else 0) + ones k xs := by
      simp only [ones, List.countP_append, List.countP_cons]
      cases x.testBit k <;> simp <;> omega
    have hz2 : zeros k (ds ++ [x]) = zeros k ds + (if x.testBit k then 0 else 1) := by
      simp only [zeros, List.countP_append, List.countP_cons, List.countP_nil]
      cases x.testBit k <;> simp
    have ho2 : ones k (ds ++ [x]) = ones k ds + (if x.testBit k then 1 else 0) := by
      simp only [ones, List.countP_append, List.countP_cons, List.countP_nil]
      cases x.testBit k <;> simp
    have hrest : ∀ s2, LInv k n off (ds ++ [x]) xs s2 →
        ∃ s', levelLoop false k xs (ds.length + 1) s2 = .ok s' ∧ LInv k n off (ds ++ x :: xs) [] s' := by
      intro s2 hs2
      obtain ⟨s', g1, g2⟩ := ih (ds ++ [x]) s2 (by simpa using hoff) (by simpa using hn) hs2
      exact ⟨s', by simpa using g1, by simpa using g2⟩
    rw [levelLoop]
    simp only [getPos, e1, Res.ok_bind]
    by_cases hb : x.testBit k = true
    · simp only [hb, if_true] at hz1 ho1 hz2 ho2
      have hlt : s.onePos < s.next.length := by omega
      simp only [place, Bool.false_eq_true, if_false, hb, if_true, setAt?_ok _ hlt, Res.ok_bind, Res.pure_eq]
      apply hrest
      rw [hb] at e2
      refine ⟨by simpa [hb] using e2, by simp [h2, hz2], by simp [h3, ho2]; omega, by simp [h4], ?_, ?_⟩
      · rw [hz2, Nat.add_zero, List.take_set_of_le (by omega), h5]
        simp [List.filter_append, hb]
      · rw [ho2, h3, List.drop_set, if_neg (by omega), show off + ones k ds - off = ones k ds by omega,
          take_set_self _ _ _ (by simp; omega), h6]
        simp [List.filter_append, hb]
    · simp only [hb, if_false, Bool.false_eq_true] at hz1 ho1 hz2 ho2
      have hlt : s.zeroPos < s.next.length := by omega
      simp only [place, Bool.false_eq_true, if_false, hb, setAt?_ok _ hlt, Res.ok_bind, Res.pure_eq]
      apply hrest
      rw [Bool.not_eq_true] at hb
      rw [hb] at e2
      refine ⟨by simpa [hb] using e2, by simp [h2, hz2], by simp [h3, ho2], by simp [h4], ?_, ?_⟩
      · rw [hz2, h2, take_set_self _ _ _ (by omega), h5]
        simp [List.filter_append, hb]
      · rw [ho2, Nat.add_zero, List.drop_set_of_lt (by omega), h6]
        simp [List.filter_append, hb]

theorem levelLoop_last {k : Nat} (xs : List Nat) :
    ∀ (ds : List Nat) (s : LoopSt),
    BitVector.Rep s.bv (ds.map (fun x => x.testBit k) ++ List.replicate xs.length false) →
    ∃ s', levelLoop true k xs ds.length s = .ok s' ∧
      BitVector.Rep s'.bv ((ds ++ xs).map (fun x => x.testBit k)) := by
  induction xs with
  | nil => intro ds s h; exact ⟨s, rfl, by simpa using h⟩
  | cons x xs ih =>
    intro ds s h1
    obtain ⟨bv', e1, e2⟩ := set_bits (b := x.testBit k) (n := xs.length) (by simpa using h1)
    rw [List.length_map] at e1
    obtain ⟨s', g1, g2⟩ := ih (ds ++ [x]) ⟨bv', s.next, s.zeroPos, s.onePos⟩ (by simpa using e2)
    rw [levelLoop]
    simp only [getPos, e1, Res.ok_bind, place, if_true]
    exact ⟨s', by simpa using g1, by simpa using g2⟩

theorem level_spec {k n off : Nat} (cur next : List Nat) (bv : BV 64) (hoff : off = zeros k cur)
    (hn : cur.length = n) (hnext : next.length = n) (hbv : BitVector.Rep bv (List.replicate n false)) :
    ∃ s', levelLoop (decide (k = 0)) k cur 0 ⟨bv, next, 0, off⟩ = .ok s' ∧
      BitVector.Rep s'.bv (cur.map fun x => x.testBit k) ∧ (k ≠ 0 → s'.next = part k cur) := by
  by_cases hk : k = 0
  · obtain ⟨s', g1, g2⟩ := levelLoop_last (k := k) cur [] ⟨bv, next, 0, off⟩ (by simpa [hn] using hbv)
    exact ⟨s', by simpa [hk] using g1, by simpa using g2, fun h => absurd hk h⟩
  · obtain ⟨s', g1, g2, g3, g4, g5, g6, g7⟩ := levelLoop_inv (k := k) (n := n) (off := off) cur []
      ⟨bv, next, 0, off⟩ (by simpa using hoff) (by simpa using hn.symm)
      ⟨by simpa [hn] using hbv, by simp [zeros], by simp [ones], hnext, by simp [zeros], by simp [ones]⟩
    refine ⟨s', by simpa [hk] using g1, by simpa using g2, fun _ => ?_⟩
    simp only [List.nil_append] at g6 g7
    have := zeros_ones k cur
    rw [part, ← g6, ← g7, ← hoff]
    rw [show ones k cur = (s'.next.drop off).length by simp; omega, List.take_length, List.take_append_drop]

/-- What the finished levels `svv` with their offsets hold from level `i` on: the bits `k-1`, ..., 0 of
`cur` and of its successive partitions. -/
def Holds (svv : List SV) (offTbl : List Nat) : (k i : Nat) → List Nat → Prop
  | 0, _, _ => True
  | k + 1, i, cur => (∃ sv, svv[i]? = some sv ∧ Full sv (cur.map fun x => x.testBit k)) ∧
      offTbl[i]? = some (zeros k cur) ∧ Holds svv offTbl k (i + 1) (part k cur)

theorem at?_some {α : Type} {l : List α} {i : Nat} {a : α} (h : l[i]? = some a) : at? l i = .ok a := by
  simp [at?, h]

theorem levels_spec {n : Nat} (hn : n ≤ 2 ^ 32) {offTbl : List Nat} {old : List SV} (k : Nat) :
    ∀ (i : Nat) (cur next : List Nat), cur.length = n → next.length = n → i + k ≤ old.length →
    (∀ j, j < k → offTbl[i + (k - 1 - j)]? = some (zeros j cur)) →
    ∃ svs, levels n offTbl old k i cur next = .ok svs ∧ svs.length = k ∧
      ∀ pre, pre.length = i → Holds (pre ++ svs) offTbl k i cur := by
  induction k with
  | zero => intro i cur next _ _ _ _; exact ⟨[], rfl, rfl, fun _ _ => trivial⟩
  | succ k ih =>
    intro i cur next h1 h2 h3 h4
    obtain ⟨bv, b1, b2⟩ := BitVector.resize_rep (w := 64) (by omega) (st := BitVector.empty) (l := [])
      (by
        refine ⟨rfl, ?_, fun i => ?_⟩
        · simp [BitVector.empty]
        · simp [BitVector.empty, BitVector.bitAt, BitVector.wd]) (n := n) (by omega)
    have hb : Spec.BitVector.resize [] n = List.replicate n false := by simp [Spec.BitVector.resize]
    rw [hb] at b2
    have ho := h4 k (by omega)
    rw [show i + (k + 1 - 1 - k) = i by omega] at ho
    obtain ⟨s', e1, e2, e3⟩ := level_spec (k := k) cur next bv rfl h1 h2 b2
    obtain ⟨sv, f1, f2⟩ := full_of_init (old[i]'(by omega)) e2 (by simp; omega)
    have hrest : ∃ svs, levels n offTbl old k (i + 1) s'.next cur = .ok svs ∧ svs.length = k ∧
        ∀ pre, pre.length = i + 1 → Holds (pre ++ svs) offTbl k (i + 1) (part k cur) := by
      by_cases hk : k = 0
      · subst hk; exact ⟨[], rfl, rfl, fun _ _ => trivial⟩
      · rw [e3 hk]
        apply ih
        · rw [part_length]; exact h1
        · exact h1
        · omega
        · intro j hj
          rw [zeros, countP_part]
          have := h4 j (by omega)
          rw [show i + 1 + (k - 1 - j) = i + (k + 1 - 1 - j) by omega]; exact this
    obtain ⟨svs, r1, r2, r3⟩ := hrest
    refine ⟨sv :: svs, ?_, by simp [r2], fun pre hpre => ?_⟩
    · rw [levels, b1, Res.ok_bind, at?_some ho, Res.ok_bind, e1, Res.ok_bind, at?_eq_ok (by omega),
        Res.ok_bind, f1, Res.ok_bind, r1, Res.ok_bind, Res.pure_eq]
    · refine ⟨⟨sv, by simp [← hpre], f2⟩, ho, ?_⟩
      have := r3 (pre ++ [sv]) (by simp [hpre])
      simpa using this

/-! ## Descents -/

/-- Where position `p` of `cur` goes in `part k cur` for bit `b`. -/
def stepPos (k : Nat) (cur : List Nat) (b : Bool) (p : Nat) : Nat :=
  if b then zeros k cur + ones k (cur.take p) else zeros k (cur.take p)

/-- Where position `p` of `cur` ends up after `k` levels along the bits of `v`. -/
def walk : (k : Nat) → List Nat → Nat → Nat → Nat
  | 0, _, p, _ => p
  | k + 1, cur, p, v => walk k (part k cur) (stepPos k cur (v.testBit k) p) v

theorem zeros_take_le (k : Nat) (cur : List Nat) (p : Nat) : zeros k (cur.take p) ≤ zeros k cur :=
  (List.take_sublist p cur).countP_le

theorem ones_take_le (k : Nat) (cur : List Nat) (p : Nat) : ones k (cur.take p) ≤ ones k cur :=
  (List.take_sublist p cur).countP_le

theorem stepPos_le (k : Nat) (cur : List Nat) (b : Bool) (p : Nat) : stepPos k cur b p ≤ (part k cur).length := by
  rw [part_length]
  have h1 := zeros_take_le k cur p
  have h2 := ones_take_le k cur p
  have h3 := zeros_ones k cur
  cases b <;> simp [stepPos] <;> omega

theorem walk_le (k : Nat) : ∀ (cur : List Nat) (p v : Nat), p ≤ cur.length → walk k cur p v ≤ cur.length := by
  induction k with
  | zero => intro cur p v h; exact h
  | succ k ih =>
    intro cur p v _
    have := ih (part k cur) _ v (stepPos_le k cur (v.testBit k) p)
    rw [part_length] at this
    exact this

theorem part_take (k : Nat) (cur : List Nat) (b : Bool) (p : Nat) :
    (part k cur).take (stepPos k cur b p) =
      (if b then cur.filter (fun x => !x.testBit k) else []) ++ (cur.take p).filter (fun x => x.testBit k == b) := by
  have hsub : ∀ q : Nat → Bool, (cur.filter q).take ((cur.take p).countP q) = (cur.take p).filter q := by
    intro q
    conv => lhs; rw [← List.take_append_drop p cur, List.filter_append]
    rw [List.take_append_drop, List.countP_eq_length_filter, List.take_left]
  cases b
  · have := zeros_take_le k cur p
    simp only [zeros, List.countP_eq_length_filter] at this
    simp only [stepPos, part, Bool.false_eq_true, if_false, List.nil_append]
    rw [List.take_append_of_le_length (by simpa [zeros, List.countP_eq_length_filter] using this)]
    rw [zeros, hsub]
    congr 1; funext x; cases x.testBit k <;> rfl
  · simp only [stepPos, part, if_true]
    rw [zeros, List.countP_eq_length_filter, List.take_append, List.take_of_length_le (by omega)]
    rw [Nat.add_sub_cancel_left, ones, hsub]
    congr 2; funext x; cases x.testBit k <;> rfl

/-- Agreement on the low `k` bits. -/
def agree (k v x : Nat) : Bool := x % 2 ^ k == v % 2 ^ k

theorem mod_succ (x k : Nat) : x % 2 ^ (k + 1) = (if x.testBit k then 2 ^ k else 0) + x % 2 ^ k := by
  rw [Nat.mod_pow_succ, Nat.testBit_eq_decide_div_mod_eq, Nat.add_comm]
  rcases Nat.mod_two_eq_zero_or_one (x / 2 ^ k) with h | h <;> simp [h]

theorem agree_succ (k v x : Nat) : agree (k + 1) v x = (x.testBit k == v.testBit k && agree k v x) := by
  have h1 : x % 2 ^ k < 2 ^ k := Nat.mod_lt _ (Nat.two_pow_pos k)
  have h2 : v % 2 ^ k < 2 ^ k := Nat.mod_lt _ (Nat.two_pow_pos k)
  rw [Bool.eq_iff_iff, Bool.and_eq_true]
  simp only [agree, beq_iff_eq]
  rw [mod_succ x, mod_succ v]
  cases x.testBit k <;> cases v.testBit k <;> simp <;> omega

theorem part_split {cur : List Nat} {p f : Nat} {S : List Nat} (h : cur.take p = cur.take f ++ S) (k : Nat)
    (b : Bool) : (part k cur).take (stepPos k cur b p) =
      (part k cur).take (stepPos k cur b f) ++ S.filter (fun x => x.testBit k == b) := by
  rw [part_take, part_take, h, List.filter_append, List.append_assoc]

theorem walk_diff (k : Nat) : ∀ (cur : List Nat) (p f v : Nat) (S : List Nat), p ≤ cur.length → f ≤ cur.length →
    cur.take p = cur.take f ++ S → walk k cur p v = walk k cur f v + S.countP (agree k v) := by
  induction k with
  | zero =>
    intro cur p f v S hp hf h
    have := congrArg List.length h
    simp only [List.length_take, List.length_append] at this
    have hc : S.countP (agree 0 v) = S.length := by
      rw [List.countP_eq_length]; intro x _; simp [agree, Nat.mod_one]
    simp only [walk, hc]; omega
  | succ k ih =>
    intro cur p f v S hp hf h
    rw [walk, walk, ih _ _ _ v _ (stepPos_le _ _ _ _) (stepPos_le _ _ _ _) (part_split h k (v.testBit k)),
      List.countP_filter]
    congr 1
    apply List.countP_congr
    intro x _
    rw [agree_succ, Bool.and_comm]

theorem take_map_count {cur : List Nat} {k p : Nat} (b : Bool) :
    rankOf (cur.map fun x => x.testBit k) b p = (cur.take p).countP (fun x => x.testBit k == b) := by
  rw [rankOf, ← List.map_take, List.count, List.countP_map]; rfl

theorem rank_true {cur : List Nat} {k p : Nat} :
    rankOf (cur.map fun x => x.testBit k) true p = ones k (cur.take p) := by
  rw [take_map_count, ones]; congr 1; funext x; cases x.testBit k <;> rfl

theorem rank_false {cur : List Nat} {k p : Nat} :
    rankOf (cur.map fun x => x.testBit k) false p = zeros k (cur.take p) := by
  rw [take_map_count, zeros]; congr 1; funext x; cases x.testBit k <;> rfl

theorem down_eq {wm : WM} {k i : Nat} {cur : List Nat} (hn : cur.length ≤ 2 ^ 32)
    (h : Holds wm.svv wm.offTbl (k + 1) i cur) (b : Bool) {p : Nat} (hp : p ≤ cur.length) :
    down wm i b p = .ok (stepPos k cur b p) := by
  obtain ⟨⟨sv, h1, h2⟩, h3, h4⟩ := h
  have hr := h2.rank1 p (by simpa using hp)
  rw [rank_true] at hr
  rw [down, at?_some h1, Res.ok_bind]
  cases b
  · simp only [Bool.false_eq_true, if_false, hr, Res.ok_bind, Res.pure_eq, stepPos]
    have := zeros_ones k (cur.take p)
    rw [List.length_take] at this
    rw [sub64_eq (by omega) (by omega)]
    congr 1; omega
  · simp only [if_true, at?_some h3, hr, Res.ok_bind, Res.pure_eq, stepPos]

theorem rankLoop_eq {wm : WM} {val : Nat} (k : Nat) : ∀ (i : Nat) (cur : List Nat) (p : Nat),
    cur.length ≤ 2 ^ 32 → Holds wm.svv wm.offTbl k i cur → p ≤ cur.length →
    rankLoop wm val k i p = .ok (walk k cur p val) := by
  induction k with
  | zero => intro i cur p _ _ _; rfl
  | succ k ih =>
    intro i cur p hn h hp
    rw [rankLoop, down_eq hn h _ hp, Res.ok_bind, walk]
    exact ih _ _ _ (by rw [part_length]; exact hn) h.2.2 (stepPos_le _ _ _ _)

end Verif.Wavelet
