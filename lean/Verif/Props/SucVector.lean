import Verif.Proof.SucVectorTop
import Verif.Proof.SucVectorHang

/-!
# C12, C13: the succinct vector

`big = true` is `cybozu::SucVector`, `big = false` is `cybozu::SucVectorLt4G`; `sel` is `withSelect`.
-/
namespace Verif.Props.SucVector
open Verif.SucVector Verif.Spec.BitVector Verif.Spec.SucVector
open Verif.BitVector (bitsOf_length bitsOf_getD getD_replicate bitAt bitAt_ge getD_ge)

/-- C12: more bits than the class can count are refused with an exception, before anything is built. -/
theorem C12_too_large (big sel clear : Bool) (s : SV) (buf : List (BitVec 64)) (n : Nat) (hn : (if big then 2 ^ 40 else 2 ^ 32) < n) :
    init big sel s buf n = .throw ∧ resize big s n clear = .throw := by
  have h : ∀ c, resize big s n c = .throw := fun c => by rw [SucVector.resize, if_pos (by rw [maxBitSize]; exact hn)]
  exact ⟨by rw [init, h]; rfl, h clear⟩

example : (if true then 2 ^ 40 else 2 ^ 32) < 2 ^ 40 + 1 := by decide

/-- C12.  After `init(buf, n)`, for every position below the size: `rank1`, `rank0`, `rank` count the
bits before it and `get` reads it; `get` at or behind the size throws.  Whatever the buffer holds behind
the size. -/
theorem C12_init (big sel : Bool) (s : SV) (buf : List (BitVec 64)) (n : Nat) (hn : n ≤ maxBitSize big)
    (hsel : sel = true → n ≤ 2 ^ 40 - 256) (hbuf : (n + 63) / 64 ≤ buf.length) :
    ∃ s', init big sel s buf n = .ok s' ∧ s'.bitSize = n ∧
      (∀ p, p < n →
        rank1 big s' p = .ok (rankOf (bitsOf buf) true p) ∧
        rank0 big s' p = .ok (rankOf (bitsOf buf) false p) ∧
        (∀ b, rank big s' b p = .ok (rankOf (bitsOf buf) b p)) ∧
        get s' p = .ok ((bitsOf buf).getD p false)) ∧
      (∀ p, n ≤ p → get s' p = .throw) := by
  obtain ⟨s', e1, e2, e3⟩ := init_rep (sel := sel) s buf n hn hsel hbuf
  have hm40 : maxBitSize big ≤ 2 ^ 40 := by cases big <;> simp [maxBitSize]
  have hlen : ((bitsOf buf).take n).length = n := by simp [bitsOf_length]; omega
  have hst := e2.stores (l := (bitsOf buf).take n) (by omega) (by rw [hlen, padWords_take hbuf])
  refine ⟨s', e1, e3, fun p hp => ?_, fun p hp => ?_⟩
  · have h1 := hst.rank1 p (by omega)
    have h0 := hst.rank0 (by omega) (p := p) (by omega)
    have hg := hst.get p (by omega)
    rw [rank_take _ _ (by omega)] at h1 h0
    refine ⟨h1, h0, fun b => by cases b <;> simp only [rank, Bool.false_eq_true, if_false, if_true] <;> assumption, ?_⟩
    rw [hg, List.getElem_take, List.getD_eq_getElem _ _ (by rw [bitsOf_length]; omega)]
  · rw [Verif.SucVector.get, if_pos (by omega)]

/-- C12, partial.  At the size itself `rank1` and `rank0` are right if the buffer's bits behind the size
(up to the end of its last word) are zero.  Missing: buffers with other bits there (next theorem). -/
theorem C12_init_at_size_partial (big sel : Bool) (s : SV) (buf : List (BitVec 64)) (n : Nat)
    (hn : n ≤ maxBitSize big) (hsel : sel = true → n ≤ 2 ^ 40 - 256) (hbuf : (n + 63) / 64 ≤ buf.length)
    (hclean : ∀ i, n ≤ i → i < (n + 63) / 64 * 64 → (bitsOf buf).getD i false = false) :
    ∃ s', init big sel s buf n = .ok s' ∧
      (∀ p, n ≤ p → rank1 big s' p = .ok (rankOf (bitsOf buf) true n)) ∧
      rank0 big s' n = .ok (rankOf (bitsOf buf) false n) ∧
      numOf s' true = rankOf (bitsOf buf) true n := by
  obtain ⟨s', e1, e2, e3⟩ := init_rep (sel := sel) s buf n hn hsel hbuf
  have hm40 : maxBitSize big ≤ 2 ^ 40 := by cases big <;> simp [maxBitSize]
  have hc := padWords_count hbuf (fun i h1 h2 => by rw [← bitsOf_getD (by omega)]; exact hclean i h1 h2)
  have h1 : ∀ p, n ≤ p → rank1 big s' p = .ok (rankOf (bitsOf buf) true n) := by
    intro p hp
    rw [e2.rank1_ge (by omega), hc]; rfl
  refine ⟨s', e1, h1, ?_, ?_⟩
  · rw [rank0, h1 n (by omega), Res.ok_bind, Res.pure_eq]
    have := rank_both (bitsOf buf) (p := n) (by rw [bitsOf_length]; omega)
    rw [sub64_eq (by omega) (by omega)]
    congr 1; omega
  · rw [numOf, if_pos rfl, e2.num1, hc]; rfl

/-- C12 (finding).  `init` does not mask the last word: ones behind the size are counted by `rank1` at
the size and by `size(true)`; `rank0` then wraps below zero. -/
theorem C12_dirty_tail_counted :
    (do let s ← init true true empty [0xff] 3
        return (← rank1 true s 3, numOf s true, ← rank0 true s 3)) = .ok (8, 8, 2 ^ 64 - 5) := by
  decide +kernel

/-- C12.  The incremental protocol `resize(n)`, `set(i)`..., `ready()`: the finished vector has exactly
the bits that were set, for every position up to and including the size; `set` outside the size throws;
`set` after `ready` throws. -/
theorem C12_build (big sel : Bool) (s : SV) (n : Nat) (hn : n ≤ maxBitSize big)
    (hsel : sel = true → n ≤ 2 ^ 40 - 256) (is : List Nat) (his : ∀ i ∈ is, i < n) :
    let l := (List.range n).map fun i : Nat => decide (i ∈ is)
    ∃ s1 k s2 s3, resize big s n true = .ok (s1, k) ∧
      is.foldlM (fun a i => set a i) s1 = .ok s2 ∧ ready big sel s2 = .ok s3 ∧
      (∀ i, n ≤ i → set s1 i = .throw ∧ set s2 i = .throw) ∧ (∀ i, set s3 i = .throw) ∧
      (∀ p, p < n → get s3 p = .ok (decide (p ∈ is))) ∧
      (∀ p b, p ≤ n → rank big s3 b p = .ok (rankOf l b p)) ∧
      numOf s3 true = l.count true := by
  intro l
  have hm40 : maxBitSize big ≤ 2 ^ 40 := by cases big <;> simp [maxBitSize]
  obtain ⟨s1, k, e1, b1⟩ := resize_building (big := big) s hn
  have hfold : ∀ (js : List Nat) (a : SV) (m : List Bool), Building big a m → m.length = n →
      (∀ i ∈ js, i < n) → ∃ a', js.foldlM (fun a i => set a i) a = .ok a' ∧
        ∃ m', Building big a' m' ∧ m'.length = n ∧ ∀ i, m'.getD i false = (m.getD i false || decide (i ∈ js)) := by
    intro js
    induction js with
    | nil => intro a m h1 h2 _; exact ⟨a, rfl, m, h1, h2, fun i => by simp⟩
    | cons j js ih =>
      intro a m h1 h2 h3
      have hj := h3 j (by simp)
      obtain ⟨a', f1, f2⟩ := set_building h1 (i := j) (by omega)
      obtain ⟨a'', g1, m', g2, g3, g4⟩ := ih a' _ f2 (by simpa using h2) (fun i hi => h3 i (by simp [hi]))
      refine ⟨a'', by rw [List.foldlM_cons, f1]; exact g1, m', g2, g3, fun i => ?_⟩
      rw [g4]
      simp only [List.getD_eq_getElem?_getD, List.getElem?_set]
      by_cases hij : j = i
      · subst hij; simp [show j < m.length by omega]
      · simp [hij, show ¬ i = j by omega]
  obtain ⟨s2, e2, m, b2, b3, b4⟩ := hfold is s1 _ b1 (by simp) his
  obtain ⟨s3, e3, r3, z3⟩ := ready_rep (sel := sel) b2 (by rw [b3]; exact hsel)
  have hml : m = l := by
    apply BitVector.list_ext
    · simp [l, b3]
    · intro i
      rw [b4, getD_replicate, Bool.false_or]
      by_cases hi : i < n
      · simp [l, List.getD_eq_getElem?_getD, hi]
      · have : i ∉ is := fun h => hi (his i h)
        simp [l, List.getD_eq_getElem?_getD, hi, this]
  rw [hml] at b2 b3 z3
  have hbits := flat_bits b2
  have hst := r3.stores (l := l) (by omega) (by rw [hbits]; simp)
  have hcount : (bitsOf (flat s2.blk)).count true = l.count true := by
    rw [hbits, List.count_append]; simp [List.count_replicate]
  refine ⟨s1, k, s2, s3, e1, e2, e3, ?_, ?_, ?_, ?_, ?_⟩
  · intro i hi
    have z1 := b1.size
    have z2 := b2.size
    simp only [List.length_replicate] at z1
    constructor
    · rw [Verif.SucVector.set, if_neg (by rw [b1.frz]; simp), if_pos (by omega)]
    · rw [Verif.SucVector.set, if_neg (by rw [b2.frz]; simp), if_pos (by omega)]
  · intro i; rw [Verif.SucVector.set, if_pos r3.frz]
  · intro p hp
    rw [hst.get p (by omega)]; simp [l]
  · intro p b hp
    by_cases hlt : p < n
    · cases b
      · simp only [rank, Bool.false_eq_true, if_false]; exact hst.rank0 (by omega) (by omega)
      · simp only [rank, if_true]; exact hst.rank1 p (by omega)
    · have hpn : p = n := by omega
      have h1 : rank1 big s3 p = .ok (rankOf l true p) := by
        rw [r3.rank1_ge (by omega), hcount, rank_ge _ _ (by omega)]
      cases b
      · simp only [rank, Bool.false_eq_true, if_false]
        rw [rank0, h1, Res.ok_bind, Res.pure_eq]
        have := rank_both l (p := p) (by omega)
        rw [sub64_eq (by omega) (by omega)]
        congr 1; omega
      · simp only [rank, if_true]; exact h1
  · rw [numOf, if_pos rfl, r3.num1, hcount]

/-- C12 (finding).  `size(false)` counts the padding of the last word (of the last block after
`ready`) as zero bits. -/
theorem C12_size0_counts_padding :
    (do let s ← init true true empty [5] 3
        return numOf s false) = .ok 62 ∧
    (do let (a, _) ← resize true empty 3 true
        let b ← ready true true a
        return numOf b false) = .ok 256 := by
  decide +kernel

/-- C12 (finding).  `load` does not restore `freezed_`: into a default object, `set` is accepted
afterwards and changes bits behind the counters, so `rank1` is wrong. -/
theorem C12_load_not_frozen :
    (do let a ← init true true empty [0] 64
        let c ← set (load true empty a) 0
        return (← get c 0, ← rank1 true c 64)) = .ok (true, 0) := by
  decide +kernel

/-- C13, partial.  After `init`, `select(b, r)` is the position of occurrence `r` of `b` whenever there is
one.  Missing: the answer when there is none, below. -/
theorem C13_select_init_partial (big : Bool) (s : SV) (buf : List (BitVec 64)) (n : Nat)
    (hn : n ≤ maxBitSize big) (hsel : n ≤ 2 ^ 40 - 256) (hbuf : (n + 63) / 64 ≤ buf.length) :
    ∃ s', init big true s buf n = .ok s' ∧
      ∀ b r, r < ((bitsOf buf).take n).count b →
        ∃ p, selectSub big true s' b r = .ok p ∧ IsSelect ((bitsOf buf).take n) b r p := by
  obtain ⟨s', e1, e2, e3⟩ := init_rep (sel := true) s buf n hn (fun _ => hsel) hbuf
  have hlen : ((bitsOf buf).take n).length = n := by simp [bitsOf_length]; omega
  refine ⟨s', e1, fun b r hr => ?_⟩
  have hl := e2.good.len
  have hp : (padWords buf n).length = ((n + 63) / 64 + 3) / 4 * 4 := by simp [padWords]; omega
  exact e2.select (by omega) (by omega) (by rw [hlen, padWords_take hbuf]) hr

/-- C13, partial.  `NotFound` answers: for `select1` with a clean tail, and for `select0` when the size is
a multiple of 64.  Missing: `select0` for other sizes and `select1` with a dirty tail, where the code
answers a position outside the vector (next theorem). -/
theorem C13_notFound_init_partial (big : Bool) (s : SV) (buf : List (BitVec 64)) (n : Nat)
    (hn : n ≤ maxBitSize big) (hsel : n ≤ 2 ^ 40 - 256) (hbuf : (n + 63) / 64 ≤ buf.length)
    (hclean : ∀ i, n ≤ i → i < (n + 63) / 64 * 64 → (bitsOf buf).getD i false = false) :
    ∃ s', init big true s buf n = .ok s' ∧
      (∀ r, ((bitsOf buf).take n).count true ≤ r → selectSub big true s' true r = .ok NotFound) ∧
      (n % 64 = 0 → ∀ r, ((bitsOf buf).take n).count false ≤ r →
        selectSub big true s' false r = .ok NotFound) := by
  obtain ⟨s', e1, e2, e3⟩ := init_rep (sel := true) s buf n hn (fun _ => hsel) hbuf
  have hc := padWords_count hbuf (fun i h1 h2 => by rw [← bitsOf_getD (by omega)]; exact hclean i h1 h2)
  refine ⟨s', e1, fun r hr => ?_, fun h64 r hr => ?_⟩
  · apply Rep.select_ge
    rw [numOf, if_pos rfl, e2.num1, hc]; exact hr
  · apply Rep.select_ge
    rw [numOf, if_neg (by simp), e2.num0, show 64 * ((n + 63) / 64) = n by omega]
    rw [rankOf, padWords_take hbuf]; exact hr

/-- C13 (finding).  In a 3-bit vector `101`, `select0(1)` should be `NotFound` but is position 3, and
`select0(61)` is 63; with a dirty tail `select1` too leaves the vector. -/
theorem C13_select_beyond_size :
    (do let s ← init true true empty [5] 3
        [0, 1, 61, 62].mapM fun r => selectSub true true s false r) = .ok [1, 3, 63, NotFound] ∧
    (do let s ← init true true empty [0xfd] 3
        selectSub true true s true 2) = .ok 3 := by
  decide +kernel

/-- C13 (finding).  `resize` admits 2^40 bits, but then there are 2^32 blocks and the `uint32_t` block
position of `initSelTblSub` wraps: for this content `init` never returns (`ub` stands for the endless
loop). -/
theorem C13_init_hangs_at_max_size :
    ∃ buf : List (BitVec 64), 2 ^ 40 ≤ maxBitSize true ∧ init true true empty buf (2 ^ 40) = .ub :=
  ⟨_, by simp [maxBitSize], init_hang empty⟩

/-- C13, partial.  The incremental protocol: select finds every occurrence, and `select1` answers
`NotFound` otherwise.  Missing: `select0` behind the last zero. -/
theorem C13_select_build_partial (big : Bool) (s : SV) (l : List Bool) (hb : Building big s l)
    (hsel : l.length ≤ 2 ^ 40 - 256) :
    ∃ s', ready big true s = .ok s' ∧
      (∀ b r, r < l.count b → ∃ p, selectSub big true s' b r = .ok p ∧ IsSelect l b r p) ∧
      (∀ r, l.count true ≤ r → selectSub big true s' true r = .ok NotFound) := by
  obtain ⟨s', e1, e2, e3⟩ := ready_rep (sel := true) hb (fun _ => hsel)
  have hbits := flat_bits hb
  have hl := e2.good.len
  have hf := flat_len hb.org
  have hbl := hb.len
  refine ⟨s', e1, fun b r hr => ?_, fun r hr => ?_⟩
  · exact e2.select (by omega) e3 (by rw [hbits]; simp) hr
  · apply Rep.select_ge
    rw [numOf, if_pos rfl, e2.num1, hbits, List.count_append]
    simpa [List.count_replicate] using hr

/-- A clean two-word buffer meets the hypotheses; a vector of more than one block. -/
example : (do
    let s ← init true true empty [0x8000000000000001, 0x7, 0, 0, 3] 258
    return (← rank1 true s 67, ← rank0 true s 258, ← selectSub true true s true 6,
      ← selectSub true true s true 7)) = .ok (5, 251, 257, NotFound) := by
  decide +kernel
example : ∀ i, 66 ≤ i → i < (66 + 63) / 64 * 64 →
    (bitsOf [(0x8000000000000001 : BitVec 64), 3]).getD i false = false := by
  have : ∀ i : Fin 128, 66 ≤ i.val →
      (bitsOf [(0x8000000000000001 : BitVec 64), 3]).getD i.val false = false := by decide +kernel
  exact fun i h1 h2 => this ⟨i, h2⟩ h1
example : Building true ⟨3, 0, 0, false, [⟨[5, 0, 0, 0], 9, 9, 9, 9, 9⟩], [], []⟩ [true, false, true] := by
  refine ⟨rfl, rfl, by decide, rfl, by simp, fun i => ?_⟩
  rcases Nat.lt_or_ge i 256 with h | h
  · have : ∀ i : Fin 256, bitAt (flat [⟨[5, 0, 0, 0], 9, 9, 9, 9, 9⟩]) i.val = [true, false, true].getD i.val false := by
      decide +kernel
    exact this ⟨i, h⟩
  · rw [bitAt_ge (by omega) (by simp [flat]; omega), getD_ge (by simp; omega)]

#print axioms C12_init
#print axioms C12_too_large
#print axioms C12_init_at_size_partial
#print axioms C12_dirty_tail_counted
#print axioms C12_build
#print axioms C12_size0_counts_padding
#print axioms C12_load_not_frozen
#print axioms C13_select_init_partial
#print axioms C13_notFound_init_partial
#print axioms C13_select_beyond_size
#print axioms C13_init_hangs_at_max_size
#print axioms C13_select_build_partial

end Verif.Props.SucVector
