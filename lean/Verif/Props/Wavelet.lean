import Verif.Proof.WaveletSelect

/-!
# C14, C15: the wavelet matrix

`ws` is `withSelect`.  `B` is `valBitLen`.
-/
namespace Verif.Props.Wavelet
open Verif.Wavelet Verif.Spec.Wavelet

theorem zeros_lt {l : List Nat} (hn : l.length < 2 ^ 32) (j : Nat) : zeros j l < 2 ^ 32 := by
  have := zeros_ones j l; omega

/-- `init` on an object that was constructed or initialised before. -/
theorem init_built (ws : Bool) (wm : WM) (hre : Reusable wm) (l : List Nat) (B : Nat) (hB : B ≤ 16)
    (hn : l.length < 2 ^ 32) (hl : ∀ x ∈ l, x < 2 ^ B) :
    ∃ wm', init ws wm l B = .ok wm' ∧ Built B l wm' ∧ Reusable wm' ∧
      (ws = true → ∀ v, v < 2 ^ B → ∃ t, wm'.selTbl[v]? = some t ∧ SelOK l v t) := by
  obtain ⟨wm1, h1, h2, h3⟩ := built_of_init hB l (by omega) (fun j _ => zeros_lt hn j) ws wm
  have hre1 : Reusable wm1 := by rw [Reusable, h2]; exact hre
  rw [h3]
  cases ws
  · exact ⟨wm1, rfl, h1, hre1, by simp⟩
  · obtain ⟨ts, e1, e2, e3⟩ := initSelTbl_spec h1 hn hl hre1
    refine ⟨{ wm1 with selTbl := ts }, by simp [initSel, e1], ?_, ?_, fun _ => e3⟩
    · exact ⟨h1.maxVal, h1.bits, h1.size, h1.holds, h1.frm, h1.lt, h1.frm_len, h1.lt_len⟩
    · intro t ht
      obtain ⟨v, hv, rfl⟩ := List.getElem_of_mem ht
      have hv' : v < ts.length := hv
      obtain ⟨t, g1, g2⟩ := e3 v (by omega)
      have hg : ts[v] = t := by
        rw [List.getElem?_eq_getElem hv'] at g1; exact Option.some.inj g1
      show (ts[v]).getD 0 0 = 0
      rw [hg]; exact g2.head

/-- C14.  After `init(vec, valBitLen)` on a new or an already used object, for every sequence of fewer than
2^32 values of at most 16 bits: `size()` is its length, `get(pos)` returns the element, `rank(val, pos)` and
`size(val)` count it, positions behind the end count as the end, `get(&val, pos)` returns both; `get` behind
the end throws. -/
theorem C14_get_rank (ws : Bool) (wm : WM) (hre : Reusable wm) (l : List Nat) (B : Nat) (hB : B ≤ 16)
    (hn : l.length < 2 ^ 32) (hl : ∀ x ∈ l, x < 2 ^ B) :
    ∃ wm', init ws wm l B = .ok wm' ∧ Reusable wm' ∧ wm'.size = l.length ∧
      (0 < B → ∀ p (hp : p < l.length), get wm' p = .ok l[p]) ∧
      (∀ p (hp : p < l.length), get2 wm' p = .ok (l[p], countOf l l[p] p)) ∧
      (0 < B → ∀ p, l.length ≤ p → get wm' p = .throw ∧ get2 wm' p = .throw) ∧
      (∀ v, v < 2 ^ B → ∀ p, rank wm' v p = .ok (countOf l v p)) ∧
      (∀ v, v < 2 ^ B → sizeVal wm' v = .ok (l.count v)) := by
  obtain ⟨wm', e1, e2, e3, _⟩ := init_built ws wm hre l B hB hn hl
  refine ⟨wm', e1, e3, e2.size, fun h0 p hp => e2.get (by omega) h0 hB hl hp,
    fun p hp => e2.get2 hn hB hl hp, fun h0 p hp => e2.get_ge h0 hp, fun v hv p => e2.rank hn hl hv p,
    fun v hv => ?_⟩
  rw [sizeVal, e2.rank hn hl hv, e2.size, countOf_ge (Nat.le_refl _)]

/-- C14, partial.  `rankLt(val, pos)` counts the smaller values if `(valBitLen - 1) * size` is below 2^32.
Missing: longer sequences (next theorem). -/
theorem C14_rankLt_partial (ws : Bool) (wm : WM) (hre : Reusable wm) (l : List Nat) (B : Nat) (hB : B ≤ 16)
    (hn : l.length < 2 ^ 32) (hl : ∀ x ∈ l, x < 2 ^ B) (hsum : (B - 1) * l.length < 2 ^ 32) :
    ∃ wm', init ws wm l B = .ok wm' ∧ ∀ v, v < 2 ^ B → ∀ p, rankLt wm' v p = .ok (countLt l v p) := by
  obtain ⟨wm', e1, e2, _, _⟩ := init_built ws wm hre l B hB hn hl
  refine ⟨wm', e1, fun v hv p => ?_⟩
  have hb := walkLt_zero_bound (B := B) l v
  rw [e2.rankLt_gen hn hB hl hv, toSize, Nat.mod_eq_of_lt (by omega), Nat.sub_self, Nat.add_zero]

theorem part_replicate (k n : Nat) : part k (List.replicate n 0) = List.replicate n 0 := by
  simp [part]

theorem zeros_replicate (k n : Nat) : zeros k (List.replicate n 0) = n := by
  simp [zeros, List.countP_replicate]

theorem ones_replicate (k n : Nat) : ones k (List.replicate n 0) = 0 := by
  simp [ones, List.countP_replicate]

theorem walkLt_replicate (k : Nat) : ∀ (n ret v : Nat), (∀ j, j < k → v.testBit j = true) →
    walkLt k (List.replicate n 0) ret n v = ret + k * n := by
  induction k with
  | zero => intro n ret v _; simp [walkLt]
  | succ k ih =>
    intro n ret v h
    rw [walkLt, h k (by omega), part_replicate]
    simp only [if_true, stepPos, List.take_replicate, Nat.min_self, zeros_replicate, ones_replicate, Nat.add_zero]
    rw [ih n _ v (fun j hj => h j (by omega)), Nat.add_mul, Nat.one_mul]
    omega

/-- C14 (finding).  The start values of `rankLt` are sums over the levels and are stored in 32 bits.
For 2^29 zeros of 16 bits `rankLt(0xffff, 2^29)` is 2^29 + 2^32, and `rankLt(0xffff, 0)` is 2^32. -/
theorem C14_rankLt_overflow (ws : Bool) (wm : WM) (hre : Reusable wm) :
    ∃ wm', init ws wm (List.replicate (2 ^ 29) 0) 16 = .ok wm' ∧
      rankLt wm' 0xffff (2 ^ 29) = .ok (2 ^ 29 + 2 ^ 32) ∧ rankLt wm' 0xffff 0 = .ok (2 ^ 32) := by
  generalize hm : (2 ^ 29 : Nat) = m
  have hlen : (List.replicate m 0).length = m := List.length_replicate
  have hl : ∀ x ∈ List.replicate m 0, x < 2 ^ 16 := by
    intro x hx; rw [List.mem_replicate] at hx; omega
  obtain ⟨wm', e1, e2, _, _⟩ := init_built ws wm hre (List.replicate m 0) 16 (by omega) (by omega) hl
  have hbit : ∀ j, j < 16 → (65535).testBit j = true := by decide
  have hw : walkLt 16 (List.replicate m 0) 0 0 0xffff = 15 * m := by
    rw [walkLt, hbit 15 (by omega), part_replicate]
    have h0 : zeros 15 ((List.replicate m 0).take 0) = 0 := by simp [zeros]
    have h1 : ones 15 ((List.replicate m 0).take 0) = 0 := by simp [ones]
    simp only [if_true, stepPos, zeros_replicate, h0, h1]
    simp only [Nat.add_zero]
    rw [walkLt_replicate 15 _ _ _ (fun j hj => hbit j (by omega))]
    omega
  have hsz : 15 * m - toSize (15 * m) = 2 ^ 32 := by rw [toSize]; omega
  refine ⟨wm', e1, ?_, ?_⟩
  · rw [e2.rankLt_gen (by omega) (by omega) hl (by omega), hw, hsz]
    have : countLt (List.replicate m 0) 65535 m = m := by
      rw [countLt, List.take_of_length_le (by omega), List.countP_replicate]; simp
    rw [this]
  · rw [e2.rankLt_gen (by omega) (by omega) hl (by omega), hw, hsz]
    simp [countLt]

theorem rank_at_4G_aux (wm : WM) (m : Nat) (hm : 2 ^ 31 = m) :
    ∃ wm', init false wm (List.replicate m 1 ++ List.replicate m 2) 2 = .ok wm' ∧
      ∀ p, rank wm' 3 p = .ok (2 ^ 32) := by
  have hl : ∀ x ∈ List.replicate m 1 ++ List.replicate m 2, x < 2 ^ 2 := by
    intro x hx; simp only [List.mem_append, List.mem_replicate] at hx; omega
  have z0 : zeros 0 (List.replicate m 1 ++ List.replicate m 2) = m := by
    simp [zeros, List.countP_append, List.countP_replicate]
  have z1 : zeros 1 (List.replicate m 1 ++ List.replicate m 2) = m := by
    have h1 : (1).testBit 1 = false := by decide
    have h2 : (2).testBit 1 = true := by decide
    simp [zeros, List.countP_append, List.countP_replicate, h1, h2]
  have hp : part 1 (List.replicate m 1 ++ List.replicate m 2) = List.replicate m 1 ++ List.replicate m 2 := by
    have h1 : (1).testBit 1 = false := by decide
    have h2 : (2).testBit 1 = true := by decide
    simp [part, h1, h2]
  have hlen : (List.replicate m 1 ++ List.replicate m 2).length = 2 ^ 32 := by simp; omega
  obtain ⟨wm1, h1, _, h3⟩ := built_of_init (B := 2) (by omega) (List.replicate m 1 ++ List.replicate m 2)
    (by omega) (fun j hj => by
      have : j = 0 ∨ j = 1 := by omega
      rcases this with rfl | rfl
      · rw [z0]; omega
      · rw [z1]; omega) false wm
  refine ⟨wm1, h3, fun p => ?_⟩
  have hw : walk 2 (List.replicate m 1 ++ List.replicate m 2) 0 3 = 2 ^ 32 := by
    have t1 : (3).testBit 1 = true := by decide
    have t0 : (3).testBit 0 = true := by decide
    rw [walk, t1, hp, walk, t0, walk]
    simp only [stepPos, if_true, z1, z0, List.take_zero]
    have o1 : ones 1 [] = 0 := rfl
    rw [o1, Nat.add_zero, List.take_append_of_le_length (by simp), List.take_of_length_le (by simp)]
    have o0 : ones 0 (List.replicate m 1) = m := by simp [ones, List.countP_replicate]
    rw [o0]; omega
  rw [h1.rank_gen (by omega) hl (by omega), hw]
  have hc : countOf (List.replicate m 1 ++ List.replicate m 2) 3 p = 0 := by
    rw [countOf, List.count_eq_zero]
    intro hmem
    have := List.mem_of_mem_take hmem
    simp only [List.mem_append, List.mem_replicate] at this
    omega
  have hsz : 2 ^ 32 - toSize (2 ^ 32) = 2 ^ 32 := by rw [toSize]
  rw [hc, hsz, Nat.zero_add]

/-- C14 (finding).  `init` accepts exactly 2^32 values, but the start of a value in the last level is
stored in 32 bits: for 2^31 ones followed by 2^31 twos (2-bit values) `rank(3, pos)` is 2^32 for every
position although 3 does not occur. -/
theorem C14_rank_at_4G (wm : WM) :
    ∃ wm', init false wm (List.replicate (2 ^ 31) 1 ++ List.replicate (2 ^ 31) 2) 2 = .ok wm' ∧
      ∀ p, rank wm' 3 p = .ok (2 ^ 32) :=
  rank_at_4G_aux wm _ rfl

/-- C14.  Too long sequences and values wider than 16 bits are refused. -/
theorem C14_init_throws (ws : Bool) (wm : WM) (l : List Nat) (B : Nat)
    (h : 2 ^ 32 < l.length ∨ 16 < B) : init ws wm l B = .throw := by
  rw [init]
  by_cases h1 : l.length > 2 ^ 32
  · rw [if_pos h1]
  · rw [if_neg h1, if_pos (by omega)]

/-- C14 (finding).  A matrix of zero-bit values accepts `init`, but `get` reads outside its empty level
vector. -/
theorem C14_get_zero_bits :
    (do let wm ← init false empty [0, 0] 0
        get wm 0) = .ub := by decide +kernel

/-- C15.  `select(val, r)` returns the position of occurrence `r`, and `NotFound` exactly if there is no
such occurrence.
Missing from the full claim: sequences of 2^32 elements or more (the tables are 32 bits wide). -/
theorem C15_select_partial (wm : WM) (hre : Reusable wm) (l : List Nat) (B : Nat) (hB : B ≤ 16)
    (hn : l.length < 2 ^ 32) (hl : ∀ x ∈ l, x < 2 ^ B) :
    ∃ wm', init true wm l B = .ok wm' ∧ ∀ v, v < 2 ^ B → ∀ r, r < 2 ^ 64 →
      (r < l.count v → ∃ p, select true wm' v r = .ok p ∧ IsNth l v r p) ∧
      (l.count v ≤ r → select true wm' v r = .ok SucVector.NotFound) := by
  obtain ⟨wm', e1, e2, _, e4⟩ := init_built true wm hre l B hB hn hl
  refine ⟨wm', e1, fun v hv r hr => ?_⟩
  obtain ⟨t, t1, t2⟩ := e4 rfl v hv
  exact select_spec e2 hn hl hv t1 t2 hr

/-- C15.  `select` undoes `rank`: the position found has exactly `r` occurrences before it, and selecting
the rank of a position that holds `val` gives the position back.
Missing: sequences of 2^32 elements or more. -/
theorem C15_select_rank_partial (wm : WM) (hre : Reusable wm) (l : List Nat) (B : Nat) (hB : B ≤ 16)
    (hn : l.length < 2 ^ 32) (hl : ∀ x ∈ l, x < 2 ^ B) :
    ∃ wm', init true wm l B = .ok wm' ∧
      (∀ v, v < 2 ^ B → ∀ r, r < l.count v → ∃ p, select true wm' v r = .ok p ∧ p < l.length ∧
        rank wm' v p = .ok r ∧ rank wm' v (p + 1) = .ok (r + 1)) ∧
      (∀ p (hp : p < l.length), ∃ r, rank wm' l[p] p = .ok r ∧ select true wm' l[p] r = .ok p) := by
  obtain ⟨wm', e1, e2, _, e4⟩ := init_built true wm hre l B hB hn hl
  refine ⟨wm', e1, fun v hv r hr => ?_, fun p hp => ?_⟩
  · obtain ⟨t, t1, t2⟩ := e4 rfl v hv
    have := List.count_le_length (a := v) (l := l)
    obtain ⟨p, p1, p2, p3⟩ := (select_spec e2 hn hl hv t1 t2 (show r < 2 ^ 64 by omega)).1 hr
    obtain ⟨hp, p4⟩ := List.getElem?_eq_some_iff.mp p2
    refine ⟨p, p1, hp, by rw [e2.rank hn hl hv, p3], ?_⟩
    rw [e2.rank hn hl hv, countOf_succ hp, p4, p3]; simp
  · have hv := hl _ (List.getElem_mem hp)
    obtain ⟨t, t1, t2⟩ := e4 rfl _ hv
    have h1 : countOf l l[p] p < l.count l[p] := by
      have a := countOf_succ (v := l[p]) hp
      have b := countOf_le l l[p] (p + 1)
      simp at a; omega
    have := List.count_le_length (a := l[p]) (l := l)
    obtain ⟨q, q1, q2, q3⟩ := (select_spec e2 hn hl hv t1 t2 (show countOf l l[p] p < 2 ^ 64 by omega)).1 h1
    refine ⟨_, e2.rank hn hl hv p, ?_⟩
    obtain ⟨hq, q4⟩ := List.getElem?_eq_some_iff.mp q2
    have hpq : q = p := by
      apply Nat.le_antisymm
      · apply Nat.le_of_not_lt; intro hlt
        have a := countOf_succ (v := l[p]) hp
        have b := countOf_mono l l[p] (show p + 1 ≤ q by omega)
        simp at a; omega
      · apply Nat.le_of_not_lt; intro hlt
        have a := countOf_succ (v := l[p]) hq
        have b := countOf_mono l l[p] (show q + 1 ≤ p by omega)
        rw [if_pos q4] at a; omega
    rw [q1, hpq]

/-- C15.  A matrix without the select table refuses `select`. -/
theorem C15_select_off (wm : WM) (v r : Nat) : select false wm v r = .throw := by simp [select]

/-! Non-trivial cases: two initialisations of the same object. -/

example : Reusable empty := by intro t ht; simp [empty] at ht

example : (do
    let wm ← init true empty [1, 1, 1, 0] 1
    let wm ← init true wm [5, 3, 7, 3, 0, 3, 6] 3
    return (← get wm 2, ← get2 wm 3, ← rank wm 3 6, ← rankLt wm 5 100, ← select true wm 3 2,
      ← select true wm 3 3)) = .ok (7, (3, 1), 3, 4, 5, SucVector.NotFound) := by decide +kernel

#print axioms C14_get_rank
#print axioms C14_rankLt_partial
#print axioms C14_rankLt_overflow
#print axioms C14_rank_at_4G
#print axioms C14_init_throws
#print axioms C14_get_zero_bits
#print axioms C15_select_partial
#print axioms C15_select_rank_partial
#print axioms C15_select_off

end Verif.Props.Wavelet
