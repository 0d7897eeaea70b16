import Verif.Model.FMindexC
import Verif.Proof.WaveletC
import Verif.Proof.FMindex
set_option linter.unusedSimpArgs false

/-! Lemmas for C112: the index over compressed vectors.  The facts about sorted suffixes are those of
Proof/FMindex and Proof/FMindexCore. -/
namespace Verif.FMindexC
open Verif.Spec.FMindex Verif.Spec.Frequency
open Verif.BitVector (BV setAt? setAt?_ok)
open Verif.CSuc (CV)
open Verif.Wavelet (at?_some)
open Verif.WaveletC (WM Built Full)
open Verif.FMindex (FreqView initCf bwtLoop getBitLen alignLoop cvtKey bitLenLoop bitLenLoop_bound bwtAt Coded
  bwtLoop_spec alignLoop_spec getD_last sa_length sa_lt lo hi hi_eq lo_nil hi_nil lo_cons hi_cons hi_le occ_app
  lf_row filter_getElem? code_nonzero occurs_iff occurrences_term occurrences_map prefix_term prefix_map range_iff
  lo_row)

/-- What a finished index answers from. -/
structure Idx (v sa : List Nat) (charNum B skip : Nat) (fm : FM) : Prop where
  cf : ∀ c, c < charNum → fm.cf[c]? = some (v.countP fun x => decide (x < c))
  wm : Built B (sa.map (bwtAt v)) fm.wm
  pos : Full fm.alignedPos (sa.map fun j => decide (j % skip = 0))
  chars : ∀ x ∈ v, x < charNum
  bits : charNum ≤ 2 ^ B
  bits_le : B ≤ 16
  sorted : IsSuffixArray v sa
  len : v.length < 2 ^ 32
  pos0 : 0 < v.length
  last : v.getD (v.length - 1) 0 = 0
  skip0 : 0 < skip

theorem init_idx {raw : Bool} {tb : Nat} {fm : FM} (hwm : ∀ o ∈ fm.wm.svv, o.blk = [])
    (hap : fm.alignedPos.blk = [])
    {freq : FreqView} {text : List Nat} {code : Nat → Nat} {cf : List Nat} {charNum : Nat}
    (hcf : initCf raw tb freq text = .ok (text.map code ++ [0], cf, charNum))
    (hc : Coded raw tb text code cf charNum) (hn : text.length + 17409 ≤ 2 ^ 32) (hbits : charNum < 2 ^ 16)
    {skip : Int} (hskip : 0 < skip) (sais : List Nat → Int × List Nat) {sa : List Nat}
    (hsais : sais (text.map code ++ [0]) = (0, sa)) (hsa : IsSuffixArray (text.map code ++ [0]) sa) :
    ∃ fm', init raw tb fm freq sais text skip = .ok fm' ∧ fm'.freq = freq ∧
      fm'.alignedSa = fm.alignedSa ++ sa.filter (fun j => decide (j % skip.toNat = 0)) ∧
      Idx (text.map code ++ [0]) sa charNum (getBitLen charNum) skip.toNat fm' := by
  generalize hv : text.map code ++ [0] = v at *
  have hlen : v.length = text.length + 1 := by rw [← hv]; simp
  have hB : getBitLen charNum = bitLenLoop charNum := by rw [getBitLen, if_neg (by have := hc.pos; omega)]
  have hbl := bitLenLoop_bound charNum
  have hB16 : getBitLen charNum ≤ 16 := by rw [hB]; exact hbl.2 16 hbits
  have hchars : ∀ x ∈ v, x < charNum := by
    intro x hx
    rw [← hv, List.mem_append] at hx
    rcases hx with hx | hx
    · obtain ⟨c, h1, rfl⟩ := List.mem_map.mp hx
      exact (hc.range c h1).2
    · simp at hx; subst hx; exact hc.pos
  have hsalt : ∀ j ∈ sa, j < v.length := fun j hj => List.mem_range.mp (hsa.perm.mem_iff.mp hj)
  have hbwt : ∀ x ∈ sa.map (bwtAt v), x < 2 ^ getBitLen charNum := by
    intro x hx
    obtain ⟨j, hj, rfl⟩ := List.mem_map.mp hx
    have := Verif.FMindex.bwt_lt hchars (by omega) (hsalt j hj)
    rw [hB]; omega
  have hsl := sa_length hsa
  obtain ⟨wm1, w3, w1⟩ := Verif.WaveletC.built_of_init hB16 (sa.map (bwtAt v)) (by simp; omega) fm.wm hwm
  obtain ⟨bv, b1, b2⟩ := BitVector.resize_rep (w := 64) (by omega) (st := BitVector.empty) (l := []) (n := v.length)
    (by refine ⟨rfl, rfl, fun i => ?_⟩; simp [BitVector.empty, BitVector.bitAt, BitVector.wd]) (by omega)
  have hb2 : Spec.BitVector.resize [] v.length = List.replicate sa.length false := by
    rw [Spec.BitVector.resize, hsl]; simp
  rw [hb2] at b2
  obtain ⟨bv2, a1, a2⟩ := alignLoop_spec skip.toNat sa [] bv fm.alignedSa (by simpa using b2)
  rw [List.nil_append] at a2
  obtain ⟨sv, s1, s2⟩ := Verif.WaveletC.full_of_init hap a2 (by simp; omega)
  refine ⟨⟨cf, wm1, fm.alignedSa ++ sa.filter fun j => decide (j % skip.toNat = 0), sv, freq, skip, charNum⟩, ?_, rfl, rfl,
    ⟨fun c hcc => by rw [← hv]; exact hc.cf c hcc, w1, s2, hchars, by rw [hB]; omega, hB16, hsa, by omega, by omega, ?_,
      by omega⟩⟩
  · rw [init, if_neg (by omega), hcf]
    simp only [Res.ok_bind, hsais]
    rw [if_neg (by decide), bwtLoop_spec hsl (by omega) sa hsalt, Res.ok_bind, w3]
    simp only [Res.ok_bind, b1]
    rw [List.length_nil] at a1
    rw [a1, Res.ok_bind]
    simp only [s1, Res.ok_bind, Res.pure_eq]
  · rw [← hv]; exact getD_last _

section
variable {v sa : List Nat} {charNum B skip : Nat} {fm : FM}

theorem Idx.bwt_lt (h : Idx v sa charNum B skip fm) : ∀ x ∈ sa.map (bwtAt v), x < 2 ^ B := by
  intro x hx
  obtain ⟨j, hj, rfl⟩ := List.mem_map.mp hx
  have := Verif.FMindex.bwt_lt h.chars h.pos0 (List.mem_range.mp (h.sorted.perm.mem_iff.mp hj))
  have := h.bits
  omega

theorem Idx.step (h : Idx v sa charNum B skip fm) {c : Nat} (hc0 : c ≠ 0) (hc : c < charNum) (p : List Nat) :
    rangeStep fm c (lo v p) (hi v p) = .ok (lo v (c :: p), hi v (c :: p)) := by
  have hcB : c < 2 ^ B := Nat.lt_of_lt_of_le hc h.bits
  have hl : (sa.map (bwtAt v)).length < 2 ^ 32 := by
    rw [List.length_map, sa_length h.sorted]; exact h.len
  rw [rangeStep, at?_some (h.cf c hc), Res.ok_bind, h.wm.rank hl h.bwt_lt hcB, Res.ok_bind,
    h.wm.rank hl h.bwt_lt hcB, Res.ok_bind, Res.pure_eq, lo_cons h.sorted h.pos0 h.last hc0 p,
    hi_cons h.sorted h.pos0 h.last hc0 p]

theorem Idx.loop (h : Idx v sa charNum B skip fm) (rk : List Nat) : ∀ p,
    (∀ c ∈ rk, c ≠ 0 ∧ c < charNum) →
    ∃ b e, rangeLoop fm rk (lo v p) (hi v p) = .ok (b, e) ∧
      (b < e → b = lo v (rk.reverse ++ p) ∧ e = hi v (rk.reverse ++ p)) ∧
      (¬ b < e → occurrences v (rk.reverse ++ p) = 0) := by
  induction rk with
  | nil =>
    intro p _
    refine ⟨_, _, rfl, fun _ => by simp, fun hne => ?_⟩
    have := hi_eq v p
    simp; omega
  | cons c rk ih =>
    intro p hrk
    rw [rangeLoop]
    by_cases hlt : lo v p < hi v p
    · rw [if_pos hlt, h.step (hrk c (by simp)).1 (hrk c (by simp)).2, Res.ok_bind]
      obtain ⟨b, e, h1, h2, h3⟩ := ih (c :: p) fun c hc => hrk c (by simp [hc])
      refine ⟨b, e, h1, ?_, ?_⟩
      · simpa using h2
      · simpa using h3
    · rw [if_neg hlt]
      refine ⟨_, _, rfl, fun h => absurd h hlt, fun _ => ?_⟩
      have := hi_eq v p
      exact occ_app v _ p (by omega)

theorem Idx.search (h : Idx v sa charNum B skip fm) {key : List Nat} (hk : ∀ c ∈ key, c ≠ 0 ∧ c < charNum) :
    searchKey fm key = .ok (if occurrences v key = 0 then none else some (lo v key, hi v key)) := by
  obtain ⟨b, e, h1, h2, h3⟩ := h.loop key.reverse [] fun c hc => hk c (by simpa using hc)
  rw [lo_nil, hi_nil] at h1
  rw [List.append_nil, List.reverse_reverse] at h2 h3
  have hsz : fm.wm.size = v.length := by rw [h.wm.size, List.length_map, sa_length h.sorted]
  rw [searchKey, hsz, h1, Res.ok_bind]
  simp only [Res.pure_eq, Res.ok.injEq]
  have := hi_eq v key
  by_cases hlt : b < e
  · obtain ⟨rfl, rfl⟩ := h2 hlt
    rw [if_pos hlt, if_neg (by omega)]
  · rw [if_neg hlt, if_pos (h3 hlt)]

theorem Idx.lf (h : Idx v sa charNum B skip fm) {i : Nat} (hi : i < sa.length) :
    lfStep fm i = .ok (bwtAt v sa[i], v.countP (fun x => decide (x < bwtAt v sa[i])) +
      Verif.Spec.Wavelet.countOf (sa.map (bwtAt v)) (bwtAt v sa[i]) i) := by
  have hl : (sa.map (bwtAt v)).length < 2 ^ 32 := by
    rw [List.length_map, sa_length h.sorted]; exact h.len
  have hc := Verif.FMindex.bwt_lt h.chars h.pos0 (sa_lt h.sorted hi)
  rw [lfStep, h.wm.get2 hl h.bits_le h.bwt_lt (p := i) (by simpa using hi), Res.ok_bind]
  simp only [List.getElem_map]
  rw [at?_some (h.cf _ hc), Res.ok_bind, Res.pure_eq, Nat.add_comm]

/-- From the row of `j + 1` to the row of `j`. -/
theorem Idx.lf_prev (h : Idx v sa charNum B skip fm) {i j : Nat} (hi : i < sa.length) (hj : sa[i] = j + 1)
    (hc : v.getD j 0 ≠ 0) :
    ∃ i', ∃ h' : i' < sa.length, sa[i'] = j ∧ lfStep fm i = .ok (v.getD j 0, i') := by
  obtain ⟨i', h', e1, e2⟩ := lf_row h.sorted h.last hi hj hc
  refine ⟨i', h', e1, ?_⟩
  have hb : bwtAt v sa[i] = v.getD j 0 := by rw [hj, bwtAt, if_pos (by omega)]; rfl
  rw [h.lf hi, hb, ← e2]

theorem Idx.conv (h : Idx v sa charNum B skip fm)
    (hasa : fm.alignedSa = sa.filter fun j => decide (j % skip = 0)) (hz : ∀ j, j + 1 < v.length → v.getD j 0 ≠ 0) (fuel : Nat) :
    ∀ (i t : Nat) (hi : i < sa.length), sa[i] < fuel → convLoop fm fuel i t = .ok (t + sa[i]) := by
  induction fuel with
  | zero => intro i t hi hf; omega
  | succ fuel ih =>
    intro i t hi hf
    have hb : i < (sa.map fun j => decide (j % skip = 0)).length := by simpa using hi
    rw [convLoop, h.pos.get i hb]
    simp only [Res.ok_bind, List.getElem_map]
    by_cases hs : sa[i] % skip = 0
    · simp only [hs, decide_true, if_true]
      rw [h.pos.rank1 i (by omega), Res.ok_bind, hasa]
      have hr : Spec.SucVector.rankOf (sa.map fun j => decide (j % skip = 0)) true i =
          (sa.take i).countP fun j => decide (j % skip = 0) := by
        rw [Spec.SucVector.rankOf, ← List.map_take, List.count, List.countP_map]
        apply List.countP_congr
        intro x _
        simp
      rw [hr, at?_some (filter_getElem? (fun j => decide (j % skip = 0)) sa i hi (by simpa using hs)), Res.ok_bind]; rfl
    · simp only [hs, decide_false, Bool.false_eq_true, if_false]
      obtain ⟨j, hj⟩ : ∃ j, sa[i] = j + 1 := by
        refine ⟨sa[i] - 1, ?_⟩
        have : sa[i] ≠ 0 := fun h => hs (by rw [h]; simp)
        omega
      have hlt := sa_lt h.sorted hi
      obtain ⟨i', h', e1, e2⟩ := h.lf_prev hi hj (hz j (by omega))
      rw [e2, Res.ok_bind]
      simp only []
      rw [ih i' (t + 1) h' (by omega)]
      congr 1; omega

end

section
variable {raw : Bool} {tb : Nat} {text sa : List Nat} {code : Nat → Nat} {cf : List Nat} {charNum B skip : Nat}
  {fm : FM}

theorem Idx.prev (h : Idx (text.map code ++ [0]) sa charNum B skip fm) (hc : Coded raw tb text code cf charNum)
    (hd : ∀ c ∈ text, prevChar raw fm (code c) = .ok c) (len : Nat) :
    ∀ (i j : Nat) (acc : List Nat) (hi : i < sa.length), sa[i] = j →
      prevLoop raw fm len i acc = .ok ((text.take j).drop (j - len) ++ acc) := by
  induction len with
  | zero =>
    intro i j acc hi hj
    rw [prevLoop, List.drop_eq_nil_of_le (by simp; omega), List.nil_append]
  | succ len ih =>
    intro i j acc hi hj
    have hlt := sa_lt h.sorted hi
    rw [List.length_append, List.length_map, List.length_singleton] at hlt
    cases j with
    | zero =>
      have hb : bwtAt (text.map code ++ [0]) sa[i] = 0 := by rw [hj, bwtAt, if_neg (by omega)]; exact h.last
      rw [prevLoop, h.lf hi, hb, Res.ok_bind]
      simp
    | succ j =>
      have hj' : j < text.length := by omega
      obtain ⟨e1, e2⟩ := code_nonzero hc hj'
      obtain ⟨i', h', g1, g2⟩ := h.lf_prev hi hj (by rw [e1]; exact e2)
      rw [prevLoop, g2, e1, Res.ok_bind]
      simp only [e2, if_false]
      rw [hd _ (List.getElem_mem hj'), Res.ok_bind, ih i' j _ h' g1, List.take_succ_eq_append_getElem hj',
        show j + 1 - (len + 1) = j - len by omega, List.drop_append_of_le_length (by simp; omega)]
      simp

/-- Search and location for a key whose characters all have codes. -/
theorem Idx.answers (h : Idx (text.map code ++ [0]) sa charNum B skip fm)
    (hasa : fm.alignedSa = sa.filter fun j => decide (j % skip = 0)) (hc : Coded raw tb text code cf charNum)
    (hd : ∀ c ∈ text, prevChar raw fm (code c) = .ok c) {key : List Nat} (hne : key ≠ [])
    (hk : ∀ c ∈ key, code c ≠ 0 ∧ code c < charNum)
    (hki : ∀ a ∈ key, ∀ b ∈ text, code a = code b → a = b) :
    Counts text key (searchKey fm (key.map code)) ∧
      ∀ b e, searchKey fm (key.map code) = .ok (some (b, e)) →
        ∀ fuel, text.length < fuel →
          Locates text key b e (convertPosition fm fuel) (getPrevString raw fm) := by
  have hkz : ∀ c ∈ key.map code, c ≠ 0 := by
    intro c hcm
    obtain ⟨a, ha, rfl⟩ := List.mem_map.mp hcm
    exact (hk a ha).1
  have hs := h.search (key := key.map code) (fun c hcm => by
    obtain ⟨a, ha, rfl⟩ := List.mem_map.mp hcm
    exact hk a ha)
  have hocc : occurrences (text.map code ++ [0]) (key.map code) = occurrences text key := by
    rw [occurrences_term hkz (by simpa using hne), occurrences_map code hki]
  rw [hocc] at hs
  rw [hs]
  have hhi := hi_eq (text.map code ++ [0]) (key.map code)
  rw [hocc] at hhi
  refine ⟨⟨fun h0 => by rw [if_pos h0], fun h0 => ⟨lo (text.map code ++ [0]) (key.map code), ?_⟩⟩, ?_⟩
  · rw [if_neg (by omega), hhi]
  · intro b e hbe fuel hfuel
    by_cases h0 : occurrences text key = 0
    · rw [if_pos h0] at hbe; simp at hbe
    rw [if_neg h0] at hbe
    simp only [Res.ok.injEq, Option.some.injEq, Prod.mk.injEq] at hbe
    obtain ⟨rfl, rfl⟩ := hbe
    have hsl := sa_length h.sorted
    have hvl : (text.map code ++ [0]).length = text.length + 1 := by simp
    have hile := hi_le (text.map code ++ [0]) (key.map code)
    have hzz : ∀ j, j + 1 < (text.map code ++ [0]).length → (text.map code ++ [0]).getD j 0 ≠ 0 := by
      intro j hj
      obtain ⟨e1, e2⟩ := code_nonzero hc (j := j) (by omega)
      rw [e1]; exact e2
    have hconv : ∀ i (hi : i < sa.length), convertPosition fm fuel i = .ok sa[i] := by
      intro i hi
      have := sa_lt h.sorted hi
      rw [convertPosition, h.conv hasa hzz fuel i 0 hi (by omega), Nat.zero_add]
    -- rows in the range are occurrences in the text
    have hrow : ∀ i (hi' : i < sa.length), (lo (text.map code ++ [0]) (key.map code) ≤ i ∧
        i < hi (text.map code ++ [0]) (key.map code)) ↔ OccursAt text key sa[i] := by
      intro i hi'
      have hlt := sa_lt h.sorted hi'
      rw [range_iff h.sorted _ hi', occurs_iff, List.drop_append_of_le_length (by simp; omega), prefix_term hkz,
        ← List.map_drop, prefix_map code fun a ha b hb => hki a ha b (List.mem_of_mem_drop hb)]
      constructor
      · intro hp
        refine ⟨?_, hp⟩
        apply Nat.lt_of_not_le
        intro hle
        rw [List.drop_eq_nil_of_le hle] at hp
        cases key with
        | nil => exact hne rfl
        | cons => simp at hp
      · exact fun hp => hp.2
    refine ⟨fun i h1 h2 => ?_, fun p hp => ?_, fun i j p h1 h2 h3 h4 h5 h6 => ?_⟩
    · have hi' : i < sa.length := by omega
      refine ⟨sa[i], (hrow i hi').mp ⟨h1, h2⟩, hconv i hi', fun len => ?_⟩
      rw [getPrevString, h.prev hc hd len i sa[i] [] hi' rfl, List.append_nil]
    · obtain ⟨i, hi', e⟩ := List.mem_iff_getElem.mp (h.sorted.perm.mem_iff.mpr (List.mem_range.mpr
        (show p < (text.map code ++ [0]).length by have := hp.1; omega)))
      subst e
      obtain ⟨g1, g2⟩ := (hrow i hi').mpr hp
      exact ⟨i, g1, g2, hconv i hi'⟩
    · have hi' : i < sa.length := by omega
      have hj' : j < sa.length := by omega
      rw [hconv i hi'] at h5
      rw [hconv j hj'] at h6
      have heq : sa[i] = sa[j] := by rw [Res.ok.inj h5, Res.ok.inj h6]
      have l1 := lo_row h.sorted hi'
      have l2 := lo_row h.sorted hj'
      rw [heq] at l1
      omega

end

end Verif.FMindexC
