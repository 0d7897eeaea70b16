import Verif.Model.FMindex
import Verif.Proof.FMindexCore
import Verif.Spec.Frequency
import Verif.Proof.WaveletSelect
set_option linter.unusedSimpArgs false

/-! Lemmas for C16 and C17: the model computes with the rows of the sorted suffixes. -/
namespace Verif.FMindex
open Verif.Spec.FMindex Verif.Spec.Frequency
open Verif.BitVector (BV setAt? setAt?_ok)
open Verif.SucVector (SV)
open Verif.Wavelet (WM Built Full at?_some)

/-! ## Cumulative frequencies -/

theorem countP_lt_succ (v : List Nat) (c : Nat) :
    v.countP (fun x => decide (x < c + 1)) = v.countP (fun x => decide (x < c)) + v.count c := by
  rw [List.count]
  apply Verif.Wavelet.countP_or
  intro x _
  simp only [decide_eq_true_eq, beq_iff_eq]
  omega

theorem countP_lt_zero (v : List Nat) : v.countP (fun x => decide (x < 0)) = 0 := by
  simp

theorem rawLoop_spec (text : List Nat) : ∀ (tbl : List Nat), (∀ c ∈ text, 0 < c ∧ c < tbl.length) →
    (∀ c, tbl.getD c 0 + text.count c < 2 ^ 32) →
    ∃ tbl', rawLoop text tbl = .ok (text, tbl') ∧ tbl'.length = tbl.length ∧
      ∀ c, tbl'.getD c 0 = tbl.getD c 0 + text.count c := by
  induction text with
  | nil => intro tbl _ _; exact ⟨tbl, rfl, rfl, by simp⟩
  | cons x xs ih =>
    intro tbl h1 h2
    have hx := h1 x (by simp)
    have h2x := h2 x
    rw [List.count_cons_self] at h2x
    have hg : tbl[x]? = some (tbl.getD x 0) := by
      rw [List.getD_eq_getElem?_getD, List.getElem?_eq_getElem hx.2]; rfl
    have hset : ∀ c, (tbl.set x (tbl.getD x 0 + 1)).getD c 0 = if c = x then tbl.getD x 0 + 1 else tbl.getD c 0 := by
      intro c
      simp only [List.getD_eq_getElem?_getD, List.getElem?_set]
      by_cases hcx : x = c
      · subst hcx; simp [hx.2]
      · rw [if_neg hcx, if_neg (fun h => hcx h.symm)]
    obtain ⟨tbl', e1, e2, e3⟩ := ih (tbl.set x (tbl.getD x 0 + 1))
      (fun c hc => by rw [List.length_set]; exact h1 c (by simp [hc]))
      (fun c => by
        have := h2 c
        rw [hset]
        rw [List.count_cons] at this
        split
        · next h => subst h; simp only [beq_self_eq_true, if_true] at this; omega
        · omega)
    refine ⟨tbl', ?_, by rw [e2, List.length_set], fun c => ?_⟩
    · rw [rawLoop, if_neg (by omega), at?_some hg, Res.ok_bind, Nat.mod_eq_of_lt (by omega), setAt?_ok _ hx.2,
        Res.ok_bind, e1]; rfl
    · rw [e3, hset, List.count_cons]
      by_cases hcx : c = x
      · subst hcx; simp; omega
      · have hne : (x == c) = false := by simp; omega
        rw [if_neg hcx, hne]; rfl

theorem rawCf_spec (tbl : List Nat) : ∀ (sum : Nat), sum + tbl.sum < 2 ^ 32 →
    ∀ i, i < tbl.length → (rawCf tbl sum)[i]? = some (sum + (tbl.take i).sum) := by
  induction tbl with
  | nil => intro sum _ i hi; simp at hi
  | cons n ns ih =>
    intro sum hs i hi
    rw [List.sum_cons] at hs
    cases i with
    | zero => simp [rawCf]
    | succ i =>
      rw [rawCf, List.getElem?_cons_succ, Nat.mod_eq_of_lt (by omega), ih _ (by omega) i (by simpa using hi)]
      simp [Nat.add_assoc]

theorem take_sum_counts {v tbl : List Nat} (h : ∀ c, tbl.getD c 0 = v.count c) :
    ∀ c, c ≤ tbl.length → (tbl.take c).sum = v.countP (fun x => decide (x < c)) := by
  intro c
  induction c with
  | zero => intro _; simp
  | succ c ih =>
    intro hc
    have h1 := h c
    rw [List.getD_eq_getElem?_getD, List.getElem?_eq_getElem (by omega), Option.getD_some] at h1
    rw [List.take_succ_eq_append_getElem (by omega), List.sum_append, ih (by omega), countP_lt_succ]
    simp [h1]

/-! ## The coded text -/

/-- What `initCf` leaves: every character coded by a number between 1 and `charNum - 1`, differently for
different characters, and the number of smaller characters for every code. -/
structure Coded (raw : Bool) (tb : Nat) (text : List Nat) (code : Nat → Nat) (cf : List Nat) (charNum : Nat) :
    Prop where
  range : ∀ c ∈ text, 0 < code c ∧ code c < charNum
  inj : ∀ a ∈ text, ∀ b ∈ text, code a = code b → a = b
  cf : ∀ c, c < charNum → cf[c]? = some ((text.map code ++ [0]).countP fun x => decide (x < c))
  pos : 0 < charNum
  max : charNum ≤ 2 ^ tb

theorem raw_coded {tb : Nat} {freq : FreqView} {text : List Nat} (htext : ∀ c ∈ text, 0 < c ∧ c < 2 ^ tb)
    (hn : text.length < 2 ^ 32 - 1) :
    ∃ cf, initCf true tb freq text = .ok (text ++ [0], cf, 2 ^ tb) ∧ Coded true tb text id cf (2 ^ tb) := by
  have hp : 0 < 2 ^ tb := Nat.two_pow_pos tb
  have hinit : ∀ c, ((List.replicate (2 ^ tb) 0).set 0 1).getD c 0 = if c = 0 then 1 else 0 := by
    intro c
    simp only [List.getD_eq_getElem?_getD, List.getElem?_set, List.length_replicate]
    by_cases hc : c = 0
    · subst hc; simp [hp]
    · rw [if_neg (by omega), if_neg hc, List.getElem?_replicate]
      split <;> rfl
  have hz : text.count 0 = 0 := List.count_eq_zero.mpr fun h => by have := htext 0 h; omega
  obtain ⟨tbl, e1, e2, e3⟩ := rawLoop_spec text ((List.replicate (2 ^ tb) 0).set 0 1)
    (fun c hc => by rw [List.length_set, List.length_replicate]; exact htext c hc)
    (fun c => by
      rw [hinit]
      have := List.count_le_length (a := c) (l := text)
      split <;> omega)
  rw [List.length_set, List.length_replicate] at e2
  have hcnt : ∀ c, tbl.getD c 0 = (text ++ [0]).count c := by
    intro c
    rw [e3, hinit, List.count_append, Nat.add_comm]
    congr 1
    by_cases hc : c = 0
    · subst hc; simp
    · have hne : (0 == c) = false := by simp; omega
      rw [if_neg hc, List.count_cons, hne]; rfl
  refine ⟨rawCf tbl 0, ?_, ⟨fun c hc => htext c hc, fun a _ b _ h => h, fun c hc => ?_, hp, Nat.le_refl _⟩⟩
  · rw [initCf, if_neg (by omega), if_pos rfl]
    simp only [e1, Res.ok_bind]; rfl
  · have hs := take_sum_counts hcnt tbl.length (Nat.le_refl _)
    rw [List.take_length] at hs
    have hle := List.countP_le_length (p := fun x => decide (x < tbl.length)) (l := text ++ [0])
    rw [List.length_append, List.length_singleton] at hle
    rw [rawCf_spec tbl 0 (by omega) c (by omega), Nat.zero_add, take_sum_counts hcnt c (by omega)]
    simp

/-- The code of a character in a coded index. -/
def codeOf (freq : FreqView) (c : Nat) : Nat :=
  match freq.getIndex c with
  | .ok i => i + 1
  | _ => 0

theorem cvtLoop_spec {tb : Nat} {freq : FreqView} (htb : tb ≤ 32) (text : List Nat)
    (h : ∀ c ∈ text, ∃ i, freq.getIndex c = .ok i ∧ i + 1 < 2 ^ tb) :
    cvtLoop tb freq text = .ok (text.map (codeOf freq)) := by
  induction text with
  | nil => rfl
  | cons c cs ih =>
    obtain ⟨i, h1, h2⟩ := h c (by simp)
    have : 2 ^ tb ≤ 2 ^ 32 := Nat.pow_le_pow_right (by omega) htb
    rw [cvtLoop, h1, Res.ok_bind, ih fun c hc => h c (by simp [hc]), Res.ok_bind, Res.pure_eq,
      Nat.mod_eq_of_lt (a := i) (by omega), Nat.mod_eq_of_lt h2]
    simp [codeOf, h1]

theorem cvtCf_spec {freq : FreqView} {v : List Nat} (hlen : v.length < 2 ^ 32) (cnt : Nat) : ∀ i, 0 < i →
    (∀ k, k < cnt → ∃ e, freq.getElement (i + k - 1) = .ok e ∧ freq.getFrequency e = .ok (v.count (i + k))) →
    ∃ cf, cvtCf freq cnt i (v.countP fun x => decide (x < i)) = .ok cf ∧ cf.length = cnt ∧
      ∀ k, k < cnt → cf[k]? = some (v.countP fun x => decide (x < i + k)) := by
  induction cnt with
  | zero => intro i _ _; exact ⟨[], rfl, rfl, fun k hk => by omega⟩
  | succ cnt ih =>
    intro i hi h
    obtain ⟨e, h1, h2⟩ := h 0 (by omega)
    rw [Nat.add_zero] at h1 h2
    obtain ⟨cf, g1, g2, g3⟩ := ih (i + 1) (by omega) fun k hk => by
      obtain ⟨e, h1, h2⟩ := h (k + 1) (by omega)
      exact ⟨e, by rw [show i + 1 + k - 1 = i + (k + 1) - 1 by omega]; exact h1,
        by rw [show i + 1 + k = i + (k + 1) by omega]; exact h2⟩
    have hle := List.countP_le_length (p := fun x => decide (x < i + 1)) (l := v)
    refine ⟨(v.countP fun x => decide (x < i)) :: cf, ?_, by simp [g2], fun k hk => ?_⟩
    · rw [cvtCf, h1, Res.ok_bind, h2, Res.ok_bind, ← countP_lt_succ, Nat.mod_eq_of_lt (by omega), g1]; rfl
    · cases k with
      | zero => simp
      | succ k =>
        rw [List.getElem?_cons_succ, g3 k (by omega), show i + 1 + k = i + (k + 1) by omega]

theorem count_map_inj {text : List Nat} (f : Nat → Nat) {a : Nat}
    (h : ∀ b ∈ text, f b = f a → b = a) : (text.map f).count (f a) = text.count a := by
  rw [List.count, List.count, List.countP_map]
  apply List.countP_congr
  intro b hb
  simp only [Function.comp, beq_iff_eq]
  exact ⟨h b hb, fun h => by rw [h]⟩

theorem cvt_coded {tb : Nat} (htb : tb ≤ 32) {freq : FreqView} {text : List Nat}
    (hr : Ranks text (fun c => c < 2 ^ tb) freq.size freq.getFrequency freq.getIndex freq.getElement)
    (htext : ∀ c ∈ text, c < 2 ^ tb) (hsize : freq.size + 1 ≤ 2 ^ tb) (hn : text.length < 2 ^ 32 - 1) :
    ∃ cf, initCf false tb freq text = .ok (text.map (codeOf freq) ++ [0], cf, freq.size + 1) ∧
      Coded false tb text (codeOf freq) cf (freq.size + 1) := by
  have hcode : ∀ c ∈ text, ∃ i, i < freq.size ∧ freq.getIndex c = .ok i ∧ freq.getElement i = .ok c ∧
      codeOf freq c = i + 1 := by
    intro c hc
    obtain ⟨i, h1, h2, h3⟩ := hr.index_elem c hc
    exact ⟨i, h1, h2, h3, by simp [codeOf, h2]⟩
  have hinj : ∀ a ∈ text, ∀ b ∈ text, codeOf freq a = codeOf freq b → a = b := by
    intro a ha b hb hab
    obtain ⟨i, _, _, h3, h4⟩ := hcode a ha
    obtain ⟨j, _, _, g3, g4⟩ := hcode b hb
    have : i = j := by omega
    subst this
    exact Res.ok.inj (h3.symm.trans g3)
  have hv1 : ∀ x ∈ text.map (codeOf freq), x ≠ 0 := by
    intro x hx
    obtain ⟨c, hc, rfl⟩ := List.mem_map.mp hx
    obtain ⟨i, _, _, _, h4⟩ := hcode c hc
    omega
  have h1cnt : (text.map (codeOf freq) ++ [0]).countP (fun x => decide (x < 1)) = 1 := by
    rw [List.countP_append, List.countP_eq_zero.mpr]
    · simp
    · intro x hx
      have := hv1 x hx
      simp; omega
  obtain ⟨cf, g1, g2, g3⟩ := cvtCf_spec (freq := freq) (v := text.map (codeOf freq) ++ [0]) (by simp; omega)
    freq.size 1 (by omega) (fun k hk => by
      obtain ⟨e, he, h1, h2⟩ := hr.elem_index k hk
      have hce : codeOf freq e = k + 1 := by simp [codeOf, h2]
      refine ⟨e, by rw [show 1 + k - 1 = k by omega]; exact h1, ?_⟩
      rw [hr.freq e (htext e he), List.count_append, show 1 + k = codeOf freq e by omega,
        count_map_inj _ (fun b hb h => hinj b hb e he h)]
      simp [hce])
  rw [h1cnt] at g1
  refine ⟨0 :: cf, ?_, ⟨fun c hc => ?_, hinj, fun c hc => ?_, by omega, hsize⟩⟩
  · rw [initCf, if_neg (by omega), if_neg (by simp)]
    simp only []
    rw [if_neg (by omega), cvtLoop_spec htb text (fun c hc => by
      obtain ⟨i, h1, h2, _, _⟩ := hcode c hc; exact ⟨i, h2, by omega⟩), Res.ok_bind,
      show freq.size + 1 - 1 = freq.size by omega, g1]
    rfl
  · obtain ⟨i, h1, _, _, h4⟩ := hcode c hc; omega
  · cases c with
    | zero => simp
    | succ c => rw [List.getElem?_cons_succ, g3 c (by omega), Nat.add_comm 1 c]

/-! ## init -/

theorem bwtLoop_spec {v : List Nat} {size : Nat} (hs : size = v.length) (h0 : 0 < v.length) (sa : List Nat)
    (h : ∀ j ∈ sa, j < v.length) : bwtLoop v size sa = .ok (sa.map (bwtAt v)) := by
  subst hs
  induction sa with
  | nil => rfl
  | cons j sa ih =>
    have hj := h j (by simp)
    have e : ∀ i, i < v.length → at? v i = .ok (v.getD i 0) := fun i hi => by
      apply at?_some; rw [List.getD_eq_getElem?_getD, List.getElem?_eq_getElem hi]; rfl
    have hc : bwtChar v v.length j = .ok (bwtAt v j) := by
      rw [bwtChar, bwtAt]
      split
      · exact e _ (by omega)
      · exact e _ (by omega)
    rw [bwtLoop, hc, Res.ok_bind, ih fun j hj => h j (by simp [hj])]; rfl

theorem bitLenLoop_bound : ∀ x, x < 2 ^ bitLenLoop x ∧ ∀ k, x < 2 ^ k → bitLenLoop x ≤ k := by
  intro x
  induction x using Nat.strongRecOn with
  | _ x ih =>
    rw [bitLenLoop]
    split
    · next h => subst h; simp
    · next h =>
      obtain ⟨h1, h2⟩ := ih (x / 2) (by omega)
      refine ⟨by rw [Nat.pow_succ]; omega, fun k hk => ?_⟩
      cases k with
      | zero => simp at hk; omega
      | succ k =>
        have := h2 k (by rw [Nat.pow_succ] at hk; omega)
        omega

theorem alignLoop_spec (skip : Nat) (sa : List Nat) : ∀ (ds : List Nat) (bv : BV 64) (out : List Nat),
    BitVector.Rep bv (ds.map (fun j => decide (j % skip = 0)) ++ List.replicate sa.length false) →
    ∃ bv', alignLoop skip sa ds.length bv out = .ok (bv', out ++ sa.filter fun j => decide (j % skip = 0)) ∧
      BitVector.Rep bv' ((ds ++ sa).map fun j => decide (j % skip = 0)) := by
  induction sa with
  | nil => intro ds bv out h; exact ⟨bv, by simp [alignLoop], by simpa using h⟩
  | cons j sa ih =>
    intro ds bv out h
    obtain ⟨bv', e1, e2⟩ := Verif.Wavelet.set_bits (b := decide (j % skip = 0)) (n := sa.length) (by simpa using h)
    rw [List.length_map] at e1
    obtain ⟨bv2, g1, g2⟩ := ih (ds ++ [j]) bv' (out ++ [j].filter fun j => decide (j % skip = 0)) (by simpa using e2)
    rw [List.length_append, List.length_singleton] at g1
    refine ⟨bv2, ?_, by simpa using g2⟩
    rw [alignLoop]
    by_cases hj : j % skip = 0
    · simp only [hj, decide_true, Verif.Wavelet.setIf, if_true] at e1
      simp only [hj, if_true, e1, Res.ok_bind]
      simp only [List.filter_cons, List.filter_nil, hj, decide_true, if_true] at g1
      rw [g1]
      simp [hj]
    · simp only [hj, decide_false, Verif.Wavelet.setIf, Bool.false_eq_true, if_false, Res.ok.injEq] at e1
      subst e1
      simp only [hj, if_false]
      simp only [List.filter_cons, List.filter_nil, hj, decide_false, Bool.false_eq_true, if_false,
        List.append_nil] at g1
      rw [g1]
      simp [hj]

/-- What a finished index answers from. -/
structure Idx (v sa : List Nat) (charNum B skip : Nat) (fm : FM) : Prop where
  cf : ∀ c, c < charNum → fm.cf[c]? = some (v.countP fun x => decide (x < c))
  wm : Built B (sa.map (bwtAt v)) fm.wm
  pos : Full fm.alignedPos (sa.map fun j => decide (j % skip = 0))
  chars : ∀ x ∈ v, x < charNum
  bits : charNum ≤ 2 ^ B
  bits_le : B ≤ 16
  sorted : IsSuffixArray v sa
  len : v.length < 2 ^ 32
  pos0 : 0 < v.length
  last : v.getD (v.length - 1) 0 = 0
  skip0 : 0 < skip

theorem bwt_lt {v : List Nat} {n : Nat} (h : ∀ x ∈ v, x < n) (h0 : 0 < v.length) {j : Nat} (hj : j < v.length) :
    bwtAt v j < n := by
  have e : ∀ i, i < v.length → v.getD i 0 < n := fun i hi => by
    rw [List.getD_eq_getElem?_getD, List.getElem?_eq_getElem hi]
    exact h _ (List.getElem_mem hi)
  rw [bwtAt]
  split
  · exact e _ (by omega)
  · exact e _ (by omega)

theorem getD_last (t : List Nat) : (t ++ [0]).getD ((t ++ [0]).length - 1) 0 = 0 := by
  simp

theorem init_idx {raw : Bool} {tb : Nat} {fm : FM}
    {freq : FreqView} {text : List Nat} {code : Nat → Nat} {cf : List Nat} {charNum : Nat}
    (hcf : initCf raw tb freq text = .ok (text.map code ++ [0], cf, charNum))
    (hc : Coded raw tb text code cf charNum) (hn : text.length < 2 ^ 32 - 1) (hbits : charNum < 2 ^ 16)
    {skip : Int} (hskip : 0 < skip) (sais : List Nat → Int × List Nat) {sa : List Nat}
    (hsais : sais (text.map code ++ [0]) = (0, sa)) (hsa : IsSuffixArray (text.map code ++ [0]) sa) :
    ∃ fm', init raw tb fm freq sais text skip = .ok fm' ∧ fm'.freq = freq ∧
      fm'.alignedSa = fm.alignedSa ++ sa.filter (fun j => decide (j % skip.toNat = 0)) ∧
      Idx (text.map code ++ [0]) sa charNum (getBitLen charNum) skip.toNat fm' := by
  generalize hv : text.map code ++ [0] = v at *
  have hlen : v.length = text.length + 1 := by rw [← hv]; simp
  have hB : getBitLen charNum = bitLenLoop charNum := by rw [getBitLen, if_neg (by have := hc.pos; omega)]
  have hbl := bitLenLoop_bound charNum
  have hB16 : getBitLen charNum ≤ 16 := by rw [hB]; exact hbl.2 16 hbits
  have hchars : ∀ x ∈ v, x < charNum := by
    intro x hx
    rw [← hv, List.mem_append] at hx
    rcases hx with hx | hx
    · obtain ⟨c, h1, rfl⟩ := List.mem_map.mp hx
      exact (hc.range c h1).2
    · simp at hx; subst hx; exact hc.pos
  have hsalt : ∀ j ∈ sa, j < v.length := fun j hj => List.mem_range.mp (hsa.perm.mem_iff.mp hj)
  have hbwt : ∀ x ∈ sa.map (bwtAt v), x < 2 ^ getBitLen charNum := by
    intro x hx
    obtain ⟨j, hj, rfl⟩ := List.mem_map.mp hx
    have := bwt_lt hchars (by omega) (hsalt j hj)
    rw [hB]; omega
  have hsl := sa_length hsa
  obtain ⟨wm1, w1, _, w3⟩ := Verif.Wavelet.built_of_init hB16 (sa.map (bwtAt v)) (by simp; omega)
    (fun j _ => by
      have := List.countP_le_length (p := fun x => !x.testBit j) (l := sa.map (bwtAt v))
      rw [Verif.Wavelet.zeros]; simp only [List.length_map] at this; omega) false fm.wm
  obtain ⟨bv, b1, b2⟩ := BitVector.resize_rep (w := 64) (by omega) (st := BitVector.empty) (l := []) (n := v.length)
    (by refine ⟨rfl, rfl, fun i => ?_⟩; simp [BitVector.empty, BitVector.bitAt, BitVector.wd]) (by omega)
  have hb2 : Spec.BitVector.resize [] v.length = List.replicate sa.length false := by
    rw [Spec.BitVector.resize, hsl]; simp
  rw [hb2] at b2
  obtain ⟨bv2, a1, a2⟩ := alignLoop_spec skip.toNat sa [] bv fm.alignedSa (by simpa using b2)
  rw [List.nil_append] at a2
  obtain ⟨sv, s1, s2⟩ := Verif.Wavelet.full_of_init fm.alignedPos a2 (by simp; omega)
  refine ⟨⟨cf, wm1, fm.alignedSa ++ sa.filter fun j => decide (j % skip.toNat = 0), sv, freq, skip, charNum⟩, ?_, rfl, rfl,
    ⟨fun c hcc => by rw [← hv]; exact hc.cf c hcc, w1, s2, hchars, by rw [hB]; omega, hB16, hsa, by omega, by omega, ?_,
      by omega⟩⟩
  · rw [init, if_neg (by omega), hcf]
    simp only [Res.ok_bind, hsais]
    rw [if_neg (by decide), bwtLoop_spec hsl (by omega) sa hsalt, Res.ok_bind, w3]
    simp only [Verif.Wavelet.initSel, Bool.false_eq_true, if_false, Res.ok_bind, b1]
    rw [List.length_nil] at a1
    rw [a1, Res.ok_bind]
    simp only [s1, Res.ok_bind, Res.pure_eq]
  · rw [← hv]; exact getD_last _

/-! ## Queries -/

section
variable {v sa : List Nat} {charNum B skip : Nat} {fm : FM}

theorem Idx.bwt_lt (h : Idx v sa charNum B skip fm) : ∀ x ∈ sa.map (bwtAt v), x < 2 ^ B := by
  intro x hx
  obtain ⟨j, hj, rfl⟩ := List.mem_map.mp hx
  have := FMindex.bwt_lt h.chars h.pos0 (List.mem_range.mp (h.sorted.perm.mem_iff.mp hj))
  have := h.bits
  omega

theorem Idx.step (h : Idx v sa charNum B skip fm) {c : Nat} (hc0 : c ≠ 0) (hc : c < charNum) (p : List Nat) :
    rangeStep fm c (lo v p) (hi v p) = .ok (lo v (c :: p), hi v (c :: p)) := by
  have hcB : c < 2 ^ B := Nat.lt_of_lt_of_le hc h.bits
  have hl : (sa.map (bwtAt v)).length < 2 ^ 32 := by
    rw [List.length_map, sa_length h.sorted]; exact h.len
  rw [rangeStep, at?_some (h.cf c hc), Res.ok_bind, h.wm.rank hl h.bwt_lt hcB, Res.ok_bind,
    h.wm.rank hl h.bwt_lt hcB, Res.ok_bind, Res.pure_eq, lo_cons h.sorted h.pos0 h.last hc0 p,
    hi_cons h.sorted h.pos0 h.last hc0 p]

theorem occ_tail (v : List Nat) (c : Nat) (p : List Nat) (h : occurrences v p = 0) :
    occurrences v (c :: p) = 0 := by
  rw [occurrences, List.countP_eq_zero] at *
  intro j hj hp
  rw [List.mem_range] at hj
  rw [List.drop_eq_getElem_cons hj] at hp
  simp only [List.isPrefixOf, Bool.and_eq_true] at hp
  by_cases hj1 : j + 1 < v.length
  · exact h (j + 1) (List.mem_range.mpr hj1) hp.2
  · rw [List.drop_eq_nil_of_le (by omega)] at hp
    have hnil : p = [] := by
      cases p with
      | nil => rfl
      | cons => simp [List.isPrefixOf] at hp
    subst hnil
    exact h j (List.mem_range.mpr hj) (by simp)

theorem occ_app (v : List Nat) (q p : List Nat) (h : occurrences v p = 0) : occurrences v (q ++ p) = 0 := by
  induction q with
  | nil => exact h
  | cons c q ih => exact occ_tail v c _ ih

theorem Idx.loop (h : Idx v sa charNum B skip fm) (rk : List Nat) : ∀ p,
    (∀ c ∈ rk, c ≠ 0 ∧ c < charNum) →
    ∃ b e, rangeLoop fm rk (lo v p) (hi v p) = .ok (b, e) ∧
      (b < e → b = lo v (rk.reverse ++ p) ∧ e = hi v (rk.reverse ++ p)) ∧
      (¬ b < e → occurrences v (rk.reverse ++ p) = 0) := by
  induction rk with
  | nil =>
    intro p _
    refine ⟨_, _, rfl, fun _ => by simp, fun hne => ?_⟩
    have := hi_eq v p
    simp; omega
  | cons c rk ih =>
    intro p hrk
    rw [rangeLoop]
    by_cases hlt : lo v p < hi v p
    · rw [if_pos hlt, h.step (hrk c (by simp)).1 (hrk c (by simp)).2, Res.ok_bind]
      obtain ⟨b, e, h1, h2, h3⟩ := ih (c :: p) fun c hc => hrk c (by simp [hc])
      refine ⟨b, e, h1, ?_, ?_⟩
      · simpa using h2
      · simpa using h3
    · rw [if_neg hlt]
      refine ⟨_, _, rfl, fun h => absurd h hlt, fun _ => ?_⟩
      have := hi_eq v p
      exact occ_app v _ p (by omega)

theorem Idx.search (h : Idx v sa charNum B skip fm) {key : List Nat} (hk : ∀ c ∈ key, c ≠ 0 ∧ c < charNum) :
    searchKey fm key = .ok (if occurrences v key = 0 then none else some (lo v key, hi v key)) := by
  obtain ⟨b, e, h1, h2, h3⟩ := h.loop key.reverse [] fun c hc => hk c (by simpa using hc)
  rw [lo_nil, hi_nil] at h1
  rw [List.append_nil, List.reverse_reverse] at h2 h3
  have hsz : fm.wm.size = v.length := by rw [h.wm.size, List.length_map, sa_length h.sorted]
  rw [searchKey, hsz, h1, Res.ok_bind]
  simp only [Res.pure_eq, Res.ok.injEq]
  have := hi_eq v key
  by_cases hlt : b < e
  · obtain ⟨rfl, rfl⟩ := h2 hlt
    rw [if_pos hlt, if_neg (by omega)]
  · rw [if_neg hlt, if_pos (h3 hlt)]

theorem Idx.lf (h : Idx v sa charNum B skip fm) {i : Nat} (hi : i < sa.length) :
    lfStep fm i = .ok (bwtAt v sa[i], v.countP (fun x => decide (x < bwtAt v sa[i])) +
      Verif.Spec.Wavelet.countOf (sa.map (bwtAt v)) (bwtAt v sa[i]) i) := by
  have hl : (sa.map (bwtAt v)).length < 2 ^ 32 := by
    rw [List.length_map, sa_length h.sorted]; exact h.len
  have hc := FMindex.bwt_lt h.chars h.pos0 (sa_lt h.sorted hi)
  rw [lfStep, h.wm.get2 hl h.bits_le h.bwt_lt (p := i) (by simpa using hi), Res.ok_bind]
  simp only [List.getElem_map]
  rw [at?_some (h.cf _ hc), Res.ok_bind, Res.pure_eq, Nat.add_comm]

/-- From the row of `j + 1` to the row of `j`. -/
theorem Idx.lf_prev (h : Idx v sa charNum B skip fm) {i j : Nat} (hi : i < sa.length) (hj : sa[i] = j + 1)
    (hc : v.getD j 0 ≠ 0) :
    ∃ i', ∃ h' : i' < sa.length, sa[i'] = j ∧ lfStep fm i = .ok (v.getD j 0, i') := by
  obtain ⟨i', h', e1, e2⟩ := lf_row h.sorted h.last hi hj hc
  refine ⟨i', h', e1, ?_⟩
  have hb : bwtAt v sa[i] = v.getD j 0 := by rw [hj, bwtAt, if_pos (by omega)]; rfl
  rw [h.lf hi, hb, ← e2]

theorem filter_getElem? {α : Type} (q : α → Bool) (L : List α) : ∀ i (h : i < L.length), q L[i] = true →
    (L.filter q)[(L.take i).countP q]? = some L[i] := by
  induction L with
  | nil => intro i h; simp at h
  | cons x L ih =>
    intro i h hq
    cases i with
    | zero =>
      simp at hq
      simp [List.filter_cons, hq]
    | succ i =>
      have := ih i (by simpa using h) (by simpa using hq)
      by_cases hx : q x = true
      · simp [List.filter_cons, hx, this]
      · simp [List.filter_cons, hx, this]

theorem Idx.conv (h : Idx v sa charNum B skip fm)
    (hasa : fm.alignedSa = sa.filter fun j => decide (j % skip = 0)) (hz : ∀ j, j + 1 < v.length → v.getD j 0 ≠ 0) (fuel : Nat) :
    ∀ (i t : Nat) (hi : i < sa.length), sa[i] < fuel → convLoop fm fuel i t = .ok (t + sa[i]) := by
  induction fuel with
  | zero => intro i t hi hf; omega
  | succ fuel ih =>
    intro i t hi hf
    have hb : i < (sa.map fun j => decide (j % skip = 0)).length := by simpa using hi
    rw [convLoop, h.pos.get i hb]
    simp only [Res.ok_bind, List.getElem_map]
    by_cases hs : sa[i] % skip = 0
    · simp only [hs, decide_true, if_true]
      rw [h.pos.rank1 i (by omega), Res.ok_bind, hasa]
      have hr : Spec.SucVector.rankOf (sa.map fun j => decide (j % skip = 0)) true i =
          (sa.take i).countP fun j => decide (j % skip = 0) := by
        rw [Spec.SucVector.rankOf, ← List.map_take, List.count, List.countP_map]
        apply List.countP_congr
        intro x _
        simp
      rw [hr, at?_some (filter_getElem? (fun j => decide (j % skip = 0)) sa i hi (by simpa using hs)), Res.ok_bind]; rfl
    · simp only [hs, decide_false, Bool.false_eq_true, if_false]
      obtain ⟨j, hj⟩ : ∃ j, sa[i] = j + 1 := by
        refine ⟨sa[i] - 1, ?_⟩
        have : sa[i] ≠ 0 := fun h => hs (by rw [h]; simp)
        omega
      have hlt := sa_lt h.sorted hi
      obtain ⟨i', h', e1, e2⟩ := h.lf_prev hi hj (hz j (by omega))
      rw [e2, Res.ok_bind]
      simp only []
      rw [ih i' (t + 1) h' (by omega)]
      congr 1; omega

end

/-! ## Answers about the text -/

section
variable {raw : Bool} {tb : Nat} {text sa : List Nat} {code : Nat → Nat} {cf : List Nat} {charNum B skip : Nat}
  {fm : FM}

theorem code_nonzero (hc : Coded raw tb text code cf charNum) {j : Nat} (hj : j < text.length) :
    (text.map code ++ [0]).getD j 0 = code text[j] ∧ code text[j] ≠ 0 := by
  refine ⟨?_, by have := (hc.range _ (List.getElem_mem hj)).1; omega⟩
  rw [List.getD_eq_getElem?_getD, List.getElem?_append_left (by simpa using hj)]
  simp [hj]

theorem Idx.prev (h : Idx (text.map code ++ [0]) sa charNum B skip fm) (hc : Coded raw tb text code cf charNum)
    (hd : ∀ c ∈ text, prevChar raw fm (code c) = .ok c) (len : Nat) :
    ∀ (i j : Nat) (acc : List Nat) (hi : i < sa.length), sa[i] = j →
      prevLoop raw fm len i acc = .ok ((text.take j).drop (j - len) ++ acc) := by
  induction len with
  | zero =>
    intro i j acc hi hj
    rw [prevLoop, List.drop_eq_nil_of_le (by simp; omega), List.nil_append]
  | succ len ih =>
    intro i j acc hi hj
    have hlt := sa_lt h.sorted hi
    rw [List.length_append, List.length_map, List.length_singleton] at hlt
    cases j with
    | zero =>
      have hb : bwtAt (text.map code ++ [0]) sa[i] = 0 := by rw [hj, bwtAt, if_neg (by omega)]; exact h.last
      rw [prevLoop, h.lf hi, hb, Res.ok_bind]
      simp
    | succ j =>
      have hj' : j < text.length := by omega
      obtain ⟨e1, e2⟩ := code_nonzero hc hj'
      obtain ⟨i', h', g1, g2⟩ := h.lf_prev hi hj (by rw [e1]; exact e2)
      rw [prevLoop, g2, e1, Res.ok_bind]
      simp only [e2, if_false]
      rw [hd _ (List.getElem_mem hj'), Res.ok_bind, ih i' j _ h' g1, List.take_succ_eq_append_getElem hj',
        show j + 1 - (len + 1) = j - len by omega, List.drop_append_of_le_length (by simp; omega)]
      simp

theorem occurs_iff (text key : List Nat) (p : Nat) :
    OccursAt text key p ↔ p < text.length ∧ key.isPrefixOf (text.drop p) = true := by
  rw [OccursAt, List.isPrefixOf_iff_prefix]

/-- Search and location for a key whose characters all have codes. -/
theorem Idx.answers (h : Idx (text.map code ++ [0]) sa charNum B skip fm)
    (hasa : fm.alignedSa = sa.filter fun j => decide (j % skip = 0)) (hc : Coded raw tb text code cf charNum)
    (hd : ∀ c ∈ text, prevChar raw fm (code c) = .ok c) {key : List Nat} (hne : key ≠ [])
    (hk : ∀ c ∈ key, code c ≠ 0 ∧ code c < charNum)
    (hki : ∀ a ∈ key, ∀ b ∈ text, code a = code b → a = b) :
    Counts text key (searchKey fm (key.map code)) ∧
      ∀ b e, searchKey fm (key.map code) = .ok (some (b, e)) →
        ∀ fuel, text.length < fuel →
          Locates text key b e (convertPosition fm fuel) (getPrevString raw fm) := by
  have hkz : ∀ c ∈ key.map code, c ≠ 0 := by
    intro c hcm
    obtain ⟨a, ha, rfl⟩ := List.mem_map.mp hcm
    exact (hk a ha).1
  have hs := h.search (key := key.map code) (fun c hcm => by
    obtain ⟨a, ha, rfl⟩ := List.mem_map.mp hcm
    exact hk a ha)
  have hocc : occurrences (text.map code ++ [0]) (key.map code) = occurrences text key := by
    rw [occurrences_term hkz (by simpa using hne), occurrences_map code hki]
  rw [hocc] at hs
  rw [hs]
  have hhi := hi_eq (text.map code ++ [0]) (key.map code)
  rw [hocc] at hhi
  refine ⟨⟨fun h0 => by rw [if_pos h0], fun h0 => ⟨lo (text.map code ++ [0]) (key.map code), ?_⟩⟩, ?_⟩
  · rw [if_neg (by omega), hhi]
  · intro b e hbe fuel hfuel
    by_cases h0 : occurrences text key = 0
    · rw [if_pos h0] at hbe; simp at hbe
    rw [if_neg h0] at hbe
    simp only [Res.ok.injEq, Option.some.injEq, Prod.mk.injEq] at hbe
    obtain ⟨rfl, rfl⟩ := hbe
    have hsl := sa_length h.sorted
    have hvl : (text.map code ++ [0]).length = text.length + 1 := by simp
    have hile := hi_le (text.map code ++ [0]) (key.map code)
    have hzz : ∀ j, j + 1 < (text.map code ++ [0]).length → (text.map code ++ [0]).getD j 0 ≠ 0 := by
      intro j hj
      obtain ⟨e1, e2⟩ := code_nonzero hc (j := j) (by omega)
      rw [e1]; exact e2
    have hconv : ∀ i (hi : i < sa.length), convertPosition fm fuel i = .ok sa[i] := by
      intro i hi
      have := sa_lt h.sorted hi
      rw [convertPosition, h.conv hasa hzz fuel i 0 hi (by omega), Nat.zero_add]
    -- rows in the range are occurrences in the text
    have hrow : ∀ i (hi' : i < sa.length), (lo (text.map code ++ [0]) (key.map code) ≤ i ∧
        i < hi (text.map code ++ [0]) (key.map code)) ↔ OccursAt text key sa[i] := by
      intro i hi'
      have hlt := sa_lt h.sorted hi'
      rw [range_iff h.sorted _ hi', occurs_iff, List.drop_append_of_le_length (by simp; omega), prefix_term hkz,
        ← List.map_drop, prefix_map code fun a ha b hb => hki a ha b (List.mem_of_mem_drop hb)]
      constructor
      · intro hp
        refine ⟨?_, hp⟩
        apply Nat.lt_of_not_le
        intro hle
        rw [List.drop_eq_nil_of_le hle] at hp
        cases key with
        | nil => exact hne rfl
        | cons => simp at hp
      · exact fun hp => hp.2
    refine ⟨fun i h1 h2 => ?_, fun p hp => ?_, fun i j p h1 h2 h3 h4 h5 h6 => ?_⟩
    · have hi' : i < sa.length := by omega
      refine ⟨sa[i], (hrow i hi').mp ⟨h1, h2⟩, hconv i hi', fun len => ?_⟩
      rw [getPrevString, h.prev hc hd len i sa[i] [] hi' rfl, List.append_nil]
    · obtain ⟨i, hi', e⟩ := List.mem_iff_getElem.mp (h.sorted.perm.mem_iff.mpr (List.mem_range.mpr
        (show p < (text.map code ++ [0]).length by have := hp.1; omega)))
      subst e
      obtain ⟨g1, g2⟩ := (hrow i hi').mpr hp
      exact ⟨i, g1, g2, hconv i hi'⟩
    · have hi' : i < sa.length := by omega
      have hj' : j < sa.length := by omega
      rw [hconv i hi'] at h5
      rw [hconv j hj'] at h6
      have heq : sa[i] = sa[j] := by rw [Res.ok.inj h5, Res.ok.inj h6]
      have l1 := lo_row h.sorted hi'
      have l2 := lo_row h.sorted hj'
      rw [heq] at l1
      omega

theorem cvtKey_spec {freq : FreqView} {text : List Nat} (htb : tb ≤ 32)
    (hr : Ranks text (fun c => c < 2 ^ tb) freq.size freq.getFrequency freq.getIndex freq.getElement)
    (hsize : freq.size + 1 ≤ 2 ^ tb) (key : List Nat) (hk : ∀ c ∈ key, c < 2 ^ tb) :
    (cvtKey tb freq key = .ok (some (key.map (codeOf freq))) ∧ ∀ c ∈ key, c ∈ text) ∨
      (cvtKey tb freq key = .ok none ∧ ∃ c ∈ key, c ∉ text) := by
  induction key with
  | nil => left; exact ⟨rfl, by simp⟩
  | cons c key ih =>
    have hf := hr.freq c (hk c (by simp))
    have h32 : 2 ^ tb ≤ 2 ^ 32 := Nat.pow_le_pow_right (by omega) htb
    rw [cvtKey, hf, Res.ok_bind]
    by_cases hm : c ∈ text
    · have : text.count c ≠ 0 := by have := List.count_pos_iff.mpr hm; omega
      obtain ⟨i, h1, h2, h3⟩ := hr.index_elem c hm
      simp only [this, if_false, h2, Res.ok_bind]
      have hcode : codeOf freq c = i + 1 := by simp [codeOf, h2]
      rcases ih (fun c hc => hk c (by simp [hc])) with ⟨g1, g2⟩ | ⟨g1, x, g2, g3⟩
      · left
        rw [g1, Nat.mod_eq_of_lt (a := i) (by omega), Nat.mod_eq_of_lt (by omega), ← hcode]
        exact ⟨by simp, by simpa [hm] using g2⟩
      · right
        rw [g1]
        exact ⟨by simp, x, by simp [g2], g3⟩
    · right
      have : text.count c = 0 := List.count_eq_zero.mpr hm
      simp only [this, if_true]
      exact ⟨rfl, c, by simp, hm⟩

theorem occ_absent {text key : List Nat} {c : Nat} (hc : c ∈ key) (hm : c ∉ text) : occurrences text key = 0 := by
  rw [occurrences, List.countP_eq_zero]
  intro p _ hp
  rw [List.isPrefixOf_iff_prefix] at hp
  exact hm (List.mem_of_mem_drop (hp.subset hc))

end
end Verif.FMindex
