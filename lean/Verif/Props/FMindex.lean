import Verif.Proof.FMindex

/-! # C16, C17: counting and locating with the FM-index

The theorems assume that the suffix sorter returned 0 and a sorted suffix array (`IsSuffixArray`) of the
coded text with its terminator; Props/Sais proves this for `saisxx` and draws the conclusions.  `init` starts from an index never built before
(`alignedSa` empty). -/
namespace Verif.Props.FMindex
open Verif.FMindex Verif.Spec.FMindex Verif.Spec.Frequency

/-- What `init` and the queries have to do for one text. -/
def Right (raw : Bool) (tb : Nat) (fm : Res FM) (text : List Nat) (keyOk : Nat → Prop) : Prop :=
  ∃ f, fm = .ok f ∧ ∀ key, key ≠ [] → (∀ c ∈ key, keyOk c) →
    Counts text key (getRange raw tb f key) ∧
    ∀ b e, getRange raw tb f key = .ok (some (b, e)) → ∀ fuel, text.length < fuel →
      Locates text key b e (convertPosition f fuel) (getPrevString raw f)

theorem raw_right {tb : Nat} (htb : 2 ^ tb < 2 ^ 16) (fm : FM) (hfm : fm.alignedSa = []) (freq : FreqView)
    (sais : List Nat → Int × List Nat)
    (text : List Nat) (htext : ∀ c ∈ text, 0 < c ∧ c < 2 ^ tb) (hn : text.length < 2 ^ 32 - 1)
    (skip : Int) (hskip : 0 < skip) (sa : List Nat) (hsais : sais (text ++ [0]) = (0, sa))
    (hsa : IsSuffixArray (text ++ [0]) sa) :
    Right true tb (init true tb fm freq sais text skip) text fun c => c ≠ 0 ∧ c < 2 ^ tb := by
  obtain ⟨cf, h1, h2⟩ := raw_coded (freq := freq) htext hn
  have hid : text.map id = text := List.map_id _
  rw [← hid] at hsais hsa
  obtain ⟨f, g1, g2, ga, g3⟩ := init_idx (fm := fm) (code := id) (by rw [hid]; exact h1) h2 hn htb hskip sais hsais hsa
  rw [hfm, List.nil_append] at ga
  refine ⟨f, g1, fun key hne hk => ?_⟩
  have ha := g3.answers ga h2 (fun c _ => rfl) hne (fun c hc => hk c hc) (fun a _ b _ h => h)
  have hkm : key.map id = key := List.map_id _
  rw [hkm] at ha
  have hg : getRange true tb f key = searchKey f key := by
    rw [getRange, if_neg (by simpa using hne), if_pos rfl]
  rw [hg]
  exact ha

theorem coded_right {tb : Nat} (htb : tb ≤ 32) (fm : FM) (hfm : fm.alignedSa = []) (freq : FreqView)
    (sais : List Nat → Int × List Nat) (text : List Nat)
    (hr : Ranks text (fun c => c < 2 ^ tb) freq.size freq.getFrequency freq.getIndex freq.getElement)
    (htext : ∀ c ∈ text, c < 2 ^ tb) (hsize : freq.size + 1 ≤ 2 ^ tb) (hbits : freq.size + 1 < 2 ^ 16)
    (hn : text.length < 2 ^ 32 - 1) (skip : Int) (hskip : 0 < skip) (sa : List Nat)
    (hsais : sais (text.map (codeOf freq) ++ [0]) = (0, sa))
    (hsa : IsSuffixArray (text.map (codeOf freq) ++ [0]) sa) :
    Right false tb (init false tb fm freq sais text skip) text fun c => c < 2 ^ tb := by
  obtain ⟨cf, h1, h2⟩ := cvt_coded (by omega) hr htext hsize hn
  obtain ⟨f, g1, g2, ga, g3⟩ := init_idx (fm := fm) h1 h2 hn hbits hskip sais hsais hsa
  rw [hfm, List.nil_append] at ga
  refine ⟨f, g1, fun key hne hk => ?_⟩
  have hg : getRange false tb f key = (do
      match ← cvtKey tb f.freq key with
      | none => return none
      | some k => searchKey f k) := by
    rw [getRange, if_neg (by simpa using hne), if_neg (by simp)]
    rfl
  rw [hg, g2]
  rcases cvtKey_spec (by omega) hr hsize key hk with ⟨k1, k2⟩ | ⟨k1, c, k2, k3⟩
  · rw [k1, Res.ok_bind]
    refine g3.answers ga h2 (fun c hc => ?_) hne (fun c hc => ?_) (fun a ha b hb => h2.inj a (k2 a ha) b hb)
    · obtain ⟨i, i1, i2, i3⟩ := hr.index_elem c hc
      rw [prevChar, if_neg (by simp), g2]
      simp [codeOf, i2, i3]
    · have := h2.range c (k2 c hc); omega
  · rw [k1, Res.ok_bind]
    have h0 := occ_absent k2 k3
    refine ⟨⟨fun _ => rfl, fun h => by omega⟩, fun b e hbe => ?_⟩
    simp at hbe

/-- C16 and C17 for `FMindexT<uint8_t, true>`: every text without a zero byte shorter than 2^32 - 1, every
sampling distance, every key without a zero byte.
Missing from the full claim: longer texts, and objects that were built before (`C16_rebuild_wrong_range`). -/
theorem C16_raw_bytes_partial (fm : FM) (hfm : fm.alignedSa = []) (freq : FreqView) (sais : List Nat → Int × List Nat)
    (text : List Nat) (htext : ∀ c ∈ text, 0 < c ∧ c < 256) (hn : text.length < 2 ^ 32 - 1)
    (skip : Int) (hskip : 0 < skip) (sa : List Nat) (hsais : sais (text ++ [0]) = (0, sa))
    (hsa : IsSuffixArray (text ++ [0]) sa) :
    ∃ f, init true 8 fm freq sais text skip = .ok f ∧ ∀ key, key ≠ [] → (∀ c ∈ key, c ≠ 0 ∧ c < 256) →
      Counts text key (getRange true 8 f key) := by
  obtain ⟨f, h1, h2⟩ := raw_right (tb := 8) (by omega) fm hfm freq sais text htext hn skip hskip sa hsais hsa
  exact ⟨f, h1, fun key hne hk => (h2 key hne hk).1⟩

/-- C17 for `FMindexT<uint8_t, true>`. Missing: longer texts, and objects that were built before (`C17_rebuild_old_positions`). -/
theorem C17_raw_bytes_partial (fm : FM) (hfm : fm.alignedSa = []) (freq : FreqView) (sais : List Nat → Int × List Nat)
    (text : List Nat) (htext : ∀ c ∈ text, 0 < c ∧ c < 256) (hn : text.length < 2 ^ 32 - 1)
    (skip : Int) (hskip : 0 < skip) (sa : List Nat) (hsais : sais (text ++ [0]) = (0, sa))
    (hsa : IsSuffixArray (text ++ [0]) sa) :
    ∃ f, init true 8 fm freq sais text skip = .ok f ∧ ∀ key, key ≠ [] → (∀ c ∈ key, c ≠ 0 ∧ c < 256) →
      ∀ b e, getRange true 8 f key = .ok (some (b, e)) → ∀ fuel, text.length < fuel →
        Locates text key b e (convertPosition f fuel) (getPrevString true f) := by
  obtain ⟨f, h1, h2⟩ := raw_right (tb := 8) (by omega) fm hfm freq sais text htext hn skip hskip sa hsais hsa
  exact ⟨f, h1, fun key hne hk => (h2 key hne hk).2⟩

/-- The frequency table of an index of bytes meets the requirement. -/
theorem bytes_ranks {text a b order : List Nat} (hl : ∀ e ∈ text, e < 256) (hcnt : text.length < 2 ^ 32)
    (ha : a.length = 256)
    (ho : Verif.Frequency.SortOutcome (fun e => text.count e) (List.range 256) order) {st : Verif.Frequency.FV}
    (hst : Verif.Frequency.FV.init 32 (Verif.Frequency.FV.clear a b) text order = .ok st) :
    Ranks text (fun c => c < 2 ^ 8) (ofFV st).size (ofFV st).getFrequency (ofFV st).getIndex
      (ofFV st).getElement := by
  obtain ⟨st', e1, e2, _⟩ := Verif.Frequency.FV.init_ranks hl hcnt ha ho (b := b)
  rw [hst] at e1
  obtain rfl := Res.ok.inj e1
  exact e2

/-- C16, `FMindexT<uint8_t, false>`: texts of any bytes, zero included, with at most 255 different ones.
Missing from the full claim: texts using all 256 bytes or of 2^32 - 1 characters or more, rebuilt objects. -/
theorem C16_coded_bytes_partial (fm : FM) (hfm : fm.alignedSa = []) (text a b order : List Nat)
    (hl : ∀ e ∈ text, e < 256) (hn : text.length < 2 ^ 32 - 1) (ha : a.length = 256)
    (ho : Verif.Frequency.SortOutcome (fun e => text.count e) (List.range 256) order) (st : Verif.Frequency.FV)
    (hst : Verif.Frequency.FV.init 32 (Verif.Frequency.FV.clear a b) text order = .ok st) (hsize : st.size ≤ 255)
    (sais : List Nat → Int × List Nat) (skip : Int) (hskip : 0 < skip) (sa : List Nat)
    (hsais : sais (text.map (codeOf (ofFV st)) ++ [0]) = (0, sa))
    (hsa : IsSuffixArray (text.map (codeOf (ofFV st)) ++ [0]) sa) :
    ∃ f, init false 8 fm (ofFV st) sais text skip = .ok f ∧ ∀ key, key ≠ [] → (∀ c ∈ key, c < 256) →
      Counts text key (getRange false 8 f key) := by
  obtain ⟨f, h1, h2⟩ := coded_right (tb := 8) (by omega) fm hfm (ofFV st) sais text
    (bytes_ranks hl (by omega) ha ho hst) hl (by simp [ofFV]; omega) (by simp [ofFV]; omega) hn skip hskip sa hsais hsa
  exact ⟨f, h1, fun key hne hk => (h2 key hne hk).1⟩

/-- C17 for `FMindexT<uint8_t, false>`, with the same restrictions. -/
theorem C17_coded_bytes_partial (fm : FM) (hfm : fm.alignedSa = []) (text a b order : List Nat)
    (hl : ∀ e ∈ text, e < 256) (hn : text.length < 2 ^ 32 - 1) (ha : a.length = 256)
    (ho : Verif.Frequency.SortOutcome (fun e => text.count e) (List.range 256) order) (st : Verif.Frequency.FV)
    (hst : Verif.Frequency.FV.init 32 (Verif.Frequency.FV.clear a b) text order = .ok st) (hsize : st.size ≤ 255)
    (sais : List Nat → Int × List Nat) (skip : Int) (hskip : 0 < skip) (sa : List Nat)
    (hsais : sais (text.map (codeOf (ofFV st)) ++ [0]) = (0, sa))
    (hsa : IsSuffixArray (text.map (codeOf (ofFV st)) ++ [0]) sa) :
    ∃ f, init false 8 fm (ofFV st) sais text skip = .ok f ∧ ∀ key, key ≠ [] → (∀ c ∈ key, c < 256) →
      ∀ b e, getRange false 8 f key = .ok (some (b, e)) → ∀ fuel, text.length < fuel →
        Locates text key b e (convertPosition f fuel) (getPrevString false f) := by
  obtain ⟨f, h1, h2⟩ := coded_right (tb := 8) (by omega) fm hfm (ofFV st) sais text
    (bytes_ranks hl (by omega) ha ho hst) hl (by simp [ofFV]; omega) (by simp [ofFV]; omega) hn skip hskip sa hsais hsa
  exact ⟨f, h1, fun key hne hk => (h2 key hne hk).2⟩

theorem wide_ranks {tb : Nat} {text order : List Nat} (hcnt : text.length < 2 ^ 32)
    (ho : Verif.Frequency.SortOutcomeG (Verif.Frequency.FG.clear.appendAll 32 text).m order) :
    Ranks text (fun c => c < 2 ^ tb) (ofFG (Verif.Frequency.FG.init 32 .clear text order)).size
      (ofFG (Verif.Frequency.FG.init 32 .clear text order)).getFrequency
      (ofFG (Verif.Frequency.FG.init 32 .clear text order)).getIndex
      (ofFG (Verif.Frequency.FG.init 32 .clear text order)).getElement := by
  obtain ⟨h, _, _⟩ := Verif.Frequency.FG.init_ranks hcnt ho
  exact ⟨fun e _ => h.freq e trivial, h.index_elem, h.elem_index, h.sorted⟩

/-- C16, `FMindexT<uint16_t, false>`: texts of any 16-bit characters, zero included, with at most 65534
different ones.
Missing from the full claim: texts with more different characters or of 2^32 - 1 characters or more, rebuilt objects. -/
theorem C16_coded_wide_partial (fm : FM) (hfm : fm.alignedSa = []) (text order : List Nat)
    (hl : ∀ e ∈ text, e < 65536) (hn : text.length < 2 ^ 32 - 1)
    (ho : Verif.Frequency.SortOutcomeG (Verif.Frequency.FG.clear.appendAll 32 text).m order)
    (st : Verif.Frequency.FG) (hst : st = Verif.Frequency.FG.init 32 .clear text order) (hsize : st.size ≤ 65534)
    (sais : List Nat → Int × List Nat) (skip : Int) (hskip : 0 < skip) (sa : List Nat)
    (hsais : sais (text.map (codeOf (ofFG st)) ++ [0]) = (0, sa))
    (hsa : IsSuffixArray (text.map (codeOf (ofFG st)) ++ [0]) sa) :
    ∃ f, init false 16 fm (ofFG st) sais text skip = .ok f ∧ ∀ key, key ≠ [] → (∀ c ∈ key, c < 65536) →
      Counts text key (getRange false 16 f key) := by
  subst hst
  obtain ⟨f, h1, h2⟩ := coded_right (tb := 16) (by omega) fm hfm _ sais text
    (wide_ranks (by omega) ho) hl (by simp only [ofFG]; omega) (by simp only [ofFG]; omega) hn skip hskip sa hsais hsa
  exact ⟨f, h1, fun key hne hk => (h2 key hne hk).1⟩

/-- C17 for `FMindexT<uint16_t, false>`, with the same restrictions. -/
theorem C17_coded_wide_partial (fm : FM) (hfm : fm.alignedSa = []) (text order : List Nat)
    (hl : ∀ e ∈ text, e < 65536) (hn : text.length < 2 ^ 32 - 1)
    (ho : Verif.Frequency.SortOutcomeG (Verif.Frequency.FG.clear.appendAll 32 text).m order)
    (st : Verif.Frequency.FG) (hst : st = Verif.Frequency.FG.init 32 .clear text order) (hsize : st.size ≤ 65534)
    (sais : List Nat → Int × List Nat) (skip : Int) (hskip : 0 < skip) (sa : List Nat)
    (hsais : sais (text.map (codeOf (ofFG st)) ++ [0]) = (0, sa))
    (hsa : IsSuffixArray (text.map (codeOf (ofFG st)) ++ [0]) sa) :
    ∃ f, init false 16 fm (ofFG st) sais text skip = .ok f ∧ ∀ key, key ≠ [] → (∀ c ∈ key, c < 65536) →
      ∀ b e, getRange false 16 f key = .ok (some (b, e)) → ∀ fuel, text.length < fuel →
        Locates text key b e (convertPosition f fuel) (getPrevString false f) := by
  subst hst
  obtain ⟨f, h1, h2⟩ := coded_right (tb := 16) (by omega) fm hfm _ sais text
    (wide_ranks (by omega) ho) hl (by simp only [ofFG]; omega) (by simp only [ofFG]; omega) hn skip hskip sa hsais hsa
  exact ⟨f, h1, fun key hne hk => (h2 key hne hk).2⟩

/-- C16.  An empty key is refused. -/
theorem C16_empty_key (raw : Bool) (tb : Nat) (fm : FM) : getRange raw tb fm [] = .ok none := rfl

/-- C16.  A raw text with a zero character is refused, whatever the rest. -/
theorem C16_raw_zero_throws (tb : Nat) (fm : FM) (freq : FreqView) (sais : List Nat → Int × List Nat)
    (text : List Nat) (htext : ∀ c ∈ text, c < 2 ^ tb) (hz : 0 ∈ text) (skip : Int) :
    init true tb fm freq sais text skip = .throw := by
  have hloop : ∀ tbl : List Nat, tbl.length = 2 ^ tb → rawLoop text tbl = .throw := by
    clear sais freq fm skip
    induction text with
    | nil => simp at hz
    | cons x xs ih =>
      intro tbl hlen
      rw [rawLoop]
      by_cases hx : x = 0
      · rw [if_pos hx]
      · have hx2 := htext x (by simp)
        rw [if_neg hx, Verif.at?_eq_ok (by omega), Res.ok_bind, Verif.BitVector.setAt?_ok _ (by omega), Res.ok_bind,
          ih (fun c hc => htext c (by simp [hc])) ((List.mem_cons.mp hz).resolve_left fun h => hx h.symm) _
            (by simpa using hlen), Res.throw_bind]
  rw [init]
  by_cases hs : skip ≤ 0
  · rw [if_pos hs]
  rw [if_neg hs, initCf]
  by_cases hl : text.length ≥ 2 ^ 32 - 1
  · rw [if_pos hl, Res.throw_bind]
  rw [if_neg hl, if_pos rfl]
  simp only [hloop ((List.replicate (2 ^ tb) 0).set 0 1) (by rw [List.length_set, List.length_replicate]), Res.throw_bind]

/-- C16 (finding).  `FMindexT<uint16_t, true>` can index nothing: with 65536 characters `getBitLen` is 17
and the wavelet matrix refuses more than 16 bits. -/
theorem C16_raw_wide_throws (fm : FM) (freq : FreqView) (sais : List Nat → Int × List Nat) (text : List Nat)
    (htext : ∀ c ∈ text, 0 < c ∧ c < 2 ^ 16) (hn : text.length < 2 ^ 32 - 1) (skip : Int) (sa : List Nat)
    (hsais : sais (text ++ [0]) = (0, sa)) (hsa : IsSuffixArray (text ++ [0]) sa) :
    init true 16 fm freq sais text skip = .throw := by
  obtain ⟨cf, h1, h2⟩ := raw_coded (freq := freq) htext hn
  rw [init]
  by_cases hs : skip ≤ 0
  · rw [if_pos hs]
  rw [if_neg hs, h1]
  simp only [Res.ok_bind, hsais]
  have hb := (bitLenLoop_bound (2 ^ 16)).1
  have hg : getBitLen (2 ^ 16) = bitLenLoop (2 ^ 16) := rfl
  have h17 : 16 < getBitLen (2 ^ 16) := by
    rw [hg]
    apply Nat.lt_of_not_le
    intro hle
    have := Nat.pow_le_pow_right (n := 2) (by omega) hle
    omega
  rw [if_neg (by decide), bwtLoop_spec (sa_length hsa) (by simp) sa
    (fun j hj => List.mem_range.mp (hsa.perm.mem_iff.mp hj)), Res.ok_bind, Verif.Wavelet.init,
    if_pos h17, ite_self, Res.throw_bind]

/-! Findings on small cases.  `ab` is the frequency table of a text over 10 and 20. -/

/-- Ranks 0 and 1 for the characters 10 and 20. -/
def ab (m n : Nat) : FreqView := ofFG ⟨[⟨10, m, 0⟩, ⟨20, n, 1⟩], [10, 20]⟩

/-- C17 (finding).  Building an index again does not empty `alignedSa`: as long as the samples of the old
text last, the positions answered are those of the old text.  Shown for a raw index with `skip` 1. -/
theorem C17_rebuild_old_positions (fm : FM) (freq : FreqView) (sais : List Nat → Int × List Nat)
    (text : List Nat) (htext : ∀ c ∈ text, 0 < c ∧ c < 256) (hn : text.length < 2 ^ 32 - 1)
    (sa : List Nat) (hsais : sais (text ++ [0]) = (0, sa)) (hsa : IsSuffixArray (text ++ [0]) sa) :
    ∃ f, init true 8 fm freq sais text 1 = .ok f ∧ ∀ row, row ≤ text.length → ∀ h : row < fm.alignedSa.length,
      ∀ fuel, 0 < fuel → convertPosition f fuel row = .ok fm.alignedSa[row] := by
  obtain ⟨cf, h1, h2⟩ := raw_coded (tb := 8) (freq := freq) htext hn
  have hid : text.map id = text := List.map_id _
  rw [← hid] at hsais hsa
  obtain ⟨f, g1, _, ga, g3⟩ := init_idx (fm := fm) (code := id) (by rw [hid]; exact h1) h2 hn (by omega)
    (by omega : (0 : Int) < 1) sais hsais hsa
  refine ⟨f, g1, fun row hr h fuel hf => ?_⟩
  obtain ⟨fuel, rfl⟩ : ∃ k, fuel = k + 1 := ⟨fuel - 1, by omega⟩
  have hsl := sa_length hsa
  simp only [List.length_append, List.length_map, List.length_singleton] at hsl
  have hall : (sa.map fun j => decide (j % Int.toNat 1 = 0)) = List.replicate sa.length true := by
    rw [List.eq_replicate_iff]
    refine ⟨by simp, fun b hb => ?_⟩
    obtain ⟨j, _, rfl⟩ := List.mem_map.mp hb
    simp
    omega
  have hp := g3.pos
  rw [hall] at hp
  rw [convertPosition, convLoop, hp.get row (by simp; omega), Res.ok_bind]
  simp only [List.getElem_replicate, if_true]
  rw [hp.rank1 row (by simp; omega), Res.ok_bind]
  have hrk : Spec.SucVector.rankOf (List.replicate sa.length true) true row = row := by
    rw [Spec.SucVector.rankOf, List.take_replicate]; simp; omega
  rw [hrk, Verif.Wavelet.at?_some (a := fm.alignedSa[row]) (by rw [ga, List.getElem?_append_left h]; simp [h]),
    Res.ok_bind, Nat.zero_add]
  rfl

/-- C16 (finding).  Building a coded index again counts the characters of the old text too: after 10 10 and
then 10 20 the frequencies are 3 and 1, and the key 20 is "found" at row 4 of 3 rows. -/
theorem C16_rebuild_wrong_range :
    (do let f ← init false 16 (empty (ab 2 0)) (ab 2 0) (fun _ => (0, [2, 1, 0])) [10, 10] 1
        let g ← init false 16 f (ab 3 1) (fun _ => (0, [2, 0, 1])) [10, 20] 1
        return (← getRange false 16 g [20], g.wm.size)) = .ok (some (4, 5), 3) := by decide +kernel

/-- C16 (finding).  In a raw index the terminator can be searched for: the last character followed by a
zero is found once in every text, which holds no zero. -/
theorem C16_raw_zero_key_found (fm : FM) (freq : FreqView) (sais : List Nat → Int × List Nat)
    (t : List Nat) (c : Nat) (text : List Nat) (ht : text = t ++ [c]) (htext : ∀ c ∈ text, 0 < c ∧ c < 256)
    (hn : text.length < 2 ^ 32 - 1) (skip : Int) (hskip : 0 < skip)
    (sa : List Nat) (hsais : sais (text ++ [0]) = (0, sa)) (hsa : IsSuffixArray (text ++ [0]) sa) :
    occurrences text [c, 0] = 0 ∧
    ∃ f b, init true 8 fm freq sais text skip = .ok f ∧ getRange true 8 f [c, 0] = .ok (some (b, b + 1)) := by
  have hnz : 0 ∉ text := fun h => by have := htext 0 h; omega
  refine ⟨occ_absent (c := 0) (by simp) hnz, ?_⟩
  obtain ⟨cf, h1, h2⟩ := raw_coded (tb := 8) (freq := freq) htext hn
  have hid : text.map id = text := List.map_id _
  rw [← hid] at hsais hsa
  obtain ⟨f, g1, _, _, g3⟩ := init_idx (fm := fm) (code := id) (by rw [hid]; exact h1) h2 hn (by omega)
    hskip sais hsais hsa
  rw [hid] at g3
  generalize hv : text ++ [0] = v at *
  have hvl : v.length = text.length + 1 := by rw [← hv]; simp
  have hsl := sa_length g3.sorted
  have hcv : c < 256 := (htext c (by rw [ht]; simp)).2
  have hbl : (sa.map (bwtAt v)).length < 2 ^ 32 := by simp; omega
  have hpow : (2 : Nat) ^ 8 ≤ 2 ^ getBitLen (2 ^ 8) := g3.bits
  have hr := fun (x : Nat) (hx : x < 256) p => g3.wm.rank hbl g3.bwt_lt (v := x) (by omega) p
  have hcf := fun (x : Nat) (hx : x < 256) => Verif.Wavelet.at?_some (g3.cf x hx)
  -- the first row is the terminator
  obtain ⟨i, hi, e⟩ := List.mem_iff_getElem.mp (g3.sorted.perm.mem_iff.mpr (List.mem_range.mpr
    (show text.length < v.length by omega)))
  have hdrop : v.drop text.length = [0] := by rw [← hv]; simp
  have hi0 : i = 0 := by
    have := lo_row g3.sorted hi
    rw [e, hdrop, lo, cntSuf, List.countP_eq_zero.mpr] at this
    · exact this.symm
    · intro j hj
      rw [List.drop_eq_getElem_cons (List.mem_range.mp hj)]
      simp [lexLt, lexLt_nil]
  subst hi0
  have htl : text.length = t.length + 1 := by rw [ht]; simp
  have hb0 : bwtAt v text.length = c := by
    rw [bwtAt, if_pos (by omega), ← hv, htl, ht]; simp
  have hcount : (sa.map (bwtAt v)).count 0 = 1 := by
    rw [(g3.sorted.perm.map _).count_eq, hvl, List.range_succ_eq_map, List.map_cons, List.count_cons,
      List.map_map, List.count_eq_zero.mpr]
    · have : bwtAt v 0 = 0 := by rw [bwtAt, if_neg (by omega)]; exact g3.last
      simp [this]
    · intro h0
      obtain ⟨j, hj, e0⟩ := List.mem_map.mp h0
      have hj' := List.mem_range.mp hj
      simp only [Function.comp, bwtAt, Nat.succ_eq_add_one, Nat.add_sub_cancel] at e0
      rw [if_pos (by omega), ← hv, List.getD_eq_getElem?_getD, List.getElem?_append_left hj',
        List.getElem?_eq_getElem hj', Option.getD_some] at e0
      exact hnz (e0 ▸ List.getElem_mem hj')
  refine ⟨f, v.countP fun x => decide (x < c), g1, ?_⟩
  have hsz : f.wm.size = v.length := by rw [g3.wm.size]; simp; omega
  have hone : Spec.Wavelet.countOf (sa.map (bwtAt v)) c 1 = 1 := by
    have hlen : 0 < (sa.map (bwtAt v)).length := by simp; omega
    rw [Verif.Wavelet.countOf_succ hlen, Verif.Wavelet.countOf_zero]
    simp [e, hb0]
  have hs0 : rangeStep f 0 0 v.length = .ok (0, 1) := by
    rw [rangeStep, hcf 0 (by omega), Res.ok_bind, hr 0 (by omega), Res.ok_bind, hr 0 (by omega), Res.ok_bind,
      Verif.Wavelet.countOf_zero, Verif.Wavelet.countOf_ge (by simp; omega), hcount, countP_lt_zero]
    rfl
  have hs1 : rangeStep f c 0 1 = .ok (v.countP (fun x => decide (x < c)), v.countP (fun x => decide (x < c)) + 1) := by
    rw [rangeStep, hcf c hcv, Res.ok_bind, hr c hcv, Res.ok_bind, hr c hcv, Res.ok_bind,
      Verif.Wavelet.countOf_zero, hone]
    rfl
  rw [getRange, if_neg (by simp), if_pos rfl, searchKey, hsz]
  simp only [List.reverse_cons, List.reverse_nil, List.nil_append, List.cons_append, rangeLoop]
  rw [if_pos (by omega), hs0]
  simp only [Res.ok_bind, Nat.zero_lt_one, if_true, hs1, rangeLoop, Res.pure_eq, Nat.lt_succ_self]

/-- C16 (finding).  Only the return value -1 of the suffix sorter is an error: after -2 (it caught an
exception, e.g. out of memory) the index is built from the zeros `sa` was filled with, and finds nothing. -/
theorem C16_sorter_failure_ignored :
    (do let f ← init false 16 (empty (ab 1 1)) (ab 1 1) (fun v => (-2, List.replicate v.length 0)) [10, 20] 8
        getRange false 16 f [20]) = .ok none ∧
    (do let f ← init false 16 (empty (ab 1 1)) (ab 1 1) (fun _ => (0, [2, 0, 1])) [10, 20] 8
        getRange false 16 f [20]) = .ok (some (2, 3)) := by decide +kernel

/-! Non-trivial cases: the hypotheses are met. -/

example : (∀ c ∈ [98, 97, 110, 97, 110, 97], 0 < c ∧ c < 256) ∧
    IsSuffixArray ([98, 97, 110, 97, 110, 97] ++ [0]) [6, 5, 3, 1, 0, 4, 2] ∧
    occurrences [98, 97, 110, 97, 110, 97] [97, 110, 97] = 2 :=
  ⟨by decide, ⟨by decide, by decide⟩, by decide⟩

example : Ranks [10, 20, 10] (fun c => c < 2 ^ 16) (ab 2 1).size (ab 2 1).getFrequency (ab 2 1).getIndex
      (ab 2 1).getElement ∧ [10, 20, 10].map (codeOf (ab 2 1)) = [1, 2, 1] ∧
    IsSuffixArray ([1, 2, 1] ++ [0]) [3, 2, 0, 1] := by
  have h := wide_ranks (tb := 16) (text := [10, 20, 10]) (order := [10, 20]) (by decide) ⟨by decide, by
    have : ∀ m a b, Decidable (Verif.Frequency.greater m a b) := fun m a b => by
      rw [Verif.Frequency.greater]; infer_instance
    simp [Verif.Frequency.FG.clear, Verif.Frequency.FG.appendAll, Verif.Frequency.FG.append, Verif.Frequency.bump,
      Verif.Frequency.greater, Verif.Frequency.freqOf, Verif.Frequency.find]⟩
  exact ⟨h, by decide +kernel, ⟨by decide, by decide⟩⟩

example : (do let f ← init false 16 (empty (ab 2 1)) (ab 2 1) (fun _ => (0, [3, 2, 0, 1])) [10, 20, 10] 2
              return (← getRange false 16 f [10], ← convertPosition f 4 1, ← convertPosition f 4 2,
                ← getPrevString false f 1 5)) = .ok (some (1, 3), 2, 0, [10, 20]) := by decide +kernel

#print axioms C16_raw_bytes_partial
#print axioms C17_raw_bytes_partial
#print axioms C16_coded_bytes_partial
#print axioms C17_coded_bytes_partial
#print axioms C16_coded_wide_partial
#print axioms C17_coded_wide_partial
#print axioms C16_raw_zero_throws
#print axioms C16_raw_wide_throws
#print axioms C17_rebuild_old_positions
#print axioms C16_raw_zero_key_found

end Verif.Props.FMindex
