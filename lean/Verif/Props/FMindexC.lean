import Verif.Proof.FMindexC
import Verif.Props.Sais
set_option linter.unusedSimpArgs false

/-! # C112: the index over compressed vectors

`FMindexT` compiled with `CYBOZU_FMINDEX_USE_CSUCVECTOR` answers as the default one. -/
namespace Verif.Props.FMindexC
open Verif.FMindexC Verif.Spec.FMindex Verif.Spec.Frequency Verif.Spec.Wavelet
open Verif.FMindex (FreqView ofFV ofFG codeOf)
open Verif.Sais (Arr sorter)

/-- An index that was never built: no samples, and compressed vectors without blocks. -/
structure Fresh (fm : FM) : Prop where
  sa : fm.alignedSa = []
  pos : fm.alignedPos.blk = []
  svv : ∀ o ∈ fm.wm.svv, o.blk = []

/-- C112.  A wavelet matrix over compressed vectors, built on a new object: `get`, both forms, `rank`, `size`, `rankLt`. -/
theorem C112_matrix (l : List Nat) (B : Nat) (hB : B ≤ 16) (hn : l.length + 17408 ≤ 2 ^ 32) (hl : ∀ x ∈ l, x < 2 ^ B) :
    ∃ wm, Verif.WaveletC.init Verif.WaveletC.empty l B = .ok wm ∧ wm.size = l.length ∧
      (0 < B → ∀ p (hp : p < l.length), Verif.WaveletC.get wm p = .ok l[p]) ∧
      (∀ p (hp : p < l.length), Verif.WaveletC.get2 wm p = .ok (l[p], countOf l l[p] p)) ∧
      (0 < B → ∀ p, l.length ≤ p → Verif.WaveletC.get wm p = .throw ∧ Verif.WaveletC.get2 wm p = .throw) ∧
      (∀ v, v < 2 ^ B → ∀ p, Verif.WaveletC.rank wm v p = .ok (countOf l v p)) ∧
      (∀ v, v < 2 ^ B → Verif.WaveletC.sizeVal wm v = .ok (l.count v)) ∧
      ((B - 1) * l.length < 2 ^ 32 → ∀ v, v < 2 ^ B → ∀ p, Verif.WaveletC.rankLt wm v p = .ok (countLt l v p)) := by
  obtain ⟨wm, e1, e2⟩ := Verif.WaveletC.built_of_init hB l hn Verif.WaveletC.empty (by simp [Verif.WaveletC.empty])
  refine ⟨wm, e1, e2.size, fun h0 p hp => e2.get (by omega) h0 hB hl hp,
    fun p hp => e2.get2 (by omega) hB hl hp, fun h0 p hp => e2.get_ge h0 hp, fun v hv p => e2.rank (by omega) hl hv p,
    fun v hv => ?_, fun hsum v hv p => ?_⟩
  · rw [Verif.WaveletC.sizeVal, e2.rank (by omega) hl hv, e2.size, Verif.Wavelet.countOf_ge (Nat.le_refl _)]
  · have hb := Verif.Wavelet.walkLt_zero_bound (B := B) l v
    rw [e2.rankLt_gen (by omega) hB hl hv, Verif.Wavelet.toSize, Nat.mod_eq_of_lt (by omega), Nat.sub_self, Nat.add_zero]

/-- What `init` and the queries have to do for one text. -/
def Right (raw : Bool) (tb : Nat) (fm : Res FM) (text : List Nat) (keyOk : Nat → Prop) : Prop :=
  ∃ f, fm = .ok f ∧ ∀ key, key ≠ [] → (∀ c ∈ key, keyOk c) →
    Counts text key (getRange raw tb f key) ∧
    ∀ b e, getRange raw tb f key = .ok (some (b, e)) → ∀ fuel, text.length < fuel →
      Locates text key b e (convertPosition f fuel) (getPrevString raw f)

/-- Both inits succeed, and the two indexes answer alike: the same rows for every key, the same position and the
same preceding text for every row. -/
def Same (raw : Bool) (tb : Nat) (a : Res Verif.FMindex.FM) (b : Res FM) (text : List Nat) (keyOk : Nat → Prop) : Prop :=
  ∃ f g, a = .ok f ∧ b = .ok g ∧
    (∀ key, (∀ c ∈ key, keyOk c) → getRange raw tb g key = Verif.FMindex.getRange raw tb f key) ∧
    ∀ row, row ≤ text.length →
      (∀ fuel, text.length < fuel → convertPosition g fuel row = Verif.FMindex.convertPosition f fuel row) ∧
      ∀ len, getPrevString raw g row len = Verif.FMindex.getPrevString raw f row len

/-- Two indexes of one text, whatever they are made of. -/
theorem same_of_idx {raw : Bool} {tb : Nat} {text sa cf : List Nat} {code : Nat → Nat} {charNum B skip : Nat}
    {f : Verif.FMindex.FM} {g : FM} (hf : Verif.FMindex.Idx (text.map code ++ [0]) sa charNum B skip f)
    (hg : Idx (text.map code ++ [0]) sa charNum B skip g)
    (hc : Verif.FMindex.Coded raw tb text code cf charNum)
    (hfa : f.alignedSa = sa.filter fun j => decide (j % skip = 0))
    (hga : g.alignedSa = sa.filter fun j => decide (j % skip = 0))
    (hfd : ∀ c ∈ text, Verif.FMindex.prevChar raw f (code c) = .ok c)
    (hgd : ∀ c ∈ text, prevChar raw g (code c) = .ok c) :
    (∀ key, (∀ c ∈ key, c ≠ 0 ∧ c < charNum) → searchKey g key = Verif.FMindex.searchKey f key) ∧
    ∀ row, row ≤ text.length →
      (∀ fuel, text.length < fuel → convertPosition g fuel row = Verif.FMindex.convertPosition f fuel row) ∧
      ∀ len, getPrevString raw g row len = Verif.FMindex.getPrevString raw f row len := by
  have hsl := Verif.FMindex.sa_length hg.sorted
  have hvl : (text.map code ++ [0]).length = text.length + 1 := by simp
  refine ⟨fun key hk => by rw [hg.search hk, hf.search hk], fun row hrow => ⟨fun fuel hfuel => ?_, fun len => ?_⟩⟩
  · have hi : row < sa.length := by omega
    have hlt := Verif.FMindex.sa_lt hg.sorted hi
    have hzz : ∀ j, j + 1 < (text.map code ++ [0]).length → (text.map code ++ [0]).getD j 0 ≠ 0 := by
      intro j hj
      obtain ⟨e1, e2⟩ := Verif.FMindex.code_nonzero hc (j := j) (by omega)
      rw [e1]; exact e2
    rw [convertPosition, Verif.FMindex.convertPosition, hg.conv hga hzz fuel row 0 hi (by omega),
      hf.conv hfa hzz fuel row 0 hi (by omega)]
  · have hi : row < sa.length := by omega
    rw [getPrevString, Verif.FMindex.getPrevString, hg.prev hc hgd len row _ [] hi rfl, hf.prev hc hfd len row _ [] hi rfl]

section
variable (fm : FM) (hfm : Fresh fm) (fd : Verif.FMindex.FM) (hfd : fd.alignedSa = [])
include hfm hfd

theorem raw_both (freq : FreqView) (sais : List Nat → Int × List Nat)
    (text : List Nat) (htext : ∀ c ∈ text, 0 < c ∧ c < 2 ^ 8) (hn : text.length + 17409 ≤ 2 ^ 32)
    (skip : Int) (hskip : 0 < skip) (sa : List Nat) (hsais : sais (text ++ [0]) = (0, sa))
    (hsa : IsSuffixArray (text ++ [0]) sa) :
    Right true 8 (init true 8 fm freq sais text skip) text (fun c => c ≠ 0 ∧ c < 2 ^ 8) ∧
    Same true 8 (Verif.FMindex.init true 8 fd freq sais text skip) (init true 8 fm freq sais text skip) text
      (fun c => c ≠ 0 ∧ c < 2 ^ 8) := by
  obtain ⟨cf, h1, h2⟩ := Verif.FMindex.raw_coded (tb := 8) (freq := freq) htext (by omega)
  have hid : text.map id = text := List.map_id _
  rw [← hid] at hsais hsa
  obtain ⟨g, g1, _, ga, g3⟩ := init_idx (code := id) hfm.svv hfm.pos (by rw [hid]; exact h1) h2 hn (by omega) hskip sais
    hsais hsa
  obtain ⟨f, f1, _, fa, f3⟩ := Verif.FMindex.init_idx (fm := fd) (code := id) (by rw [hid]; exact h1) h2 (by omega)
    (by omega) hskip sais hsais hsa
  rw [hfm.sa, List.nil_append] at ga
  rw [hfd, List.nil_append] at fa
  have hgr : ∀ key : List Nat, key ≠ [] → getRange true 8 g key = searchKey g key := fun key hne => by
    rw [getRange, if_neg (by simpa using hne), if_pos rfl]
  have hfr : ∀ key : List Nat, key ≠ [] → Verif.FMindex.getRange true 8 f key = Verif.FMindex.searchKey f key :=
    fun key hne => by rw [Verif.FMindex.getRange, if_neg (by simpa using hne), if_pos rfl]
  constructor
  · refine ⟨g, g1, fun key hne hk => ?_⟩
    have ha := g3.answers ga h2 (fun c _ => rfl) hne (fun c hc => hk c hc) (fun a _ b _ h => h)
    have hkm : key.map id = key := List.map_id _
    rw [hkm] at ha
    rw [hgr key hne]
    exact ha
  · obtain ⟨s1, s2⟩ := same_of_idx f3 g3 h2 fa ga (fun c _ => rfl) (fun c _ => rfl)
    refine ⟨f, g, f1, g1, fun key hk => ?_, s2⟩
    cases key with
    | nil => rfl
    | cons c cs => rw [hgr _ (by simp), hfr _ (by simp)]; exact s1 _ hk

theorem coded_both {tb : Nat} (htb : tb ≤ 16) (freq : FreqView) (sais : List Nat → Int × List Nat) (text : List Nat)
    (hr : Ranks text (fun c => c < 2 ^ tb) freq.size freq.getFrequency freq.getIndex freq.getElement)
    (htext : ∀ c ∈ text, c < 2 ^ tb) (hsize : freq.size + 1 ≤ 2 ^ tb) (hbits : freq.size + 1 < 2 ^ 16)
    (hn : text.length + 17409 ≤ 2 ^ 32) (skip : Int) (hskip : 0 < skip) (sa : List Nat)
    (hsais : sais (text.map (codeOf freq) ++ [0]) = (0, sa))
    (hsa : IsSuffixArray (text.map (codeOf freq) ++ [0]) sa) :
    Right false tb (init false tb fm freq sais text skip) text (fun c => c < 2 ^ tb) ∧
    Same false tb (Verif.FMindex.init false tb fd freq sais text skip) (init false tb fm freq sais text skip) text
      (fun c => c < 2 ^ tb) := by
  obtain ⟨cf, h1, h2⟩ := Verif.FMindex.cvt_coded (by omega) hr htext hsize (by omega)
  obtain ⟨g, g1, g2, ga, g3⟩ := init_idx hfm.svv hfm.pos h1 h2 hn hbits hskip sais hsais hsa
  obtain ⟨f, f1, f2, fa, f3⟩ := Verif.FMindex.init_idx (fm := fd) h1 h2 (by omega) hbits hskip sais hsais hsa
  rw [hfm.sa, List.nil_append] at ga
  rw [hfd, List.nil_append] at fa
  have hgr : ∀ key : List Nat, key ≠ [] → getRange false tb g key = (do
      match ← Verif.FMindex.cvtKey tb freq key with
      | none => return none
      | some k => searchKey g k) := fun key hne => by
    rw [getRange, if_neg (by simpa using hne), if_neg (by simp), g2]; rfl
  have hfr : ∀ key : List Nat, key ≠ [] → Verif.FMindex.getRange false tb f key = (do
      match ← Verif.FMindex.cvtKey tb freq key with
      | none => return none
      | some k => Verif.FMindex.searchKey f k) := fun key hne => by
    rw [Verif.FMindex.getRange, if_neg (by simpa using hne), if_neg (by simp), f2]; rfl
  have hgd : ∀ c ∈ text, prevChar false g (codeOf freq c) = .ok c := by
    intro c hc
    obtain ⟨i, i1, i2, i3⟩ := hr.index_elem c hc
    rw [prevChar, if_neg (by simp), g2]
    simp [codeOf, i2, i3]
  have hfdd : ∀ c ∈ text, Verif.FMindex.prevChar false f (codeOf freq c) = .ok c := by
    intro c hc
    obtain ⟨i, i1, i2, i3⟩ := hr.index_elem c hc
    rw [Verif.FMindex.prevChar, if_neg (by simp), f2]
    simp [codeOf, i2, i3]
  constructor
  · refine ⟨g, g1, fun key hne hk => ?_⟩
    rw [hgr key hne]
    rcases Verif.FMindex.cvtKey_spec (by omega) hr hsize key hk with ⟨k1, k2⟩ | ⟨k1, c, k2, k3⟩
    · rw [k1, Res.ok_bind]
      refine g3.answers ga h2 hgd hne (fun c hc => ?_) (fun a ha b hb => h2.inj a (k2 a ha) b hb)
      have := h2.range c (k2 c hc); omega
    · rw [k1, Res.ok_bind]
      have h0 := Verif.FMindex.occ_absent k2 k3
      refine ⟨⟨fun _ => rfl, fun h => by omega⟩, fun b e hbe => ?_⟩
      simp at hbe
  · obtain ⟨s1, s2⟩ := same_of_idx f3 g3 h2 fa ga hfdd hgd
    refine ⟨f, g, f1, g1, fun key hk => ?_, s2⟩
    by_cases hne : key = []
    · subst hne; rfl
    · rw [hgr _ hne, hfr _ hne]
      rcases Verif.FMindex.cvtKey_spec (by omega) hr hsize key hk with ⟨k1, k2⟩ | ⟨k1, c, k2, k3⟩
      · rw [k1, Res.ok_bind, Res.ok_bind]
        refine s1 _ fun x hx => ?_
        obtain ⟨c, hc, rfl⟩ := List.mem_map.mp hx
        have := h2.range c (k2 c hc); omega
      · rw [k1, Res.ok_bind, Res.ok_bind]

/-- C112, `FMindexT<uint8_t, true>`: every text of fewer than 2^31 - 1 bytes, none of them zero. -/
theorem C112_raw_bytes (freq : FreqView) (g : Arr) (alloc : Nat → Nat → Bool)
    (hal : ∀ d c, alloc d c = true) (text : List Nat) (htext : ∀ c ∈ text, 0 < c ∧ c < 256) (hn : text.length < 2 ^ 31 - 1)
    (skip : Int) (hskip : 0 < skip) :
    Right true 8 (init true 8 fm freq (sorter alloc g 256) text skip) text (fun c => c ≠ 0 ∧ c < 256) ∧
    Same true 8 (Verif.FMindex.init true 8 fd freq (sorter alloc g 256) text skip)
      (init true 8 fm freq (sorter alloc g 256) text skip) text (fun c => c ≠ 0 ∧ c < 256) := by
  obtain ⟨sa, h1, h2⟩ := Verif.Props.Sais.sorter_ok (g := g) (v := text ++ [0]) (k := 256) (by omega) (by omega) (by
    intro c hc
    rcases List.mem_append.mp hc with h | h
    · exact (htext c h).2
    · rw [List.mem_singleton.mp h]
      omega) (by simp; omega) hal
  exact raw_both fm hfm fd hfd freq _ text htext (by omega) skip hskip sa h1 h2

theorem coded_sorted {tb : Nat} (htb : tb ≤ 16) (freq : FreqView) (g : Arr) (alloc : Nat → Nat → Bool)
    (hal : ∀ d c, alloc d c = true) (text : List Nat)
    (hr : Ranks text (fun c => c < 2 ^ tb) freq.size freq.getFrequency freq.getIndex freq.getElement)
    (htext : ∀ c ∈ text, c < 2 ^ tb) (hsize : freq.size + 1 ≤ 2 ^ tb) (hbits : freq.size + 1 < 2 ^ 16)
    (hn : text.length < 2 ^ 31 - 1) (skip : Int) (hskip : 0 < skip) :
    Right false tb (init false tb fm freq (sorter alloc g (freq.size + 1)) text skip) text (fun c => c < 2 ^ tb) ∧
    Same false tb (Verif.FMindex.init false tb fd freq (sorter alloc g (freq.size + 1)) text skip)
      (init false tb fm freq (sorter alloc g (freq.size + 1)) text skip) text (fun c => c < 2 ^ tb) := by
  obtain ⟨cf, _, h⟩ := Verif.FMindex.cvt_coded (by omega) hr htext hsize (by omega)
  obtain ⟨sa, h1, h2⟩ := Verif.Props.Sais.sorter_ok (g := g) (v := text.map (codeOf freq) ++ [0]) (k := freq.size + 1)
    (by omega) (by omega) (by
      intro c hc
      rcases List.mem_append.mp hc with w | w
      · obtain ⟨d, hd, rfl⟩ := List.mem_map.mp w
        exact (h.range d hd).2
      · rw [List.mem_singleton.mp w]
        omega) (by simp; omega) hal
  exact coded_both fm hfm fd hfd htb freq _ text hr htext hsize hbits (by omega) skip hskip sa h1 h2

/-- C112, `FMindexT<uint8_t, false>`: texts of at most 255 different bytes and fewer than 2^31 - 1 bytes. -/
theorem C112_coded_bytes (text a b order : List Nat)
    (hl : ∀ e ∈ text, e < 256) (hn : text.length < 2 ^ 31 - 1) (ha : a.length = 256)
    (ho : Verif.Frequency.SortOutcome (fun e => text.count e) (List.range 256) order) (st : Verif.Frequency.FV)
    (hst : Verif.Frequency.FV.init 32 (Verif.Frequency.FV.clear a b) text order = .ok st) (hsize : st.size ≤ 255)
    (g : Arr) (alloc : Nat → Nat → Bool) (hal : ∀ d c, alloc d c = true) (skip : Int) (hskip : 0 < skip) :
    Right false 8 (init false 8 fm (ofFV st) (sorter alloc g (st.size + 1)) text skip) text (fun c => c < 256) ∧
    Same false 8 (Verif.FMindex.init false 8 fd (ofFV st) (sorter alloc g (st.size + 1)) text skip)
      (init false 8 fm (ofFV st) (sorter alloc g (st.size + 1)) text skip) text (fun c => c < 256) :=
  coded_sorted fm hfm fd hfd (tb := 8) (by omega) (ofFV st) g alloc hal text
    (Verif.Props.FMindex.bytes_ranks hl (by omega) ha ho hst) hl
    (by simp [ofFV]; omega) (by simp [ofFV]; omega) hn skip hskip

/-- C112, `FMindexT<uint16_t, false>`: texts of at most 65534 different characters and fewer than 2^31 - 1 characters. -/
theorem C112_coded_wide (text order : List Nat)
    (hl : ∀ e ∈ text, e < 65536) (hn : text.length < 2 ^ 31 - 1)
    (ho : Verif.Frequency.SortOutcomeG (Verif.Frequency.FG.clear.appendAll 32 text).m order)
    (st : Verif.Frequency.FG) (hst : st = Verif.Frequency.FG.init 32 .clear text order) (hsize : st.size ≤ 65534)
    (g : Arr) (alloc : Nat → Nat → Bool) (hal : ∀ d c, alloc d c = true) (skip : Int) (hskip : 0 < skip) :
    Right false 16 (init false 16 fm (ofFG st) (sorter alloc g (st.size + 1)) text skip) text (fun c => c < 65536) ∧
    Same false 16 (Verif.FMindex.init false 16 fd (ofFG st) (sorter alloc g (st.size + 1)) text skip)
      (init false 16 fm (ofFG st) (sorter alloc g (st.size + 1)) text skip) text (fun c => c < 65536) := by
  subst hst
  exact coded_sorted fm hfm fd hfd (tb := 16) (by omega) _ g alloc hal text (Verif.Props.FMindex.wide_ranks (by omega) ho) hl
    (by simp only [ofFG]; omega) (by simp only [ofFG]; omega) hn skip hskip

end

/-- 1024 zeros and 1024 ones, and the other way round. -/
def zerosOnes : List Nat := List.replicate 1024 0 ++ List.replicate 1024 1
def onesZeros : List Nat := List.replicate 1024 1 ++ List.replicate 1024 0

/-- `skip` has to be positive. -/
theorem C112_bad_skip (raw : Bool) (tb : Nat) (fm : FM) (freq : FreqView) (sais : List Nat → Int × List Nat) (text : List Nat) (skip : Int)
    (h : skip ≤ 0) : init raw tb fm freq sais text skip = .throw := by
  rw [init, if_pos h]

/-- The return value -1 of `saisxx` becomes an exception: no index is made of what is in `sa` then. -/
theorem C112_sort_fails (raw : Bool) (tb : Nat) (fm : FM) (freq : FreqView) (sais : List Nat → Int × List Nat) (text : List Nat) (skip : Int)
    (h : ∀ v, (sais v).1 = -1) (fm' : FM) : init raw tb fm freq sais text skip ≠ .ok fm' := by
  intro e
  rw [init] at e
  split at e
  · cases e
  · obtain ⟨⟨v, cf, n⟩, _, e⟩ := Res.bind_eq_ok.1 e
    dsimp only at e
    rw [if_pos (h v)] at e
    cases e

/-- C112 (finding).  A matrix over compressed vectors cannot be built twice, unlike the default one (`C14_get_rank`): `init`
of a vector that has blocks appends to them.  After zeros and ones the matrix of ones and zeros counts no one
before position 1500. -/
theorem C112_finding_rebuild :
    (do let m ← Verif.WaveletC.init Verif.WaveletC.empty zerosOnes 1
        let m ← Verif.WaveletC.init m onesZeros 1
        Verif.WaveletC.rank m 1 1500) = .ok 0 ∧ countOf onesZeros 1 1500 = 1024 := by
  decide +kernel

example : Fresh (empty (Verif.Props.FMindex.ab 2 1)) := ⟨rfl, rfl, by simp [empty, Verif.WaveletC.empty]⟩

example : (do let f ← init false 16 (empty (Verif.Props.FMindex.ab 2 1)) (Verif.Props.FMindex.ab 2 1) (fun _ => (0, [3, 2, 0, 1])) [10, 20, 10] 2
              return (← getRange false 16 f [10], ← convertPosition f 4 1, ← convertPosition f 4 2,
                ← getPrevString false f 1 5)) = .ok (some (1, 3), 2, 0, [10, 20]) := by decide +kernel

#print axioms C112_matrix
#print axioms C112_raw_bytes
#print axioms C112_coded_bytes
#print axioms C112_coded_wide
#print axioms C112_finding_rebuild
#print axioms C112_bad_skip
#print axioms C112_sort_fails

end Verif.Props.FMindexC
