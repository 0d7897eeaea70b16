import Verif.Model.FmSample
import Verif.Spec.FmSample
import Verif.Props.Sais
import Verif.Props.IndexIO
import Verif.Props.Frequency
set_option linter.unusedSimpArgs false

/-! # C111: the search program of sample/fmindex_smpl.cpp -/
namespace Verif.Props.FmSample
open Verif Verif.FmSample Verif.Spec.FmSample Verif.Spec.FMindex Verif.Spec.IndexIO Verif.Spec.Frequency
open Verif.FMindex (FM ofFV codeOf init_idx cvt_coded)
open Verif.Frequency (FV SortOutcome)
open Verif.Sais (sorter toInt Arr)
open Verif.Props.Sais (toInt_small sorter_ok)

theorem isSpace_iff {c : Nat} : isSpace c = true ↔ Blank c := by
  simp [isSpace, Blank]
  omega

theorem words_blank (s : List Nat) (h : ∀ c ∈ s, Blank c) (r : List Nat) : words [] (s ++ r) = words [] r := by
  induction s with
  | nil => rfl
  | cons c s ih =>
    rw [List.cons_append, words, if_pos (isSpace_iff.mpr (h c (by simp)))]
    simpa using ih fun d hd => h d (by simp [hd])

theorem words_word (w : List Nat) (h : ∀ c ∈ w, ¬ Blank c) : ∀ (cur r : List Nat), words cur (w ++ r) = words (w.reverse ++ cur) r := by
  induction w with
  | nil => intro cur r; rfl
  | cons c w ih =>
    intro cur r
    rw [List.cons_append, words, if_neg (fun hs => h c (by simp) (isSpace_iff.mp hs)), ih (fun d hd => h d (by simp [hd]))]
    simp

/-- C111.  The keys are the words of the query file. -/
theorem C111_words (ws : List (List Nat)) (q : List Nat) (h : File ws q) : words [] q = ws := by
  induction h with
  | none s h =>
    have := words_blank s h []
    simpa [words] using this
  | last s w h hw hb =>
    have := words_word w hb [] []
    rw [words_blank s h]
    simp only [List.append_nil] at this
    rw [this, words]
    simp [hw]
  | more s w x ws rest h hw hb hx _ ih =>
    rw [List.append_assoc, words_blank s h, words_word w hb, words, if_pos (isSpace_iff.mpr hx), ih]
    simp [hw]

theorem words_bytes (P : Nat → Prop) (q : List Nat) : ∀ cur : List Nat, (∀ c ∈ cur, P c) → (∀ c ∈ q, P c) →
    ∀ w ∈ words cur q, w ≠ [] ∧ ∀ c ∈ w, P c := by
  induction q with
  | nil =>
    intro cur h1 _ w hw
    rw [words] at hw
    split at hw
    · simp at hw
    · rename_i he
      rw [List.mem_singleton] at hw
      subst hw
      exact ⟨by simpa using he, fun c hc => h1 c (by simpa using hc)⟩
  | cons x q ih =>
    intro cur h1 h2 w hw
    have hq : ∀ c ∈ q, P c := fun c hc => h2 c (by simp [hc])
    rw [words] at hw
    split at hw
    · split at hw
      · exact ih [] (by simp) hq w hw
      · rename_i he
        rcases List.mem_cons.mp hw with rfl | hw
        · exact ⟨by simpa using he, fun c hc => h1 c (by simpa using hc)⟩
        · exact ih [] (by simp) hq w hw
    · refine ih (x :: cur) ?_ hq w hw
      intro c hc
      rcases List.mem_cons.mp hc with rfl | hc
      · exact h2 c (by simp)
      · exact h1 c hc

/-! ### The set -/

theorem mem_setInsert (x : Int) (s : List Int) (y : Int) : y ∈ setInsert x s ↔ y = x ∨ y ∈ s := by
  induction s with
  | nil => simp [setInsert]
  | cons z s ih =>
    rw [setInsert]
    split
    · simp
    · split
      · rename_i h; subst h; simp
      · simp only [List.mem_cons, ih]
        constructor
        · rintro (h | h | h) <;> simp [h]
        · rintro (h | h | h) <;> simp [h]

theorem sorted_setInsert (x : Int) (s : List Int) (h : s.Pairwise (· < ·)) : (setInsert x s).Pairwise (· < ·) := by
  induction s with
  | nil => simp [setInsert]
  | cons z s ih =>
    rw [List.pairwise_cons] at h
    rw [setInsert]
    split
    · rename_i hlt
      refine List.Pairwise.cons ?_ (List.Pairwise.cons h.1 h.2)
      intro y hy
      rcases List.mem_cons.mp hy with rfl | hy
      · exact hlt
      · have := h.1 y hy; omega
    · split
      · exact List.Pairwise.cons h.1 h.2
      · refine List.Pairwise.cons ?_ (ih h.2)
        intro y hy
        rcases (mem_setInsert x s y).mp hy with rfl | hy
        · omega
        · exact h.1 y hy

theorem sorted_unique {s t : List Int} (hs : s.Pairwise (· < ·)) (ht : t.Pairwise (· < ·)) (h : ∀ x, x ∈ s ↔ x ∈ t) : s = t := by
  have hn : ∀ l : List Int, l.Pairwise (· < ·) → l.Nodup := fun l hl => hl.imp fun hab => by omega
  refine List.Perm.eq_of_pairwise (le := (· < ·)) ?_ hs ht ((List.perm_ext_iff_of_nodup (hn s hs) (hn t ht)).mpr h)
  intro a b _ _ h1 h2
  omega

theorem mem_positions (text key : List Nat) (x : Int) :
    x ∈ positions text key ↔ ∃ p : Nat, OccursAt text key p ∧ x = p := by
  simp only [positions, List.mem_map, List.mem_filter, List.mem_range, OccursAt, List.isPrefixOf_iff_prefix]
  constructor
  · rintro ⟨p, h, rfl⟩; exact ⟨p, h, rfl⟩
  · rintro ⟨p, h, rfl⟩; exact ⟨p, h, rfl⟩

theorem sorted_positions (text key : List Nat) : (positions text key).Pairwise (· < ·) := by
  rw [positions, List.pairwise_map]
  refine List.Pairwise.filter _ ?_
  refine (List.pairwise_lt_range (n := text.length)).imp ?_
  intro a b h
  simp only [Int.ofNat_eq_natCast]
  omega

theorem forKeys_ok {find : List Nat → Res (List Int)} {g : List Nat → List Int} (ks : List (List Nat))
    (h : ∀ k ∈ ks, find k = .ok (g k)) : forKeys find ks = .ok (ks.map fun k => (k, g k)) := by
  induction ks with
  | nil => rfl
  | cons k ks ih =>
    rw [forKeys, h k (by simp), Res.ok_bind, ih fun k hk => h k (by simp [hk]), Res.ok_bind]
    rfl

/-! ### The simple search -/

theorem find_none {text key : List Nat} (hne : key ≠ []) {p : Nat} (h : findFrom text key p = none) :
    ∀ q, p ≤ q → ¬ OccursAt text key q := by
  intro q hq ho
  rw [findFrom, List.find?_eq_none] at h
  have := h q (by rw [List.mem_range'_1]; have := ho.1; omega)
  rw [List.isPrefixOf_iff_prefix] at this
  exact this ho.2

theorem find_some {text key : List Nat} (hne : key ≠ []) {p q : Nat} (h : findFrom text key p = some q) :
    p ≤ q ∧ OccursAt text key q ∧ ∀ r, p ≤ r → r < q → ¬ OccursAt text key r := by
  rw [findFrom] at h
  have hm := List.mem_of_find?_eq_some h
  rw [List.mem_range'_1] at hm
  have hp := List.find?_some h
  rw [List.isPrefixOf_iff_prefix] at hp
  have hl : q < text.length := by
    have := hp.length_le
    rw [List.length_drop] at this
    have : 0 < key.length := List.length_pos_iff.mpr hne
    omega
  refine ⟨hm.1, ⟨hl, hp⟩, fun r h1 h2 ho => ?_⟩
  rw [List.find?_eq_some_iff_getElem] at h
  obtain ⟨_, i, hi, e, hb⟩ := h
  rw [List.getElem_range'] at e
  have := hb (r - p) (by omega)
  rw [List.getElem_range', show p + 1 * (r - p) = r by omega] at this
  simp only [Bool.not_eq_true', ← Bool.not_eq_true, List.isPrefixOf_iff_prefix] at this
  exact this ho.2

theorem simpleLoop_ok {text key : List Nat} (hne : key ≠ []) (hn : text.length < 2 ^ 31) : ∀ (fuel p : Nat) (set : List Int),
    text.length + 1 < p + fuel → 0 < fuel → set.Pairwise (· < ·) →
    ∃ out, simpleLoop text key fuel p set = .ok out ∧ out.Pairwise (· < ·) ∧
      ∀ x, x ∈ out ↔ x ∈ set ∨ ∃ q : Nat, p ≤ q ∧ OccursAt text key q ∧ x = q := by
  intro fuel
  induction fuel with
  | zero => intro p set h h0; omega
  | succ fuel ih =>
    intro p set h _ hs
    rw [simpleLoop]
    cases hf : findFrom text key p with
    | none =>
      refine ⟨set, rfl, hs, fun x => ⟨Or.inl, ?_⟩⟩
      rintro (hx | ⟨q, h1, h2, _⟩)
      · exact hx
      · exact absurd h2 (find_none hne hf q h1)
    | some q =>
      obtain ⟨g1, g2, g3⟩ := find_some hne hf
      have hq := g2.1
      simp only
      rw [toInt_small (by omega)]
      obtain ⟨out, e, o1, o2⟩ := ih (q + 1) (setInsert q set) (by omega) (by omega) (sorted_setInsert _ _ hs)
      refine ⟨out, e, o1, fun x => ?_⟩
      rw [o2, mem_setInsert]
      constructor
      · rintro ((rfl | hx) | ⟨r, h1, h2, h3⟩)
        · exact Or.inr ⟨q, g1, g2, rfl⟩
        · exact Or.inl hx
        · exact Or.inr ⟨r, by omega, h2, h3⟩
      · rintro (hx | ⟨r, h1, h2, rfl⟩)
        · exact Or.inl (Or.inr hx)
        · rcases Nat.lt_trichotomy r q with hr | rfl | hr
          · exact absurd h2 (g3 r h1 hr)
          · exact Or.inl (Or.inl rfl)
          · exact Or.inr ⟨r, hr, h2, rfl⟩

/-- C111.  The simple search lists for every key all its positions, overlapping ones included, ascending. -/
theorem C111_simple (text q : List Nat) (hn : text.length < 2 ^ 31) :
    simpleSearch text q = .ok ((words [] q).map fun k => (k, positions text k)) := by
  refine forKeys_ok _ fun k hk => ?_
  have hne := (words_bytes (fun _ => True) q [] (by simp) (by simp) k hk).1
  obtain ⟨out, e, o1, o2⟩ := simpleLoop_ok hne hn (text.length + 2) 0 [] (by omega) (by omega) List.Pairwise.nil
  rw [e, sorted_unique o1 (sorted_positions text k)]
  intro x
  rw [o2, mem_positions]
  simp

/-! ### The search with the index -/

theorem rowLoop_ok {text key : List Nat} {f : FM} {fuel b e : Nat} (hn : text.length < 2 ^ 31)
    {prev : Nat → Nat → Res (List Nat)} (h : Locates text key b e (Verif.FMindex.convertPosition f fuel) prev) :
    ∀ (cnt row : Nat) (set : List Int), b ≤ row → row + cnt = e → set.Pairwise (· < ·) →
    ∃ out, rowLoop f fuel cnt row set = .ok out ∧ out.Pairwise (· < ·) ∧
      ∀ x, x ∈ out ↔ x ∈ set ∨ ∃ i p : Nat, row ≤ i ∧ i < e ∧ Verif.FMindex.convertPosition f fuel i = .ok p ∧ x = p := by
  intro cnt
  induction cnt with
  | zero =>
    intro row set _ hr hs
    refine ⟨set, rfl, hs, fun x => ⟨Or.inl, ?_⟩⟩
    rintro (hx | ⟨i, p, h1, h2, _⟩)
    · exact hx
    · omega
  | succ cnt ih =>
    intro row set hb hr hs
    obtain ⟨p, hp, e1, _⟩ := h.row row hb (by omega)
    have hpl := hp.1
    rw [rowLoop, e1, Res.ok_bind, toInt_small (by omega)]
    obtain ⟨out, e, o1, o2⟩ := ih (row + 1) (setInsert p set) (by omega) (by omega) (sorted_setInsert _ _ hs)
    refine ⟨out, e, o1, fun x => ?_⟩
    rw [o2, mem_setInsert]
    constructor
    · rintro ((rfl | hx) | ⟨i, r, h1, h2, h3⟩)
      · exact Or.inr ⟨row, p, by omega, by omega, e1, rfl⟩
      · exact Or.inl hx
      · exact Or.inr ⟨i, r, by omega, h2, h3⟩
    · rintro (hx | ⟨i, r, h1, h2, h3, rfl⟩)
      · exact Or.inl (Or.inr hx)
      · rcases Nat.eq_or_lt_of_le h1 with rfl | h1
        · rw [e1] at h3
          obtain rfl := Res.ok.inj h3
          exact Or.inl (Or.inl rfl)
        · exact Or.inr ⟨i, r, h1, h2, h3, rfl⟩

theorem occ_zero {text key : List Nat} (h : occurrences text key = 0) : positions text key = [] := by
  rw [occurrences, List.countP_eq_zero] at h
  rw [positions, List.filter_eq_nil_iff.mpr h]
  rfl

/-- Whatever `getRange` this answer came from. -/
theorem rows_ok {text key : List Nat} {f : FM} {fuel : Nat} {r : Res (Option (Nat × Nat))} {prev : Nat → Nat → Res (List Nat)}
    (hn : text.length < 2 ^ 31) (hc : Counts text key r)
    (hl : ∀ b e, r = .ok (some (b, e)) → Locates text key b e (Verif.FMindex.convertPosition f fuel) prev) :
    (r >>= rowsOf f fuel) = .ok (positions text key) := by
  rcases Nat.eq_zero_or_pos (occurrences text key) with h0 | h0
  · rw [hc.1 h0, Res.ok_bind, occ_zero h0]
    rfl
  · obtain ⟨b, e⟩ := hc.2 h0
    have L := hl _ _ e
    rw [e, Res.ok_bind, rowsOf]
    obtain ⟨out, e2, o1, o2⟩ := rowLoop_ok hn L (b + occurrences text key - b) b [] (by omega) (by omega) List.Pairwise.nil
    rw [e2, sorted_unique o1 (sorted_positions text key)]
    intro x
    rw [o2, mem_positions]
    constructor
    · rintro (hx | ⟨i, p, h1, h2, h3, rfl⟩)
      · simp at hx
      · obtain ⟨p', q1, q2, _⟩ := L.row i h1 h2
        rw [h3] at q2
        obtain rfl := Res.ok.inj q2
        exact ⟨p, q1, rfl⟩
    · rintro ⟨p, q1, rfl⟩
      obtain ⟨i, i1, i2, i3⟩ := L.occ p q1
      exact Or.inr ⟨i, p, i1, i2, i3, rfl⟩

theorem findKey_ok {text key : List Nat} {f : FM} {fuel : Nat} (hn : text.length < 2 ^ 31)
    (hc : Counts text key (Verif.FMindex.getRange false 8 f key))
    (hl : ∀ b e, Verif.FMindex.getRange false 8 f key = .ok (some (b, e)) →
      Locates text key b e (Verif.FMindex.convertPosition f fuel) (Verif.FMindex.getPrevString false f)) :
    findKey f fuel key = .ok (positions text key) := rows_ok hn hc hl

theorem row0 {v sa : List Nat} {n : Nat} (hs : IsSuffixArray v sa) (hd : v.drop n = [0]) (hn : n < v.length) :
    ∃ h : 0 < sa.length, sa[0] = n := by
  have hm : n ∈ sa := hs.perm.mem_iff.mpr (List.mem_range.mpr hn)
  obtain ⟨i, hi, e⟩ := List.getElem_of_mem hm
  have h1 := Verif.FMindex.lo_row hs hi
  rw [e, hd] at h1
  have h0 : Verif.FMindex.lo v [0] = 0 := by
    rw [Verif.FMindex.lo, Verif.FMindex.cntSuf, List.countP_eq_zero]
    intro j hj
    rw [List.mem_range] at hj
    rw [List.drop_eq_getElem_cons hj]
    have : ∀ y : List Nat, lexLt y [] = false := fun y => by cases y <;> rfl
    simp [lexLt, this]
  rw [h0] at h1
  subst h1
  exact ⟨hi, e⟩

theorem init_congr {raw : Bool} {tb : Nat} {fm : FM} {freq : Verif.FMindex.FreqView} {s1 s2 : List Nat → Int × List Nat}
    {text : List Nat} {skip : Int} {v cf : List Nat} {n : Nat} (hcf : Verif.FMindex.initCf raw tb freq text = .ok (v, cf, n))
    (h : s1 v = s2 v) : Verif.FMindex.init raw tb fm freq s1 text skip = Verif.FMindex.init raw tb fm freq s2 text skip := by
  simp only [Verif.FMindex.init, hcf, Res.ok_bind, h]

/-- The hypotheses about the run of `create`: what the constructor left in the index tables, any sort, any memory. -/
structure Run (a : List Nat) (order : List Nat) (alloc : Nat → Nat → Bool) (text : List Nat) : Prop where
  len : a.length = 256
  vals : ∀ v ∈ a, v < 256
  sort : SortOutcome (fun e => text.count e) (List.range 256) order
  mem : ∀ d c, alloc d c = true
  bytes : ∀ c ∈ text, c < 256

/-- The text has at most 255 different bytes. -/
def NotAll (text : List Nat) : Prop := ∃ c, c < 256 ∧ c ∉ text

theorem size_le {text : List Nat} {st : FV} (hb : ∀ c ∈ text, c < 256) (h : NotAll text)
    (hr : Ranks text (fun c => c < 256) st.size st.getFrequency st.getIndex st.getElement) : st.size ≤ 255 := by
  obtain ⟨x, hx, hm⟩ := h
  have e := Verif.Props.Frequency.C32_size text _ _ _ _ _ hr ((List.range 256).filter fun c => decide (c ∈ text))
    (List.Nodup.filter _ List.nodup_range) (fun c => by
      simp only [List.mem_filter, List.mem_range, decide_eq_true_eq]
      exact ⟨fun h => h.2, fun h => ⟨hb c h, h⟩⟩)
  have hlt : ((List.range 256).filter fun c => decide (c ∈ text)).length < (List.range 256).length := by
    rw [List.length_filter_lt_length_iff_exists]
    exact ⟨x, List.mem_range.mpr hx, by simpa using hm⟩
  rw [List.length_range] at hlt
  omega

/-- What `create` writes and what comes out of it. -/
theorem created {a b a' b' order : List Nat} {alloc : Nat → Nat → Bool} {g : Arr} {text : List Nat} {skip : Int}
    (hr : Run a order alloc text) (hn : text.length < 2 ^ 31 - 1) (hx : NotAll text) (h0 : 0 < skip) (h1 : skip < 2 ^ 31) :
    ∃ B, create a b order alloc g text skip = .ok B ∧ ∀ s rest, s.rest = B ++ rest →
      ∃ f, loadIndex a' b' s = .ok f ∧ (∀ key, key ≠ [] → (∀ c ∈ key, c < 256) → ∀ fuel, text.length < fuel →
        findKey f fuel key = .ok (positions text key)) ∧ f.wm.size = text.length + 1 ∧
        Verif.FMindex.getPrevString false f 0 text.length = .ok text := by
  obtain ⟨st, e1, hrk, _⟩ := Verif.Props.Frequency.C32_bytes 32 text hr.bytes (by omega) a b hr.len order hr.sort
  have hsize := size_le hr.bytes hx hrk
  have hrk' : Ranks text (fun c => c < 2 ^ 8) (ofFV st).size (ofFV st).getFrequency (ofFV st).getIndex (ofFV st).getElement := hrk
  obtain ⟨cf, hcf, hc⟩ := cvt_coded (tb := 8) (by omega) hrk' hr.bytes (by simp only [ofFV]; omega) (by omega)
  obtain ⟨sa, s1, s2⟩ := sorter_ok (g := g) (v := text.map (codeOf (ofFV st)) ++ [0]) (k := st.size + 1) (by omega) (by omega) (by
    intro c hcm
    rcases List.mem_append.mp hcm with w | w
    · obtain ⟨d, hd, rfl⟩ := List.mem_map.mp w
      exact (hc.range d hd).2
    · rw [List.mem_singleton.mp w]
      omega) (by simp; omega) hr.mem
  -- the index
  obtain ⟨x, hR1, hR2⟩ := Verif.Props.Sais.C16_coded_bytes_sorted_partial (Verif.FMindex.empty (ofFV (FV.clear a b))) rfl text a b order
    hr.bytes hn hr.len hr.sort st e1 hsize g alloc hr.mem skip h0
  obtain ⟨x', i1, i2, _, hidx⟩ := init_idx (fm := Verif.FMindex.empty (ofFV (FV.clear a b))) hcf hc (by omega)
    (by simp only [ofFV]; omega) h0 _ s1 s2
  rw [hR1] at i1
  obtain rfl := Res.ok.inj i1
  -- it can be saved
  have hfits := Verif.IndexIO.fm_init_fits (f0 := ofFV (FV.clear a b)) (freq := ofFV st) (raw := false) (tb := 8) (text := text) (skip := skip)
    (sais := fun v => if v = text.map (codeOf (ofFV st)) ++ [0] then (0, sa) else (0, [])) (r := x) (by omega) h1 (by
      intro v
      by_cases hv : v = text.map (codeOf (ofFV st)) ++ [0]
      · simp only [hv, if_true]
        rw [Verif.FMindex.sa_length s2]
        simp
        omega
      · simp [hv]) (by
      intro v
      by_cases hv : v = text.map (codeOf (ofFV st)) ++ [0]
      · simp only [hv, if_true]
        intro y hy
        have := List.mem_range.mp (s2.perm.mem_iff.mp hy)
        simp at this
        omega
      · simp [hv]) (by
      rw [init_congr hcf (s2 := sorter alloc g (st.size + 1)) (by simp [s1])]
      exact hR1)
  have hff := Verif.IndexIO.fv_init_fits hr.len hr.vals hr.sort e1
  obtain ⟨B, hB, r, hgood, q1, q2, q3, q4, q5, _⟩ := Verif.IndexIO.fm_good (raw := false) (tb := 8) (ld := Verif.IndexIO.loadFV')
    (fb := Verif.IndexIO.saveFV st) (f := ofFV st) (Verif.FMindex.empty (ofFV (FV.clear a' b'))) hfits.1
    (fun _ => Verif.IndexIO.last_good (Verif.IndexIO.fv_good hff))
  have hsame := Verif.IndexIO.fm_same (tb := 8) (raw := false) q1 q2 q3 q4 (fun _ => by rw [q5, hfits.2]; simp)
  refine ⟨B, by rw [create, e1, Res.ok_bind, hR1, Res.ok_bind, hB], fun s rest hs => ?_⟩
  obtain ⟨s', l1, _⟩ := hgood.ok s rest hs
  refine ⟨r, by rw [loadIndex, l1]; rfl, fun key hne hk fuel hf => ?_, ?_, ?_⟩
  · obtain ⟨c1, c2⟩ := hR2 key hne hk
    have hcv : Verif.FMindex.convertPosition r fuel = Verif.FMindex.convertPosition x fuel := funext fun row => hsame.convert fuel row
    have hpv : Verif.FMindex.getPrevString false r = Verif.FMindex.getPrevString false x := funext fun row => funext fun l => hsame.prev row l
    refine findKey_ok (by omega) (by rw [hsame.range]; exact c1) fun b e he => ?_
    rw [hcv, hpv]
    exact c2 b e (by rw [← hsame.range]; exact he) fuel hf
  · rw [(Verif.IndexIO.same_of_bare q2).size, hidx.wm.size, List.length_map, Verif.FMindex.sa_length s2]
    simp
  · rw [hsame.prev]
    obtain ⟨z1, z2⟩ := row0 (n := text.length) s2 (by
      rw [List.drop_append_of_le_length (by simp), List.drop_eq_nil_of_le (by simp), List.nil_append]) (by simp)
    have := hidx.prev hc (fun c hcm => by
      obtain ⟨i, j1, j2, j3⟩ := hrk'.index_elem c hcm
      rw [Verif.FMindex.prevChar, if_neg (by simp), i2]
      simp [codeOf, j2, j3]) text.length 0 text.length [] z1 z2
    rw [Verif.FMindex.getPrevString, this]
    simp

/-- C111.  The whole way: the index file of a text of at most 255 different bytes (as every UTF-8 text has) and fewer than
2^31 - 1 bytes, loaded by another run of the program, gives for every query file the positions of all occurrences of its words,
ascending, each once.  The stream may deliver the file in pieces of any sizes; `convertPosition` takes at most `text.length` steps. -/
theorem C111_search (a b a' b' order : List Nat) (alloc : Nat → Nat → Bool) (g : Arr) (text : List Nat) (skip : Int)
    (hr : Run a order alloc text) (hn : text.length < 2 ^ 31 - 1) (hx : NotAll text) (h0 : 0 < skip) (h1 : skip < 2 ^ 31) :
    ∃ B, create a b order alloc g text skip = .ok B ∧ ∀ s, s.rest = B → ∀ ws q, File ws q → (∀ c ∈ q, c < 256) →
      ∀ fuel, text.length < fuel → search a' b' fuel s q = .ok (ws.map fun w => (w, positions text w)) := by
  obtain ⟨B, e, h⟩ := created (b := b) (a' := a') (b' := b') (g := g) hr hn hx h0 h1
  refine ⟨B, e, fun s hs ws q hf hb fuel hfu => ?_⟩
  obtain ⟨f, e1, e2, _⟩ := h s [] (by simpa using hs)
  rw [search, e1, Res.ok_bind, ← C111_words ws q hf]
  refine forKeys_ok _ fun k hk => ?_
  obtain ⟨hne, hk⟩ := words_bytes (fun c => c < 256) q [] (by simp) hb k hk
  exact e2 k hne hk fuel hfu

/-- C111.  The index search prints what the simple search prints. -/
theorem C111_same (a b a' b' order : List Nat) (alloc : Nat → Nat → Bool) (g : Arr) (text : List Nat) (skip : Int)
    (hr : Run a order alloc text) (hn : text.length < 2 ^ 31 - 1) (hx : NotAll text) (h0 : 0 < skip) (h1 : skip < 2 ^ 31) :
    ∃ B, create a b order alloc g text skip = .ok B ∧ ∀ s, s.rest = B → ∀ q, (∀ c ∈ q, c < 256) →
      ∀ fuel, text.length < fuel → search a' b' fuel s q = simpleSearch text q := by
  obtain ⟨B, e, h⟩ := created (b := b) (a' := a') (b' := b') (g := g) hr hn hx h0 h1
  refine ⟨B, e, fun s hs q hb fuel hfu => ?_⟩
  obtain ⟨f, e1, e2, _⟩ := h s [] (by simpa using hs)
  rw [search, e1, Res.ok_bind, C111_simple text q (by omega)]
  refine forKeys_ok _ fun k hk => ?_
  obtain ⟨hne, hk⟩ := words_bytes (fun c => c < 256) q [] (by simp) hb k hk
  exact e2 k hne hk fuel hfu

/-- C111.  The text is recovered from the index file alone. -/
theorem C111_recover (a b a' b' order : List Nat) (alloc : Nat → Nat → Bool) (g : Arr) (text : List Nat) (skip : Int)
    (hr : Run a order alloc text) (hn : text.length < 2 ^ 31 - 1) (hx : NotAll text) (h0 : 0 < skip) (h1 : skip < 2 ^ 31) :
    ∃ B, create a b order alloc g text skip = .ok B ∧ ∀ s, s.rest = B → recover a' b' s = .ok text := by
  obtain ⟨B, e, h⟩ := created (b := b) (a' := a') (b' := b') (g := g) hr hn hx h0 h1
  refine ⟨B, e, fun s hs => ?_⟩
  obtain ⟨f, e1, _, e2, e3⟩ := h s [] (by simpa using hs)
  rw [recover, e1, Res.ok_bind, if_neg (by omega), e2, Nat.add_sub_cancel, e3]

/-- C111.  A sampling distance that is not positive is refused. -/
theorem C111_bad_skip (a b order : List Nat) (alloc : Nat → Nat → Bool) (g : Arr) (text : List Nat) (skip : Int)
    (hr : Run a order alloc text) (hn : text.length < 2 ^ 32) (h0 : skip ≤ 0) :
    create a b order alloc g text skip = .throw := by
  obtain ⟨st, e1, _⟩ := Verif.Props.Frequency.C32_bytes 32 text hr.bytes hn a b hr.len order hr.sort
  rw [create, e1, Res.ok_bind, Verif.FMindex.init, if_pos h0, Res.throw_bind]

/-- C111 (finding).  A text in which every byte value occurs cannot be indexed. -/
theorem C111_finding_all_bytes (a b order : List Nat) (alloc : Nat → Nat → Bool) (g : Arr) (text : List Nat) (skip : Int)
    (hr : Run a order alloc text) (hn : text.length < 2 ^ 32) (hx : ∀ c, c < 256 → c ∈ text) :
    create a b order alloc g text skip = .throw := by
  obtain ⟨st, e1, hrk, _⟩ := Verif.Props.Frequency.C32_bytes 32 text hr.bytes hn a b hr.len order hr.sort
  have hs : st.size = 256 := by
    rw [Verif.Props.Frequency.C32_size text _ _ _ _ _ hrk (List.range 256) List.nodup_range (fun e => by
      rw [List.mem_range]; exact ⟨hx e, hr.bytes e⟩), List.length_range]
  rw [create, e1, Res.ok_bind, Verif.FMindex.init]
  split
  · rfl
  · rw [Verif.FMindex.initCf]
    split
    · rfl
    · rw [if_neg (by simp)]
      simp only [ofFV, hs]
      rfl

/-- C111 (finding).  Nor can a text of 2^31 - 1 bytes or more, though `init` admits twice as many. -/
theorem C111_finding_long (a b order : List Nat) (alloc : Nat → Nat → Bool) (g : Arr) (text : List Nat) (skip : Int)
    (hr : Run a order alloc text) (h1 : 2 ^ 31 - 1 ≤ text.length) (h2 : text.length < 2 ^ 32 - 1) (hx : NotAll text) :
    create a b order alloc g text skip = .throw := by
  obtain ⟨st, e1, hrk, _⟩ := Verif.Props.Frequency.C32_bytes 32 text hr.bytes (by omega) a b hr.len order hr.sort
  have hsize := size_le hr.bytes hx hrk
  have hrk' : Ranks text (fun c => c < 2 ^ 8) (ofFV st).size (ofFV st).getFrequency (ofFV st).getIndex (ofFV st).getElement := hrk
  obtain ⟨cf, hcf, hc⟩ := cvt_coded (tb := 8) (by omega) hrk' hr.bytes (by simp only [ofFV]; omega) h2
  rw [create, e1, Res.ok_bind, Verif.FMindex.init]
  split
  · rfl
  · generalize hv : text.map (codeOf (ofFV st)) ++ [0] = v at hcf
    have hl : v.length = text.length + 1 := by rw [← hv]; simp
    rw [hcf, Res.ok_bind]
    have hneg : toInt v.length < 0 := by
      unfold toInt
      rw [Nat.mod_eq_of_lt (by omega), if_neg (by omega)]
      omega
    have : sorter alloc g (st.size + 1) v = (-1, Verif.Sais.listOf (fun _ => 0) v.length) := by
      rw [sorter, Verif.Props.Sais.C90_bad_arguments _ _ _ _ _ _ (Or.inl hneg)]
    simp only [this, if_true]
    rfl

/-! Cases meeting the hypotheses. -/

example : File [[98, 101], [111]] [32, 98, 101, 10, 111] :=
  .more [32] [98, 101] 10 [[111]] [111] (by simp [Blank]) (by simp) (by simp [Blank]) (by simp [Blank])
    (.last [] [111] (by simp) (by simp) (by simp [Blank]))

example : ∃ order, Run (List.replicate 256 0) order (fun _ _ => true) [116, 111, 32, 98, 101] := by
  obtain ⟨order, h⟩ := Verif.Props.Frequency.C32_sort_exists (fun e => [116, 111, 32, 98, 101].count e) (List.range 256)
  exact ⟨order, List.length_replicate, fun v hv => by rw [List.eq_of_mem_replicate hv]; omega, h, by simp, by simp⟩

example : NotAll [116, 111, 32, 98, 101] := ⟨0, by simp, by simp⟩

example : positions [98, 97, 110, 97, 110, 97] [97, 110, 97] = [1, 3] := by decide

example : simpleSearch [98, 97, 110, 97, 110, 97] [97, 110, 97, 10, 120] = .ok [([97, 110, 97], [1, 3]), ([120], [])] := by
  decide +kernel

#print axioms C111_words
#print axioms C111_simple
#print axioms C111_search
#print axioms C111_same
#print axioms C111_recover
#print axioms C111_bad_skip
#print axioms C111_finding_all_bytes
#print axioms C111_finding_long

end Verif.Props.FmSample
