import Verif.Model.TfIdfTerm
import Verif.Spec.TfIdfTerm
import Verif.Props.TfIdf

set_option linter.unusedSimpArgs false

/-!
# C101: the keyword file has the rarest words, and it is read back
-/
namespace Verif.Props.TfIdfTerm

open Verif Verif.TfIdf Verif.Spec.TfIdf

theorem termPairs_ok (df : List Nat) (lim : Int) : ∀ (n i : Nat), i + n ≤ df.length →
    termPairs df lim n i = .ok (((df.zipIdx.drop i).take n).filterMap fun x => if (x.1 : Int) ≤ lim then none else some ⟨x.2, x.1⟩) := by
  intro n
  induction n with
  | zero => intro i _; simp [termPairs]
  | succ n ih =>
    intro i h
    have hi : i < df.length := by omega
    have hd : df.zipIdx.drop i = (df[i], i) :: df.zipIdx.drop (i + 1) := by
      rw [List.drop_eq_getElem_cons (by simpa using hi)]
      simp
    rw [termPairs, at?_eq_ok hi, Res.ok_bind, ih (i + 1) (by omega), Res.ok_bind, hd, List.take_succ_cons, List.filterMap_cons]
    split <;> rename_i hc <;> simp [hc]

theorem termPairs_all {df : List Nat} {lim : Int} {n : Nat} (h : n = df.length) :
    ∃ l, termPairs df lim n 0 = .ok l ∧ (∀ p, p ∈ l ↔ df[p.id]? = some p.freq ∧ lim < p.freq) ∧ (l.map (·.id)).Nodup := by
  refine ⟨_, termPairs_ok df lim n 0 (by omega), ?_, ?_⟩
  · intro p
    rw [List.drop_zero, List.take_of_length_le (by simp [h]), List.mem_filterMap]
    constructor
    · rintro ⟨x, hx, e⟩
      split at e
      · cases e
      · simp only [Option.some.injEq] at e
        subst e
        rw [List.mem_zipIdx_iff_getElem?] at hx
        exact ⟨hx, by simp only; omega⟩
    · rintro ⟨h1, h2⟩
      exact ⟨(p.freq, p.id), List.mem_zipIdx_iff_getElem?.2 h1, by rw [if_neg (by simp only; omega)]⟩
  · rw [List.drop_zero, List.take_of_length_le (by simp [h])]
    have hsub : ∀ (l : List (Nat × Nat)), (((l.filterMap fun x => if (x.1 : Int) ≤ lim then none else some (⟨x.2, x.1⟩ : Pair)).map (·.id))).Sublist (l.map (·.2)) := by
      intro l
      induction l with
      | nil => simp
      | cons x l ih =>
        rw [List.filterMap_cons, List.map_cons]
        by_cases hc : (x.1 : Int) ≤ lim
        · simp only [hc, if_true]; exact ih.cons _
        · simp only [hc, if_false, List.map_cons]; exact ih.cons_cons _
    refine (hsub _).nodup ?_
    have : df.zipIdx.map (·.2) = List.range df.length := by
      rw [List.zipIdx_map_snd]; simp [List.range_eq_range']
    rw [this]
    exact List.nodup_range

theorem exists_sort (k : Nat) (l : List Pair) : ∃ out, PartialSort k l out := by
  refine ⟨l.mergeSort fun a b => decide (a.freq ≤ b.freq), List.mergeSort_perm _ _, ?_, ?_⟩
  all_goals
    have hs := List.pairwise_mergeSort (le := fun a b : Pair => decide (a.freq ≤ b.freq)) (by intro a b c; simp; omega) (by intro a b; simp; omega) l
    generalize l.mergeSort (fun a b => decide (a.freq ≤ b.freq)) = out at hs
  · refine (hs.sublist (List.take_sublist _ _)).imp ?_
    intro a b h; simpa using h
  · intro a ha b hb
    rw [← List.take_append_drop k out, List.pairwise_append] at hs
    have := hs.2.2 a ha b hb
    simpa using this

/-- The word of an entry of `pv_`. -/
def word (d : Df) (p : Pair) : Word := (d.id2word[p.id]?).getD []

theorem nodup_map_of_inj {α β : Type} {f : α → β} {l : List α} (h : l.Nodup) (hf : ∀ a ∈ l, ∀ b ∈ l, f a = f b → a = b) : (l.map f).Nodup := by
  exact List.Nodup.map_on (fun a ha b hb => hf a ha b hb) h

/-- C101: `Df::term` on a fresh `pv_` leaves, whatever `partial_sort` does, the rarest of the words that occur more often than the limit, with
the recorded numbers; how many is decided by the rate alone. -/
theorem C101_term (es : List Ev) (lim : Nat) (cut : Nat → Int) (hcut : ∀ n, 0 ≤ cut n ∧ cut n ≤ n) :
    ∃ d, Df.run es Df.new = .ok d ∧ (∃ r, d.Term lim cut [] r) ∧ ∀ r, d.Term lim cut [] r → ∃ pv, r = .ok pv ∧
      (∀ p ∈ pv, d.id2word[p.id]? = some (word d p) ∧ p.freq = freq es (word d p)) ∧
      Rarest es lim (cut (frequent es lim).card).toNat (pv.map (word d)) := by
  obtain ⟨d, fin, cur, e, I, h⟩ := Df.run_ok es _ _ _ Df.new_inv
  rw [List.nil_append, glue_nil] at h
  obtain ⟨l, hl, hm, hn⟩ := termPairs_all (df := d.df) (lim := (lim : Int)) (n := d.id2word.length) I.len.symm
  have hdf : ∀ (i : Nat) (w : Word), d.id2word[i]? = some w → d.df[i]? = some (freq es w) := by
    intro i w hi
    rw [I.df i w hi, h]; rfl
  have hword : ∀ p ∈ l, d.id2word[p.id]? = some (word d p) ∧ p.freq = freq es (word d p) ∧ lim < p.freq := by
    intro p hp
    obtain ⟨h1, h2⟩ := (hm p).1 hp
    have hlt := (List.getElem?_eq_some_iff.1 h1).1
    rw [I.len] at hlt
    have hw : d.id2word[p.id]? = some (word d p) := by
      rw [word, List.getElem?_eq_getElem hlt]; rfl
    have := hdf _ _ hw
    rw [h1] at this
    simp only [Option.some.injEq] at this
    exact ⟨hw, this, by omega⟩
  have hfw : ∀ w, w ∈ frequent es lim ↔ ∃ p ∈ l, word d p = w := by
    intro w
    constructor
    · intro hw
      simp only [frequent, Finset.mem_filter, List.mem_toFinset, List.mem_map, List.mem_flatten] at hw
      obtain ⟨⟨y, ⟨x, hx, hy⟩, rfl⟩, hf⟩ := hw
      have hk := I.known x (by rw [h]; exact hx) y hy
      obtain ⟨i, hi⟩ := List.mem_iff_getElem?.1 hk
      refine ⟨⟨i, freq es (lower y)⟩, (hm _).2 ⟨hdf i _ hi, by simp only; omega⟩, by simp [word, hi]⟩
    · rintro ⟨p, hp, rfl⟩
      obtain ⟨h1, h2, h3⟩ := hword p hp
      simp only [frequent, Finset.mem_filter, List.mem_toFinset, List.mem_map, List.mem_flatten]
      refine ⟨?_, by omega⟩
      by_contra hc
      have hz : freq es (word d p) = 0 := by
        refine total_zero ?_
        intro x hx y hy he
        exact hc ⟨y, ⟨x, hx, hy⟩, he⟩
      omega
  have hinj : ∀ a ∈ l, ∀ b ∈ l, word d a = word d b → a = b := by
    intro a ha b hb he
    obtain ⟨a1, a2, -⟩ := hword a ha
    obtain ⟨b1, b2, -⟩ := hword b hb
    rw [he] at a1
    have := nodup_get I.nodup a1 b1
    cases a; cases b
    simp only at this a2 b2
    rw [he] at a2
    subst this
    exact congrArg _ (a2.trans b2.symm)
  have hnl : l.Nodup := List.Nodup.of_map _ hn
  have hcard : (frequent es lim).card = l.length := by
    have : frequent es lim = (l.map (word d)).toFinset := by
      ext w
      rw [hfw, List.mem_toFinset, List.mem_map]
    rw [this, List.toFinset_card_of_nodup (nodup_map_of_inj hnl hinj), List.length_map]
  refine ⟨d, e, ?_, ?_⟩
  · obtain ⟨out, ho⟩ := exists_sort (cut ([] ++ l).length).toNat ([] ++ l)
    have := hcut ([] ++ l).length
    exact ⟨_, .done hl (by omega) (by omega) ho⟩
  · intro r hr
    cases hr with
    | fail h1 h2 => rw [hl] at h1; exact absurd h1.symm (h2 l)
    | @middle l' h1 h2 =>
      have := hcut ([] ++ l').length
      omega
    | @done l' out k h1 h2 h3 h4 =>
      rw [hl] at h1
      simp only [Res.ok.injEq] at h1
      subst h1
      rw [List.nil_append] at h2 h3 h4
      obtain ⟨p1, p2, p3⟩ := h4
      have hsub : ∀ p ∈ out.take k, p ∈ l := fun p hp => p1.subset (List.mem_of_mem_take hp)
      have hno : out.Nodup := p1.nodup_iff.2 hnl
      refine ⟨_, rfl, fun p hp => ⟨(hword p (hsub p hp)).1, (hword p (hsub p hp)).2.1⟩, ?_, ?_, ?_, ?_, ?_⟩
      · rw [List.length_map, List.length_take, p1.length_eq, hcard, h2]
        simp only [Int.toNat_natCast]; omega
      · exact nodup_map_of_inj (hno.sublist (List.take_sublist _ _)) (fun a ha b hb => hinj a (hsub a ha) b (hsub b hb))
      · intro w hw
        obtain ⟨p, hp, rfl⟩ := List.mem_map.1 hw
        exact (hfw _).2 ⟨p, hsub p hp, rfl⟩
      · rw [List.pairwise_map]
        refine List.Pairwise.imp_of_mem ?_ p2
        intro a b ha hb hab
        rw [← (hword a (hsub a ha)).2.1, ← (hword b (hsub b hb)).2.1]
        omega
      · intro v hv w hw hnw
        obtain ⟨a, ha, rfl⟩ := List.mem_map.1 hv
        obtain ⟨b, hb, rfl⟩ := (hfw w).1 hw
        have hbo : b ∈ out.drop k := by
          have := p1.symm.subset hb
          rw [← List.take_append_drop k out, List.mem_append] at this
          rcases this with h | h
          · exact absurd (List.mem_map.2 ⟨b, h, rfl⟩) hnw
          · exact h
        have := p3 a ha b hbo
        rw [← (hword a (hsub a ha)).2.1, ← (hword b hb).2.1]
        omega

/-! ## Through the file -/

/-- A text that can be in a field of a line. -/
def Field (s : List Int) : Prop := ∀ c ∈ s, c ≠ 9 ∧ c ≠ 10

theorem takeWhile_app {p : Int → Bool} {a b : List Int} {c : Int} (h : ∀ x ∈ a, p x = true) (hc : p c = false) :
    (a ++ c :: b).takeWhile p = a ∧ (a ++ c :: b).dropWhile p = c :: b := by
  rw [List.takeWhile_append_of_pos h, List.dropWhile_append_of_pos h]
  simp [hc]

theorem keywords_line {w f g rest : List Int} (hw : Field w) (hf : Field f) (hg : Field g) :
    keywords (w ++ 9 :: f ++ 9 :: g ++ 10 :: rest) = w :: keywords rest := by
  have hn : ∀ x ∈ w ++ 9 :: f ++ 9 :: g, (fun c : Int => decide (c ≠ 10)) x = true := by
    intro x hx
    simp only [List.mem_append, List.mem_cons] at hx
    simp only [decide_eq_true_eq]
    rcases hx with (h | rfl | h) | rfl | h
    · exact (hw x h).2
    · decide
    · exact (hf x h).2
    · decide
    · exact (hg x h).2
  obtain ⟨h1, h2⟩ := takeWhile_app (b := rest) (c := 10) hn (by decide)
  have h3 : (w ++ 9 :: (f ++ 9 :: g)).takeWhile (fun c : Int => decide (c ≠ 9)) = w :=
    (takeWhile_app (fun x hx => by simpa using (hw x hx).1) (by decide)).1
  rw [keywords, dif_neg (by simp), h1, h2, if_pos (by simp)]
  simp only [List.append_assoc, List.cons_append] at h3 ⊢
  rw [h3]
  rfl

theorem loadLoop_nodup : ∀ (ws v : List Word), (v ++ ws).Nodup → loadLoop ws v.zipIdx v = ((v ++ ws).zipIdx, v ++ ws) := by
  intro ws
  induction ws with
  | nil => intro v _; simp [loadLoop]
  | cons w ws ih =>
    intro v h
    have hw : w ∉ v := by
      rw [List.nodup_append] at h
      exact fun hm => h.2.2 w hm w (by simp) rfl
    rcases find_zipIdx w v 0 with ⟨-, g2⟩ | ⟨i, g1, -⟩
    · rw [loadLoop, g2]
      simp only
      have := ih (v ++ [w]) (by simpa using h)
      rw [show v.zipIdx ++ [(w, v.length)] = (v ++ [w]).zipIdx by rw [List.zipIdx_append]; simp, this]
      simp
    · exact absurd (List.mem_of_getElem? g1) hw

/-- C101: when the words have no tabs and line feeds, the file that is printed gives a `TfIdf` with exactly those keywords, numbered in their order;
and for everything appended to it the document frequencies are right. -/
theorem C101_pipeline (es : List Ev) (lim : Nat) (cut : Nat → Int) (hcut : ∀ n, 0 ≤ cut n ∧ cut n ≤ n)
    (num : Pair → List Int × List Int) (hnum : ∀ p, Field (num p).1 ∧ Field (num p).2) (hes : ∀ w, .append w ∈ es → Field (lower w)) :
    ∃ d, Df.run es Df.new = .ok d ∧ ∀ pv, d.Term lim cut [] (.ok pv) → ∃ file ws, d.put num pv = .ok file ∧
      Rarest es lim (cut (frequent es lim).card).toNat ws ∧ (TfIdf.loadFile (some file)).2 = true ∧
      (TfIdf.loadFile (some file)).1.id2word = ws ∧
      (∀ (i : Nat) (w : Word), ws[i]? = some w → find (TfIdf.loadFile (some file)).1.word2id w = some i) ∧
      ∀ es2, ∃ t, TfIdf.run es2 (TfIdf.loadFile (some file)).1 = .ok t ∧
        ∀ w ∈ ws, ((find t.word2id w).bind fun i => t.df[i]?) = some (docFreq (docs es2) w) := by
  obtain ⟨d, e, -, hT⟩ := C101_term es lim cut hcut
  refine ⟨d, e, fun pv hpv => ?_⟩
  obtain ⟨pv', h1, h2, h3⟩ := hT _ hpv
  simp only [Res.ok.injEq] at h1
  subst h1
  have hfield : ∀ w ∈ pv.map (word d), Field w := by
    intro w hw
    have := h3.mem w hw
    simp only [frequent, Finset.mem_filter, List.mem_toFinset, List.mem_map, List.mem_flatten] at this
    obtain ⟨⟨y, ⟨x, hx, hy⟩, rfl⟩, -⟩ := this
    refine hes y ?_
    clear * - hx hy
    induction es generalizing x with
    | nil => simp [docs] at hx; subst hx; simp at hy
    | cons ev es ih =>
      cases ev with
      | endDoc =>
        rw [docs, List.mem_cons] at hx
        rcases hx with rfl | hx
        · simp at hy
        · exact List.mem_cons_of_mem _ (ih x hx hy)
      | append w =>
        rw [docs] at hx
        cases hd : docs es with
        | nil => exact absurd hd (docs_ne es)
        | cons z zs =>
          rw [hd] at hx
          simp only [List.mem_cons] at hx
          rcases hx with rfl | hx
          · rcases List.mem_cons.1 hy with rfl | hy
            · simp
            · exact List.mem_cons_of_mem _ (ih z (by simp [hd]) hy)
          · exact List.mem_cons_of_mem _ (ih x (by simp [hd, hx]) hy)
  have hput : ∃ file, d.put num pv = .ok file ∧ keywords file = pv.map (word d) := by
    clear hpv h3 hT
    induction pv with
    | nil => exact ⟨[], rfl, by rw [keywords]; simp⟩
    | cons p pv ih =>
      obtain ⟨file, f1, f2⟩ := ih (fun q hq => h2 q (List.mem_cons_of_mem _ hq)) (fun w hw => hfield w (List.mem_cons_of_mem _ hw))
      obtain ⟨g1, -⟩ := h2 p (by simp)
      obtain ⟨hlt, g2⟩ := List.getElem?_eq_some_iff.1 g1
      refine ⟨_, by rw [Df.put, at?_eq_ok hlt, Res.ok_bind, f1, Res.ok_bind, g2]; rfl, ?_⟩
      rw [keywords_line (hfield _ (by simp)) (hnum p).1 (hnum p).2, f2, List.map_cons]
  obtain ⟨file, f1, f2⟩ := hput
  have hload := loadLoop_nodup (pv.map (word d)) [] h3.nodup
  rw [List.nil_append] at hload
  have hid : (TfIdf.loadFile (some file)).1.id2word = pv.map (word d) := by
    show (TfIdf.load (keywords file)).id2word = _
    rw [f2, TfIdf.load]
    simp only [List.zipIdx_nil] at hload
    rw [hload]
  have hw2 : (TfIdf.loadFile (some file)).1.word2id = (pv.map (word d)).zipIdx := by
    show (TfIdf.load (keywords file)).word2id = _
    rw [f2, TfIdf.load]
    simp only [List.zipIdx_nil] at hload
    rw [hload]
  refine ⟨file, _, f1, h3, rfl, hid, ?_, ?_⟩
  · intro i w hi
    rw [hw2]
    rcases find_zipIdx w (pv.map (word d)) 0 with ⟨g1, -⟩ | ⟨j, g1, g2⟩
    · exact absurd (List.mem_of_getElem? hi) g1
    · rw [g2, nodup_get h3.nodup hi g1, Nat.zero_add]
  · intro es2
    have := Verif.Props.TfIdf.C57_tfidf_df (keywords file) es2
    rw [f2] at this
    show ∃ t, TfIdf.run es2 (TfIdf.load (keywords file)) = _ ∧ _
    rw [f2]
    exact this

/-- A file that cannot be opened is reported, and the object has no keyword. -/
theorem C101_no_file : (TfIdf.loadFile none).2 = false ∧ (TfIdf.loadFile none).1.id2word = [] := ⟨rfl, rfl⟩

/-- The documents "a b", "a b", "b c"; the words that occur more than once. -/
def sample : List Ev := [.append [97], .append [98], .endDoc, .append [65], .append [98], .endDoc, .append [98], .append [99]]

example : (∀ n, 0 ≤ (fun n : Nat => (n : Int)) n ∧ (fun n : Nat => (n : Int)) n ≤ n) ∧ frequent sample 1 = {[97], [98]} ∧
    freq sample [97] = 2 ∧ freq sample [98] = 3 := ⟨fun n => ⟨by simp, by simp⟩, by decide +kernel, by decide +kernel, by decide +kernel⟩

/-! ## Findings -/

/-- C101 finding: `term` does not clear `pv_`: called again it lists words twice. -/
theorem C101_finding_twice : ∃ d, Df.run [.append [97], .endDoc] Df.new = .ok d ∧
    d.Term 0 (fun n => n) [] (.ok [⟨0, 1⟩]) ∧ d.Term 0 (fun n => n) [⟨0, 1⟩] (.ok [⟨0, 1⟩, ⟨0, 1⟩]) := by
  refine ⟨⟨1, [([97], 0)], [[97]], [1], []⟩, rfl, ?_, ?_⟩
  · have := Df.Term.done (d := ⟨1, [([97], 0)], [[97]], [1], []⟩) (lowerLimit := 0) (cut := fun n => n) (pv := []) (l := [⟨0, 1⟩])
      (out := [⟨0, 1⟩]) (k := 1) rfl rfl (by decide) ⟨by simp, by simp, by simp⟩
    exact this
  · have := Df.Term.done (d := ⟨1, [([97], 0)], [[97]], [1], []⟩) (lowerLimit := 0) (cut := fun n => n) (pv := [⟨0, 1⟩]) (l := [⟨0, 1⟩])
      (out := [⟨0, 1⟩, ⟨0, 1⟩]) (k := 2) rfl rfl (by decide) ⟨by simp, by simp, by simp⟩
    exact this

/-- C101 finding: a rate above 1 makes `partial_sort` go beyond the end. -/
theorem C101_finding_rate (d : Df) (lim : Int) (cut : Nat → Int) (pv l : List Pair)
    (h : termPairs d.df lim d.id2word.length 0 = .ok l) (hc : ((pv ++ l).length : Int) < cut (pv ++ l).length) : d.Term lim cut pv .ub :=
  .middle h (.inr hc)

/-- C101 finding: a line without a tab, as a word with a line feed gives, silently ends the reading; the words after it are lost. -/
theorem C101_finding_line (line rest : List Int) (h : Field line) : keywords (line ++ 10 :: rest) = [] := by
  obtain ⟨h1, -⟩ := takeWhile_app (a := line) (p := fun c : Int => decide (c ≠ 10)) (b := rest) (c := 10) (fun x hx => by simpa using (h x hx).2) (by decide)
  rw [keywords, dif_neg (by simp), h1, if_neg (fun hm => (h 9 hm).1 rfl)]

/-- C101 finding: a word with a tab is cut. -/
theorem C101_finding_tab : keywords ([97, 9, 98] ++ 9 :: [52] ++ 9 :: [48] ++ [10]) = [[97]] := by
  rw [keywords]; simp [keywords]

#print axioms C101_term
#print axioms C101_pipeline
#print axioms C101_no_file
#print axioms C101_finding_twice
#print axioms C101_finding_rate
#print axioms C101_finding_line
#print axioms C101_finding_tab

end Verif.Props.TfIdfTerm
