import Verif.Model.TfIdfWeight
import Verif.Spec.TfIdfWeight
import Verif.Proof.TfIdf
import Verif.Props.TfIdf
import Verif.Props.SparseIO
set_option linter.unusedSimpArgs false

/-!
# C130: the weights of `TfIdf::term`

`docs es` are the documents of the history `es`; the vectors are those of the documents with a keyword.
-/
namespace Verif.Props.TfIdfWeight

open Verif Verif.TfIdf Verif.Spec.TfIdf Verif.Sparse Verif.Spec.Sparse Verif.Props.SparseIO

/-! ## The maps of counts -/

/-- Different ids below `n` with positive counts. -/
def MapOk (n : Nat) (m : List (Nat × Nat)) : Prop := (m.map Prod.fst).Nodup ∧ ∀ p ∈ m, p.1 < n ∧ 0 < p.2

theorem incMap_keys (m : List (Nat × Nat)) (id k : Nat) : k ∈ (incMap m id).map Prod.fst ↔ k ∈ m.map Prod.fst ∨ k = id := by
  induction m with
  | nil => simp [incMap]
  | cons p m ih =>
    rw [incMap]
    split
    · rename_i h
      simp only [List.map_cons, List.mem_cons]
      constructor
      · rintro (h1 | h1)
        · exact Or.inl (Or.inl h1)
        · exact Or.inl (Or.inr h1)
      · rintro ((h1 | h1) | h1)
        · exact Or.inl h1
        · exact Or.inr h1
        · exact Or.inl (h1.trans h.symm)
    · simp only [List.map_cons, List.mem_cons, ih, or_assoc]

theorem incMap_ok {n : Nat} {m : List (Nat × Nat)} (h : MapOk n m) {id : Nat} (hid : id < n) : MapOk n (incMap m id) := by
  obtain ⟨h1, h2⟩ := h
  induction m with
  | nil =>
    refine ⟨by simp [incMap], ?_⟩
    intro p hp
    simp only [incMap, List.mem_singleton] at hp
    subst hp
    exact ⟨hid, by simp⟩
  | cons q m ih =>
    rw [List.map_cons, List.nodup_cons] at h1
    rw [incMap]
    split
    · rename_i hq
      refine ⟨by simpa using h1, ?_⟩
      intro p hp
      rcases List.mem_cons.1 hp with rfl | hp
      · exact ⟨(h2 q (by simp)).1, by simp⟩
      · exact h2 p (by simp [hp])
    · rename_i hq
      obtain ⟨i1, i2⟩ := ih h1.2 (fun p hp => h2 p (by simp [hp]))
      refine ⟨?_, ?_⟩
      · rw [List.map_cons, List.nodup_cons]
        refine ⟨?_, i1⟩
        rw [incMap_keys]
        rintro (h | h)
        · exact h1.1 h
        · exact hq h
      · intro p hp
        rcases List.mem_cons.1 hp with rfl | hp
        · exact h2 p (by simp)
        · exact i2 p hp

theorem countTf_ok {n : Nat} {t : TfIdf} (h : ∀ m ∈ t.tf, MapOk n m) {id : Nat} (hid : id < n) :
    ∀ m ∈ t.countTf id, MapOk n m := by
  have hnil : MapOk n [] := ⟨by simp, by simp⟩
  intro m hm
  rw [TfIdf.countTf] at hm
  split at hm
  · rcases List.mem_append.1 hm with hm | hm
    · exact h m (List.mem_of_mem_dropLast hm)
    · cases hl : t.tf.getLast? with
      | none => rw [hl] at hm; simp at hm
      | some q =>
        rw [hl] at hm
        simp at hm
        subst hm
        exact incMap_ok (h q (List.mem_of_getLast? hl)) hid
  · rcases List.mem_append.1 hm with hm | hm
    · exact h m hm
    · simp only [List.mem_singleton] at hm
      subst hm
      exact incMap_ok hnil hid

theorem append_tf {t t' : TfIdf} {w : Word} (e : t.append w = .ok t') :
    t'.tf = t.tf ∨ ∃ id, find t.word2id (lower w) = some id ∧ t'.tf = t.countTf id := by
  rw [TfIdf.append] at e
  cases hf : find t.word2id (lower w) with
  | none => rw [hf] at e; exact Or.inl (by rw [← Res.ok.inj e])
  | some id =>
    rw [hf] at e
    refine Or.inr ⟨id, rfl, ?_⟩
    simp only [TfIdf.countDf] at e
    split at e
    · obtain ⟨df, -, e2⟩ := Res.bind_eq_ok.1 e
      rw [← Res.ok.inj e2]
    · rw [← Res.ok.inj e]

theorem run_maps {v : List Word} (hv : v.Nodup) (es : List Ev) : ∀ (t t' : TfIdf) (fin : List (List Word)) (cur : List Word),
    TInv v t fin cur → (∀ m ∈ t.tf, MapOk v.length m) → TfIdf.run es t = .ok t' → ∀ m ∈ t'.tf, MapOk v.length m := by
  induction es with
  | nil => intro t t' fin cur _ h e; rw [← Res.ok.inj e]; exact h
  | cons ev es ih =>
    intro t t' fin cur I h e
    cases ev with
    | endDoc => exact ih _ _ _ _ (TfIdf.endDoc_ok I) h e
    | append w =>
      obtain ⟨t1, e1, I1⟩ := TfIdf.append_ok hv I w
      rw [TfIdf.run, e1, Res.ok_bind] at e
      refine ih _ _ _ _ I1 ?_ e
      rcases append_tf e1 with h1 | ⟨id, hf, h1⟩
      · rw [h1]; exact h
      · rw [h1]
        refine countTf_ok h ?_
        rcases find_zipIdx (lower w) v 0 with ⟨g1, g2⟩ | ⟨i, g1, g2⟩
        · rw [I.ids, g2] at hf; exact absurd hf (by simp)
        · rw [I.ids, g2, Nat.zero_add] at hf
          have := (List.getElem?_eq_some_iff.1 g1).1
          have := Option.some.inj hf
          omega

/-! ## One document -/

theorem iterMap_perm (m : List (Nat × Nat)) : (iterMap m).Perm m := List.mergeSort_perm _ _

theorem iterMap_ascending {n : Nat} {m : List (Nat × Nat)} (h : MapOk n m) : Ascending (iterMap m) := by
  have h1 : (iterMap m).Pairwise (fun a b => a.1 ≤ b.1) := by
    have := List.pairwise_mergeSort (le := fun a b : Nat × Nat => decide (a.1 ≤ b.1))
      (by intro a b c; simp only [decide_eq_true_eq]; omega) (by intro a b; simp only [Bool.or_eq_true, decide_eq_true_eq]; omega) m
    exact this.imp (by intro a b h; simpa using h)
  have h2 : (iterMap m).Pairwise (fun a b => a.1 ≠ b.1) := by
    have := ((iterMap_perm m).map Prod.fst).nodup_iff.2 h.1
    exact List.pairwise_map.1 this
  exact (h1.and h2).imp (by intro a b h; omega)

theorem weigh_eq {idf : List (Option ℝ)} : ∀ (iv : List (Nat × Nat)), (∀ p ∈ iv, p.1 < idf.length) →
    weigh idf iv = .ok (iv.map (fun j => (j.1, (idf[j.1]?.join).map (fun y => (j.2 : ℝ) * y)))) := by
  intro iv
  induction iv with
  | nil => intro _; rfl
  | cons j iv ih =>
    intro h
    have hj := h j (by simp)
    rw [weigh, at?_eq_ok hj, Res.ok_bind, ih (fun p hp => h p (by simp [hp])), Res.ok_bind]
    simp [List.getElem?_eq_getElem hj]

theorem docVec_ok {n : Nat} {idf : List (Option ℝ)} (hi : idf.length = n) (hn : n < 2 ^ 30 - 1) {m : List (Nat × Nat)}
    (h : MapOk n m) : ∃ s s', docVec idf m = .ok s ∧
      s.iterate = .ok ((iterMap m).map (fun j => (j.1, (idf[j.1]?.join).map (fun y => (j.2 : ℝ) * y))), s') := by
  have hlt : ∀ p ∈ iterMap m, p.1 < n := fun p hp => (h.2 p ((iterMap_perm m).mem_iff.1 hp)).1
  have hlen : m.length ≤ n := by
    have : (m.map Prod.fst) ⊆ List.range n := by
      intro k hk
      obtain ⟨p, hp, rfl⟩ := List.mem_map.1 hk
      exact List.mem_range.2 (h.2 p hp).1
    have := (h.1.subperm this).length_le
    simpa using this
  rw [docVec, weigh_eq _ (fun p hp => by rw [hi]; exact hlt p hp), Res.ok_bind]
  generalize hl : (iterMap m).map (fun j => (j.1, (idf[j.1]?.join).map (fun y => (j.2 : ℝ) * y))) = l
  have hll : l.length ≤ n := by rw [← hl, List.length_map, (iterMap_perm m).length_eq]; exact hlen
  obtain ⟨s, s', e1, e2⟩ := C98_set_new (T := Option ℝ) l
    (by
      intro e he
      rw [← hl] at he
      obtain ⟨j, hj, rfl⟩ := List.mem_map.1 he
      have := hlt j hj
      show j.1 < 2 ^ 32
      omega)
    (by rw [← hl]; exact List.pairwise_map.2 (iterMap_ascending h))
    l.length (Nat.le_refl _) (by omega)
  rw [SVec.setMap, if_neg (by omega)] at e1
  refine ⟨s, s', ?_, e2⟩
  rw [e1]
  rfl

theorem termVecs_ok {n : Nat} {idf : List (Option ℝ)} (hi : idf.length = n) (hn : n < 2 ^ 30 - 1) (tf : List (List (Nat × Nat)))
    (htf : ∀ m ∈ tf, MapOk n m) : ∀ (k i : Nat) (sv : List (SVec PTbl (Option ℝ))), i + k ≤ tf.length →
    ∃ new, termVecs idf tf k i sv = .ok (sv ++ new) ∧
      List.Forall₂ (fun s m => ∃ s', s.iterate = .ok
        ((iterMap m).map (fun j => (j.1, (idf[j.1]?.join).map (fun y => (j.2 : ℝ) * y))), s')) new ((tf.drop i).take k) := by
  intro k
  induction k with
  | zero => intro i sv _; exact ⟨[], by simp [termVecs], by simp⟩
  | succ k ih =>
    intro i sv h
    have hlt : i < tf.length := by omega
    obtain ⟨s, s', e1, e2⟩ := docVec_ok hi hn (htf _ (List.getElem_mem hlt))
    obtain ⟨new, e3, h3⟩ := ih (i + 1) (sv ++ [s]) (by omega)
    refine ⟨s :: new, ?_, ?_⟩
    · rw [termVecs, at?_eq_ok hlt, Res.ok_bind, e1, Res.ok_bind, e3]
      simp
    · rw [List.drop_eq_getElem_cons hlt, List.take_succ_cons]
      exact .cons ⟨s', e2⟩ h3

theorem countOf_mem {m : List (Nat × Nat)} (h : (m.map Prod.fst).Nodup) {p : Nat × Nat} (hp : p ∈ m) : countOf m p.1 = p.2 := by
  induction m with
  | nil => simp at hp
  | cons q m ih =>
    rw [List.map_cons, List.nodup_cons] at h
    rcases List.mem_cons.1 hp with rfl | hp
    · simp [countOf]
    · have : q.1 ≠ p.1 := by
        intro he
        exact h.1 (he ▸ List.mem_map_of_mem hp)
      simpa [countOf, List.find?_cons, this] using ih h.2 hp

theorem mem_of_countOf {m : List (Nat × Nat)} {i : Nat} (h : 0 < countOf m i) : (i, countOf m i) ∈ m := by
  unfold countOf at h ⊢
  cases hf : m.find? (fun p => p.1 = i) with
  | none => rw [hf] at h; simp at h
  | some p =>
    rw [hf] at h
    have h1 := List.mem_of_find?_eq_some hf
    have h2 := List.find?_some hf
    simp only [decide_eq_true_eq] at h2
    simp only [Option.map_some, Option.getD_some]
    rw [← h2]
    exact h1

/-! ## Documents with a keyword -/

theorem docFreq_withKeyword {keys : List Word} {w : Word} (hw : w ∈ keys) (ds : List (List Word)) :
    docFreq (withKeyword keys ds) w = docFreq ds w := by
  rw [docFreq, docFreq, withKeyword, List.countP_filter]
  refine List.countP_congr ?_
  intro d _
  simp only [Bool.and_eq_true, List.any_eq_true, decide_eq_true_eq]
  constructor
  · exact fun h => h.1
  · rintro ⟨x, hx, rfl⟩
    exact ⟨⟨x, hx, rfl⟩, x, hx, hw⟩

theorem docFreq_pos {ds : List (List Word)} {d : List Word} (hd : d ∈ ds) {w : Word} (h : 0 < termFreq d w) :
    0 < docFreq ds w := by
  rw [docFreq, List.countP_pos_iff]
  refine ⟨d, hd, ?_⟩
  rw [termFreq, List.countP_pos_iff] at h
  simpa using h

/-- C130: the number of documents of `idf` is that of the documents with a keyword.  If there are at least as many of them as
keywords, `term` succeeds and makes, for the first of them in order, the vector of the tf-idf weights: the position of each
keyword that is in the document, with its weight, in ascending order, and nothing else. -/
theorem C130_weights (keys : List Word) (es : List Ev) (hk : keys.dedup.length < 2 ^ 30 - 1)
    (hd : keys.dedup.length ≤ (withKeyword keys (docs es)).length) :
    ∃ t sv, TfIdf.run es (TfIdf.load keys) = .ok t ∧ t.term [] = .ok sv ∧
      List.Forall₂ (fun s d => ∃ l s', s.iterate = .ok (l, s') ∧ Ascending l ∧ ∀ p x, (p, x) ∈ l ↔
          ∃ w ∈ keys, find t.word2id w = some p ∧ 0 < termFreq d w ∧ x = some (weight (withKeyword keys (docs es)) d w))
        sv ((withKeyword keys (docs es)).take keys.dedup.length) := by
  obtain ⟨v, hv, hkeys, I⟩ := TfIdf.load_inv keys
  obtain ⟨t, fin, cur, e, I2, h⟩ := TfIdf.run_ok hv es _ _ _ I
  rw [List.nil_append, glue_nil] at h
  have hlen : v.length = keys.dedup.length := by
    refine List.Perm.length_eq ((List.perm_ext_iff_of_nodup hv (List.nodup_dedup _)).2 ?_)
    intro w
    rw [hkeys, List.mem_dedup]
  have hmaps := run_maps hv es _ t _ _ I (by
    have : (TfIdf.load keys).tf = [] := rfl
    rw [this]; simp) e
  have hrel : (fun d : List Word => d.any (fun x => decide (lower x ∈ keys))) = relevant v := by
    funext d; simp only [relevant, hkeys]
  have htf : List.Forall₂ (Counts v) t.tf (withKeyword keys (docs es)) := by
    obtain ⟨a, b, hab, hfin, hcur⟩ := I2.tf
    rw [withKeyword, hrel, ← h, List.filter_append, hab]
    refine List.rel_append hfin ?_
    rcases hcur with ⟨hc, hb⟩ | ⟨hc, m, hb, hm⟩
    · subst hb; simp [hc]
    · subst hb
      rw [show [cur].filter (relevant v) = [cur] by simp [hc]]
      exact List.Forall₂.cons hm List.Forall₂.nil
  have hN := htf.length_eq
  have hidf : t.idf.length = v.length := by rw [TfIdf.idf, List.length_map, I2.len]
  obtain ⟨sv, e1, e2⟩ := termVecs_ok hidf (by omega) t.tf hmaps v.length 0 [] (by omega)
  refine ⟨t, sv, e, by rw [TfIdf.term, I2.len]; simpa using e1, ?_⟩
  rw [List.drop_zero] at e2
  rw [← hlen]
  have hboth : List.Forall₂ (fun m d => MapOk v.length m ∧ Counts v m d ∧ d ∈ withKeyword keys (docs es))
      (t.tf.take v.length) ((withKeyword keys (docs es)).take v.length) := by
    have : List.Forall₂ (fun m d => MapOk v.length m ∧ Counts v m d ∧ d ∈ withKeyword keys (docs es))
        t.tf (withKeyword keys (docs es)) := by
      rw [List.forall₂_iff_get] at htf ⊢
      refine ⟨htf.1, fun i h1 h2 => ⟨hmaps _ (List.get_mem _ _), htf.2 i h1 h2, List.get_mem _ _⟩⟩
    rw [List.forall₂_iff_get] at this ⊢
    refine ⟨by simp [this.1], fun i h1 h2 => ?_⟩
    have := this.2 i (by simp at h1; omega) (by simp at h2; omega)
    simpa using this
  rw [List.forall₂_iff_get] at e2 hboth ⊢
  refine ⟨e2.1.trans hboth.1, fun i h1 h2 => ?_⟩
  obtain ⟨s', e3⟩ := e2.2 i h1 (by rw [← e2.1]; exact h1)
  obtain ⟨hm, hc, hmem⟩ := hboth.2 i (by rw [← e2.1]; exact h1) h2
  generalize (List.take v.length (withKeyword keys (docs es))).get ⟨i, h2⟩ = d at hc hmem
  generalize (List.take v.length t.tf).get ⟨i, _⟩ = m at e3 hm hc
  refine ⟨_, s', e3, List.pairwise_map.2 (iterMap_ascending hm), ?_⟩
  have hval : ∀ (j : Nat) (w : Word), v[j]? = some w → 0 < termFreq d w →
      (t.idf[j]?.join).map (fun y => (termFreq d w : ℝ) * y) = some (weight (withKeyword keys (docs es)) d w) := by
    intro j w hj hpos
    have hw : w ∈ keys := (hkeys w).1 (List.mem_of_getElem? hj)
    have hdf := I2.df j w hj
    rw [h, ← docFreq_withKeyword hw] at hdf
    have hp1 := docFreq_pos hmem hpos
    have hp2 : 0 < (withKeyword keys (docs es)).length := List.length_pos_of_mem hmem
    rw [TfIdf.idf, List.getElem?_map, hdf, hN]
    simp only [Option.map_some, Option.join_some, idfOf]
    rw [if_neg (by omega), weight, Real.log_div (by positivity) (by positivity)]
    rfl
  intro p x
  rw [List.mem_map]
  constructor
  · rintro ⟨j, hj, hjp⟩
    rw [(iterMap_perm m).mem_iff] at hj
    obtain ⟨hj1, hj2⟩ := hm.2 j hj
    simp only [Prod.mk.injEq] at hjp
    obtain ⟨rfl, rfl⟩ := hjp
    have hjw : v[j.1]? = some v[j.1] := List.getElem?_eq_getElem hj1
    have hcnt : j.2 = termFreq d v[j.1] := by rw [← countOf_mem hm.1 hj]; exact hc _ _ hjw
    refine ⟨v[j.1], (hkeys _).1 (List.getElem_mem hj1), ?_, by omega, ?_⟩
    · rcases find_zipIdx v[j.1] v 0 with ⟨g1, -⟩ | ⟨i, g1, g2⟩
      · exact absurd (List.getElem_mem hj1) g1
      · rw [I2.ids, g2, Nat.zero_add, nodup_get hv g1 hjw]
    · rw [← hval j.1 _ hjw (by omega), hcnt]
  · rintro ⟨w, hw, hf, hpos, rfl⟩
    rcases find_zipIdx w v 0 with ⟨g1, -⟩ | ⟨i, g1, g2⟩
    · exact absurd ((hkeys w).2 hw) g1
    · rw [I2.ids, g2, Nat.zero_add] at hf
      obtain rfl := Option.some.inj hf
      have hcnt : countOf m i = termFreq d w := hc i w g1
      refine ⟨(i, countOf m i), (iterMap_perm m).mem_iff.2 (mem_of_countOf (by omega)), ?_⟩
      rw [← hval i w g1 hpos, hcnt]

/-- Two keywords `a` and `b`; the documents "a b a" and "b". -/
example : (withKeyword [[97], [98]] (docs [.append [97], .append [98], .append [97], .endDoc, .append [98], .endDoc])).length
    = ([[97], [98]] : List Word).dedup.length := by decide

/-! ## The weights -/

theorem docFreq_le (ds : List (List Word)) (w : Word) : docFreq ds w ≤ ds.length := List.countP_le_length

/-- C130: a weight of a word that is in the document is never negative, and it is zero exactly if the word is in every
document of the collection. -/
theorem C130_weight_sign (ds : List (List Word)) (d : List Word) (w : Word) (hd : d ∈ ds) (h : 0 < termFreq d w) :
    0 ≤ weight ds d w ∧ (weight ds d w = 0 ↔ ∀ d' ∈ ds, 0 < termFreq d' w) := by
  have h1 := docFreq_pos hd h
  have h2 := docFreq_le ds w
  have hf : (0 : ℝ) < docFreq ds w := by exact_mod_cast h1
  have hle : (docFreq ds w : ℝ) ≤ ds.length := by exact_mod_cast h2
  have hlog : 0 ≤ Real.log ((ds.length : ℝ) / docFreq ds w) := Real.log_nonneg ((one_le_div hf).2 hle)
  refine ⟨mul_nonneg (by positivity) hlog, ?_⟩
  have hall : (∀ d' ∈ ds, 0 < termFreq d' w) ↔ docFreq ds w = ds.length := by
    rw [docFreq, List.countP_eq_length]
    simp only [termFreq, List.countP_pos_iff, List.any_eq_true]
  rw [hall]
  constructor
  · intro h0
    rcases mul_eq_zero.1 h0 with h0 | h0
    · have : termFreq d w = 0 := by exact_mod_cast h0
      omega
    · refine Classical.byContradiction fun hne => ?_
      have hlt : (docFreq ds w : ℝ) < ds.length := by exact_mod_cast Nat.lt_of_le_of_ne h2 hne
      have := Real.log_pos ((one_lt_div hf).2 hlt)
      linarith
  · intro he
    rw [weight, he, div_self (by rw [← he]; positivity), Real.log_one, mul_zero]

/-- C130: of two words that are equally often in a document, the one in fewer documents has the larger weight. -/
theorem C130_weight_rare (ds : List (List Word)) (d : List Word) (w u : Word) (hd : d ∈ ds) (h : 0 < termFreq d w)
    (hu : termFreq d u = termFreq d w) (hlt : docFreq ds w < docFreq ds u) : weight ds d u < weight ds d w := by
  have h1 := docFreq_pos hd h
  have hf : (0 : ℝ) < docFreq ds w := by exact_mod_cast h1
  have hlt' : (docFreq ds w : ℝ) < docFreq ds u := by exact_mod_cast hlt
  have hN : (0 : ℝ) < ds.length := by exact_mod_cast List.length_pos_of_mem hd
  rw [weight, weight, hu]
  refine mul_lt_mul_of_pos_left ?_ (by exact_mod_cast h)
  refine Real.log_lt_log (div_pos hN (hf.trans hlt')) ?_
  exact div_lt_div_of_pos_left hN hf hlt'

/-- In "a b" of the documents "a b", "b" the word `a` is rarer than `b`. -/
example : let ds : List (List Word) := [[[97], [98]], [[98]]]
    [[97], [98]] ∈ ds ∧ 0 < termFreq [[97], [98]] [97] ∧ termFreq [[97], [98]] [98] = termFreq [[97], [98]] [97] ∧
      docFreq ds [97] < docFreq ds [98] := by decide

/-! ## Findings -/

/-- C130 finding: documents without a keyword do not count: two histories whose documents with a keyword are the same have the
same weights, whatever other documents they have.  With one keyword that is in one of a thousand documents the weight is 0. -/
theorem C130_finding_N (es : List Ev) (w : Word) (d : List Word) (h : withKeyword [w] (docs es) = [d]) :
    ∃ t s l s', TfIdf.run es (TfIdf.load [w]) = .ok t ∧ t.term [] = .ok [s] ∧ s.iterate = .ok (l, s') ∧
      l = [(0, some 0)] := by
  obtain ⟨t, sv, e1, e2, e3⟩ := C130_weights [w] es (by simp) (by rw [h]; simp)
  rw [h] at e3
  have hk : ([w] : List Word).dedup.length = 1 := by simp
  rw [hk, List.take_one] at e3
  simp only [List.head?_cons, Option.toList_some] at e3
  cases e3 with
  | cons hs ht =>
    cases ht
    obtain ⟨l, s', i1, i2, i3⟩ := hs
    have hd : d ∈ withKeyword [w] (docs es) := by rw [h]; simp
    have hpos : 0 < termFreq d w := by
      have := (List.mem_filter.1 hd).2
      rw [termFreq, List.countP_pos_iff]
      simpa using this
    have h0 : weight [d] d w = 0 := (C130_weight_sign [d] d w (by simp) hpos).2.2 (by simpa using hpos)
    obtain ⟨v, hv, hkeys, I⟩ := TfIdf.load_inv [w]
    obtain ⟨t2, fin, cur, e4, I2, -⟩ := TfIdf.run_ok hv es _ _ _ I
    rw [e1] at e4
    obtain rfl := Res.ok.inj e4
    have hfind : find t.word2id w = some 0 := by
      rcases find_zipIdx w v 0 with ⟨g1, -⟩ | ⟨i, g1, g2⟩
      · exact absurd ((hkeys w).2 (by simp)) g1
      · have hv1 : v.length = 1 := by
          have := (List.perm_ext_iff_of_nodup hv (List.nodup_singleton w)).2 hkeys
          simpa using this.length_eq
        have := (List.getElem?_eq_some_iff.1 g1).1
        rw [I2.ids, g2]
        congr 1
        omega
    refine ⟨t, _, l, s', e1, e2, i1, ?_⟩
    have hmem : ∀ q, q ∈ l ↔ q = (0, some 0) := by
      intro q
      obtain ⟨p, x⟩ := q
      rw [i3]
      constructor
      · rintro ⟨u, hu, hf, -, rfl⟩
        obtain rfl := List.mem_singleton.1 hu
        rw [hfind] at hf
        rw [← Option.some.inj hf, h0]
      · intro hq
        simp only [Prod.mk.injEq] at hq
        obtain ⟨rfl, rfl⟩ := hq
        exact ⟨w, by simp, hfind, hpos, by rw [h0]⟩
    have hnd : l.Nodup := i2.imp (by intro a b hab; exact fun hc => by subst hc; exact absurd hab (by omega))
    have := (List.perm_ext_iff_of_nodup hnd (List.nodup_singleton ((0 : Nat), (some 0 : Option ℝ)))).2
      (by intro q; rw [hmem]; simp)
    exact List.perm_singleton.1 this

/-- The keyword `a`; the documents "z", "a", "z". -/
example : withKeyword [[97]] (docs [.append [122], .endDoc, .append [97], .endDoc, .append [122], .endDoc]) = [[[97]]] := by
  decide

theorem termVecs_acc {idf : List (Option ℝ)} {tf : List (List (Nat × Nat))} : ∀ (k i : Nat)
    (sv r : List (SVec PTbl (Option ℝ))), termVecs idf tf k i [] = .ok r → termVecs idf tf k i sv = .ok (sv ++ r) := by
  have key : ∀ (k i : Nat) (a sv r : List (SVec PTbl (Option ℝ))), termVecs idf tf k i a = .ok r →
      ∃ b, r = a ++ b ∧ termVecs idf tf k i sv = .ok (sv ++ b) := by
    intro k
    induction k with
    | zero => intro i a sv r h; exact ⟨[], by rw [← Res.ok.inj h]; simp, by simp [termVecs]⟩
    | succ k ih =>
      intro i a sv r h
      rw [termVecs] at h ⊢
      obtain ⟨iv, e1, h⟩ := Res.bind_eq_ok.1 h
      obtain ⟨v, e2, h⟩ := Res.bind_eq_ok.1 h
      obtain ⟨b, rfl, hb⟩ := ih (i + 1) (a ++ [v]) (sv ++ [v]) r h
      exact ⟨v :: b, by simp, by rw [e1, Res.ok_bind, e2, Res.ok_bind, hb]; simp⟩
  intro k i sv r h
  obtain ⟨b, rfl, hb⟩ := key k i [] sv r h
  simpa using hb

/-- C130 finding: `term` does not begin anew.  Called a second time it puts the vectors of all documents behind those of the
first call. -/
theorem C130_finding_twice (t : TfIdf) (sv : List (SVec PTbl (Option ℝ))) (h : t.term [] = .ok sv) :
    t.term sv = .ok (sv ++ sv) := termVecs_acc _ _ sv sv h

end Verif.Props.TfIdfWeight

#print axioms Verif.Props.TfIdfWeight.C130_weights
#print axioms Verif.Props.TfIdfWeight.C130_weight_sign
#print axioms Verif.Props.TfIdfWeight.C130_weight_rare
#print axioms Verif.Props.TfIdfWeight.C130_finding_N
#print axioms Verif.Props.TfIdfWeight.C130_finding_twice
