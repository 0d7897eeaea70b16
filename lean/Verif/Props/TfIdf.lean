import Verif.Proof.TfIdf

/-!
# C57: document frequency counts documents

`docs es` are the documents of the history `es`; the last one has not ended.
-/
namespace Verif.Props.TfIdf

open Verif.TfIdf Verif.Spec.TfIdf

/-- What `df_` of a word is. -/
def Df.freq (d : Df) (w : Word) : Option Nat := (find d.word2id w).bind fun i => d.df[i]?

/-- `TfIdf`: for every list of keywords and every history, nothing is accessed outside and the document
frequency of each keyword is the number of documents in which a spelling of it was appended. -/
theorem C57_tfidf_df (keys : List Word) (es : List Ev) :
    ∃ t, TfIdf.run es (TfIdf.load keys) = .ok t ∧
      ∀ w ∈ keys, ((find t.word2id w).bind fun i => t.df[i]?) = some (docFreq (docs es) w) := by
  obtain ⟨v, hv, hk, I⟩ := TfIdf.load_inv keys
  obtain ⟨t, fin, cur, e, I2, h⟩ := TfIdf.run_ok hv es _ _ _ I
  rw [List.nil_append, glue_nil] at h
  refine ⟨t, e, ?_⟩
  intro w hw
  rcases find_zipIdx w v 0 with ⟨g1, -⟩ | ⟨i, g1, g2⟩
  · exact absurd ((hk w).mpr hw) g1
  · rw [I2.ids, g2, Option.bind_some, Nat.zero_add, I2.df i w g1, h]

/-- `TfIdf`: `tf_` has one entry for each document with a keyword, in order; it counts how often each
keyword was appended in that document. -/
theorem C57_tfidf_tf (keys : List Word) (es : List Ev) :
    ∃ t, TfIdf.run es (TfIdf.load keys) = .ok t ∧
      List.Forall₂ (fun m d => ∀ w ∈ keys, ∃ i, find t.word2id w = some i ∧
          countOf m i = d.countP (fun x => lower x = w))
        t.tf ((docs es).filter (fun d => d.any (fun x => decide (lower x ∈ keys)))) := by
  obtain ⟨v, hv, hk, I⟩ := TfIdf.load_inv keys
  obtain ⟨t, fin, cur, e, I2, h⟩ := TfIdf.run_ok hv es _ _ _ I
  rw [List.nil_append, glue_nil] at h
  refine ⟨t, e, ?_⟩
  obtain ⟨a, b, hab, hfin, hcur⟩ := I2.tf
  have hrel : (fun d : List Word => d.any (fun x => decide (lower x ∈ keys))) = relevant v := by
    funext d; simp only [relevant, hk]
  rw [hrel, ← h, List.filter_append, hab]
  have key : ∀ m d, Counts v m d → ∀ w ∈ keys, ∃ i, find t.word2id w = some i ∧
      countOf m i = d.countP (fun x => lower x = w) := by
    intro m d hc w hw
    rcases find_zipIdx w v 0 with ⟨g1, -⟩ | ⟨i, g1, g2⟩
    · exact absurd ((hk w).mpr hw) g1
    · exact ⟨i, by rw [I2.ids, g2, Nat.zero_add], hc i w g1⟩
  refine List.rel_append (List.Forall₂.imp key hfin) ?_
  rcases hcur with ⟨hc, hb⟩ | ⟨hc, m, hb, hm⟩
  · subst hb; simp [hc]
  · subst hb
    rw [show [cur].filter (relevant v) = [cur] by simp [hc]]
    exact List.Forall₂.cons (key m cur hm) List.Forall₂.nil

/-- `Df`: the number recorded for a word is, for every history, the sum over the documents of the
number of its different spellings. -/
theorem C57_df_spellings (es : List Ev) :
    ∃ d, Df.run es Df.new = .ok d ∧ d.docNum = (docs es).length - 1 ∧
      ∀ w, (Df.freq d w).getD 0 = ((docs es).map (spellings w)).sum := by
  obtain ⟨d, fin, cur, e, I, h⟩ := Df.run_ok es _ _ _ Df.new_inv
  rw [List.nil_append, glue_nil] at h
  refine ⟨d, e, by rw [← h, I.num]; simp, ?_⟩
  intro w
  rw [← h]
  rcases find_zipIdx w d.id2word 0 with ⟨g1, g2⟩ | ⟨i, g1, g2⟩
  · rw [Df.freq, I.ids, g2]
    show 0 = total w (fin ++ [cur])
    rw [total_zero]
    intro x hx y hy hyw
    exact g1 (hyw ▸ I.known x hx y hy)
  · rw [Df.freq, I.ids, g2, Option.bind_some, Nat.zero_add, I.df i w g1]
    rfl

/-- `Df`: when no document spells a word in two ways, the number is the number of documents.  (C57 asks
for this without the condition; `C57_finding_case` shows that it is then false.) -/
theorem C57_df_documents_partial (es : List Ev)
    (hone : ∀ d ∈ docs es, ∀ x ∈ d, ∀ y ∈ d, lower x = lower y → x = y) :
    ∃ d, Df.run es Df.new = .ok d ∧ ∀ w, (Df.freq d w).getD 0 = docFreq (docs es) w := by
  obtain ⟨d, e, -, h⟩ := C57_df_spellings es
  refine ⟨d, e, ?_⟩
  intro w
  rw [h w]
  generalize docs es = ds at hone
  induction ds with
  | nil => rfl
  | cons x ds ih =>
    rw [show x :: ds = [x] ++ ds from rfl, docFreq_append, docFreq_one, ← ih (fun d hd => hone d (by simp [hd]))]
    simp only [List.singleton_append, List.map_cons, List.sum_cons]
    congr 1
    split
    · rename_i hx
      obtain ⟨y, hy, hyw⟩ := hx
      rw [spellings, Finset.card_eq_one]
      refine ⟨y, ?_⟩
      ext z
      simp only [Finset.mem_filter, List.mem_toFinset, Finset.mem_singleton]
      constructor
      · rintro ⟨hz, hzw⟩; exact hone x (by simp) z hz y hy (hzw.trans hyw.symm)
      · rintro rfl; exact ⟨hy, hyw⟩
    · rename_i hx
      exact spellings_zero (fun y hy hyw => hx ⟨y, hy, hyw⟩)

/-- Two documents "a b a" and "b": `b` is in two, `a` in one. -/
example : (docs [.append [97], .append [98], .append [97], .endDoc, .append [98], .endDoc])
    = [[[97], [98], [97]], [[98]], []] := by decide

example : ∀ d ∈ docs [.append [97], .append [98], .append [97], .endDoc, .append [98], .endDoc],
    ∀ x ∈ d, ∀ y ∈ d, lower x = lower y → x = y := by decide

/-- `Df::append` puts the word as given, not in lower case, into the set of the document: one document
with "a" and "A" counts the word twice (tfidf.hpp:77). -/
theorem C57_finding_case : ((Df.run [.append [97], .append [65], .endDoc] Df.new).bind fun d => .ok (d.docNum, d.df))
    = .ok (1, [2]) ∧ docFreq (docs [.append [97], .append [65], .endDoc]) [97] = 1 := by decide

/-- A keyword that is not in lower case is never found (tfidf.hpp:139, 155). -/
theorem C57_finding_upper_keyword (t : TfIdf) (w : Word) (h : find t.word2id (lower w) = none) :
    t.append w = .ok t := by
  rw [TfIdf.append, h]

example : find (TfIdf.load [[65]]).word2id (lower [65]) = none := by decide

theorem termLoop_eq (tf : List (List (Nat × Nat))) : ∀ (n i : Nat),
    termLoop tf n i = if i + n ≤ tf.length ∨ n = 0 then .ok ((tf.drop i).take n) else .ub := by
  intro n
  induction n with
  | zero => intro i; simp [termLoop]
  | succ n ih =>
    intro i
    rw [termLoop]
    by_cases h : i < tf.length
    · rw [at?_eq_ok h, Res.ok_bind, ih, List.drop_eq_getElem_cons h, List.take_succ_cons]
      by_cases h2 : i + (n + 1) ≤ tf.length
      · rw [if_pos (Or.inl (by omega)), if_pos (Or.inl h2)]; rfl
      · rw [if_neg (by omega), if_neg (by omega)]; rfl
    · rw [at?_eq_ub (by omega), if_neg (by omega)]; rfl

/-- `term` goes over the number of words instead of the number of documents (tfidf.hpp:190): with fewer
documents than words it reads outside `tf_`, with more documents it drops the last ones. -/
theorem C57_finding_term (t : TfIdf) :
    (t.tf.length < t.df.length → t.termDocs = .ub) ∧
    (t.df.length ≤ t.tf.length → t.termDocs = .ok (t.tf.take t.df.length)) := by
  rw [TfIdf.termDocs, termLoop_eq]
  constructor
  · intro h; rw [if_neg (by omega)]
  · intro h; rw [if_pos (Or.inl (by omega)), List.drop_zero]

end Verif.Props.TfIdf

#print axioms Verif.Props.TfIdf.C57_tfidf_df
#print axioms Verif.Props.TfIdf.C57_tfidf_tf
#print axioms Verif.Props.TfIdf.C57_df_documents_partial
