import Verif.Spec.TfIdf
import Mathlib.Data.List.Forall2

set_option linter.unusedSimpArgs false

namespace Verif.TfIdf

open Verif.Spec.TfIdf

theorem find_zipIdx (w : Word) : ∀ (v : List Word) (k : Nat),
    (w ∉ v ∧ find (v.zipIdx k) w = none) ∨ ∃ i, v[i]? = some w ∧ find (v.zipIdx k) w = some (k + i) := by
  intro v
  induction v with
  | nil => intro k; left; exact ⟨by simp, rfl⟩
  | cons x v ih =>
    intro k
    by_cases hx : x = w
    · right
      exact ⟨0, by simp [hx], by simp [find, hx]⟩
    · have hstep : find ((x :: v).zipIdx k) w = find (v.zipIdx (k + 1)) w := by
        simp [find, List.zipIdx_cons, hx]
      rcases ih (k + 1) with ⟨h1, h2⟩ | ⟨i, h1, h2⟩
      · left
        exact ⟨by simp [h1]; exact fun h => hx h.symm, by rw [hstep, h2]⟩
      · right
        exact ⟨i + 1, by simpa using h1, by rw [hstep, h2]; congr 1; omega⟩

theorem inc_ok {v : List Nat} {i x : Nat} (h : v[i]? = some x) : inc v i = .ok (v.set i (x + 1)) := by
  obtain ⟨h1, h2⟩ := List.getElem?_eq_some_iff.mp h
  rw [inc, at?_eq_ok h1, Res.ok_bind, h2, Res.pure_eq]

/-- The sum over the documents. -/
def total (w : Word) (ds : List (List Word)) : Nat := (ds.map (spellings w)).sum

theorem spellings_mem {w x : Word} {d : List Word} (h : x ∈ d) : spellings w (d ++ [x]) = spellings w d := by
  have : (d ++ [x]).toFinset = d.toFinset := by
    ext y; simp; rintro rfl; exact h
  rw [spellings, this, spellings]

theorem spellings_new {w x : Word} {d : List Word} (h : x ∉ d) :
    spellings w (d ++ [x]) = spellings w d + (if lower x = w then 1 else 0) := by
  have : (d ++ [x]).toFinset = insert x d.toFinset := by
    ext y; simp [or_comm]
  rw [spellings, this, Finset.filter_insert, spellings]
  split
  · rw [Finset.card_insert_of_notMem]
    simp [h]
  · rfl

theorem spellings_zero {w : Word} {d : List Word} (h : ∀ x ∈ d, lower x ≠ w) : spellings w d = 0 := by
  rw [spellings, Finset.card_eq_zero, Finset.filter_eq_empty_iff]
  intro x hx
  exact h x (by simpa using hx)

theorem total_append (w : Word) (a b : List (List Word)) : total w (a ++ b) = total w a + total w b := by
  simp [total]

theorem total_one (w : Word) (d : List Word) : total w [d] = spellings w d := by simp [total]

theorem total_zero {w : Word} {ds : List (List Word)} (h : ∀ d ∈ ds, ∀ x ∈ d, lower x ≠ w) : total w ds = 0 := by
  induction ds with
  | nil => rfl
  | cons d ds ih =>
    rw [show d :: ds = [d] ++ ds from rfl, total_append, total_one, spellings_zero (h d (by simp)),
      ih (fun d' hd => h d' (by simp [hd]))]

/-- The state of `Df` after the finished documents `fin` and the words `cur` of the current one. -/
structure DInv (d : Df) (fin : List (List Word)) (cur : List Word) : Prop where
  nodup : d.id2word.Nodup
  ids : d.word2id = d.id2word.zipIdx
  len : d.df.length = d.id2word.length
  set : ∀ x, x ∈ d.set ↔ x ∈ cur
  num : d.docNum = fin.length
  df : ∀ (i : Nat) (w : Word), d.id2word[i]? = some w → d.df[i]? = some (total w (fin ++ [cur]))
  known : ∀ x ∈ fin ++ [cur], ∀ y ∈ x, lower y ∈ d.id2word

theorem nodup_get {v : List Word} (h : v.Nodup) {i j : Nat} {w : Word} (hi : v[i]? = some w) (hj : v[j]? = some w) :
    i = j := by
  obtain ⟨h1, h2⟩ := List.getElem?_eq_some_iff.mp hi
  obtain ⟨h3, h4⟩ := List.getElem?_eq_some_iff.mp hj
  exact (List.getElem_inj h).mp (h2.trans h4.symm)

/-- The id of a word, known from now on. -/
theorem idOf_ok {d : Df} {fin : List (List Word)} {cur : List Word} (I : DInv d fin cur) (l : Word) :
    DInv (d.idOf l).1 fin cur ∧ (d.idOf l).1.id2word[(d.idOf l).2]? = some l := by
  rcases find_zipIdx l d.id2word 0 with ⟨h1, h2⟩ | ⟨i, h1, h2⟩
  · rw [← I.ids] at h2
    simp only [Df.idOf, h2]
    refine ⟨⟨?_, ?_, ?_, I.set, I.num, ?_, ?_⟩, by simp⟩
    · simp only [List.nodup_append, I.nodup, true_and]
      simp only [List.nodup_cons, List.not_mem_nil, not_false_iff, List.nodup_nil, and_self, true_and,
        List.mem_singleton]
      rintro a ha b rfl rfl
      exact h1 ha
    · simp only [I.ids, List.zipIdx_append]; simp
    · have := I.len; simp; omega
    · intro i w hi
      simp only at hi ⊢
      have hlen := I.len
      rw [show d.id2word.length + 1 - d.df.length = 1 by omega]
      rw [List.getElem?_append] at hi ⊢
      rw [hlen]
      split at hi
      · rename_i hlt
        rw [if_pos hlt]
        exact I.df i w hi
      · rename_i hge
        rw [if_neg hge]
        have hi0 : i - d.id2word.length = 0 := by
          have := (List.getElem?_eq_some_iff.mp hi).1
          simp at this; omega
        rw [hi0] at hi ⊢
        simp only [List.getElem?_cons_zero, Option.some.injEq] at hi
        subst hi
        rw [total_zero]
        · rfl
        · intro x hx y hy he
          exact h1 (he ▸ I.known x hx y hy)
    · intro x hx y hy
      simp only [List.mem_append]
      exact Or.inl (I.known x hx y hy)
  · rw [← I.ids, Nat.zero_add] at h2
    simp only [Df.idOf, h2]
    exact ⟨I, h1⟩

/-- One `append`. -/
theorem Df.append_ok {d : Df} {fin : List (List Word)} {cur : List Word} (I : DInv d fin cur) (w : Word) :
    ∃ d', d.append w = .ok d' ∧ DInv d' fin (cur ++ [w]) := by
  obtain ⟨I1, hid⟩ := idOf_ok I (lower w)
  rw [show d.append w = (d.idOf (lower w)).1.count w (d.idOf (lower w)).2 from rfl]
  generalize (d.idOf (lower w)).1 = e at I1 hid
  generalize (d.idOf (lower w)).2 = id at hid
  simp only [Df.count]
  have hk : lower w ∈ e.id2word := List.mem_of_getElem? hid
  have hknown : ∀ x ∈ fin ++ [cur ++ [w]], ∀ y ∈ x, lower y ∈ e.id2word := by
    intro x hx y hy
    rcases List.mem_append.mp hx with hx | hx
    · exact I1.known x (by simp [hx]) y hy
    · simp only [List.mem_singleton] at hx
      subst hx
      rcases List.mem_append.mp hy with hy | hy
      · exact I1.known cur (by simp) y hy
      · simp only [List.mem_singleton] at hy; subst hy; exact hk
  by_cases hs : w ∈ e.set
  · have hc : w ∈ cur := (I1.set w).mp hs
    refine ⟨e, by simp [setInsert, hs], I1.nodup, I1.ids, I1.len, ?_, I1.num, ?_, hknown⟩
    · intro x
      rw [I1.set, List.mem_append, List.mem_singleton]
      constructor
      · exact Or.inl
      · rintro (h | rfl)
        · exact h
        · exact hc
    · intro i v hi
      rw [I1.df i v hi, total_append, total_append, total_one, total_one, spellings_mem hc]
  · have hc : w ∉ cur := fun h => hs ((I1.set w).mpr h)
    have hdf := I1.df id _ hid
    refine ⟨⟨e.docNum, e.word2id, e.id2word, e.df.set id (total (lower w) (fin ++ [cur]) + 1), e.set ++ [w]⟩, by
        simp only [setInsert, hs, if_false, if_true, inc_ok hdf, Res.ok_bind, Res.pure_eq],
      I1.nodup, I1.ids, by simpa using I1.len, ?_, I1.num, ?_, hknown⟩
    · intro x
      simp only [List.mem_append, I1.set]
    · intro i v hi
      simp only at hi ⊢
      rw [List.getElem?_set, total_append v fin, total_one v (cur ++ [w]), spellings_new hc]
      by_cases hi2 : id = i
      · subst hi2
        have : lower w = v := by
          rw [hid] at hi; exact Option.some.inj hi
        have hlt := (List.getElem?_eq_some_iff.mp hdf).1
        rw [if_pos rfl, if_pos hlt, if_pos this, this, total_append, total_one, Nat.add_assoc]
      · have hne : lower w ≠ v := by
          rintro rfl
          exact hi2 (nodup_get I1.nodup hid hi)
        rw [if_neg hi2, if_neg hne, I1.df i v hi, total_append, total_one]
        rfl

theorem Df.endDoc_ok {d : Df} {fin : List (List Word)} {cur : List Word} (I : DInv d fin cur) :
    DInv d.endDoc (fin ++ [cur]) [] := by
  refine ⟨I.nodup, I.ids, I.len, by simp [Df.endDoc], by simp [Df.endDoc, I.num], ?_, ?_⟩
  · intro i w hi
    have := I.df i w hi
    simp only [Df.endDoc]
    rw [this, total_append (b := [[]]), total_one]
    simp [spellings]
  · intro x hx y hy
    rcases List.mem_append.mp hx with hx | hx
    · exact I.known x hx y hy
    · simp at hx; subst hx; simp at hy

/-- The documents, when `cur` words of the first one are known already. -/
def glue (cur : List Word) (ds : List (List Word)) : List (List Word) :=
  match ds with
  | [] => [cur]
  | d :: ds => (cur ++ d) :: ds

theorem docs_ne (es : List Ev) : docs es ≠ [] := by
  cases es with
  | nil => simp [docs]
  | cons e es => cases e <;> simp [docs]; split <;> simp

theorem glue_append (cur : List Word) (w : Word) (es : List Ev) :
    glue cur (docs (.append w :: es)) = glue (cur ++ [w]) (docs es) := by
  rw [docs]
  rcases h : docs es with _ | ⟨d, ds⟩
  · exact absurd h (docs_ne es)
  · simp [glue]

theorem glue_endDoc (cur : List Word) (es : List Ev) : glue cur (docs (.endDoc :: es)) = cur :: glue [] (docs es) := by
  rw [docs]
  rcases h : docs es with _ | ⟨d, ds⟩
  · exact absurd h (docs_ne es)
  · simp [glue]

theorem glue_nil (es : List Ev) : glue [] (docs es) = docs es := by
  rcases h : docs es with _ | ⟨d, ds⟩
  · exact absurd h (docs_ne es)
  · simp [glue]

theorem Df.run_ok : ∀ (es : List Ev) (d : Df) (fin : List (List Word)) (cur : List Word), DInv d fin cur →
    ∃ d' fin' cur', Df.run es d = .ok d' ∧ DInv d' fin' cur' ∧ fin' ++ [cur'] = fin ++ glue cur (docs es) := by
  intro es
  induction es with
  | nil => intro d fin cur I; exact ⟨d, fin, cur, rfl, I, by simp [docs, glue]⟩
  | cons e es ih =>
    intro d fin cur I
    cases e with
    | append w =>
      obtain ⟨d1, e1, I1⟩ := Df.append_ok I w
      obtain ⟨d2, f2, c2, e2, I2, h2⟩ := ih d1 fin (cur ++ [w]) I1
      exact ⟨d2, f2, c2, by rw [Df.run, e1, Res.ok_bind, e2], I2, by rw [h2, glue_append]⟩
    | endDoc =>
      obtain ⟨d2, f2, c2, e2, I2, h2⟩ := ih d.endDoc (fin ++ [cur]) [] (Df.endDoc_ok I)
      exact ⟨d2, f2, c2, by rw [Df.run, e2], I2, by rw [h2, glue_endDoc]; simp⟩

theorem Df.new_inv : DInv Df.new [] [] := by
  refine ⟨by simp [Df.new], rfl, rfl, by simp [Df.new], rfl, ?_, ?_⟩
  · intro i w h; simp [Df.new] at h
  · intro x hx y hy; simp at hx; subst hx; simp at hy

/-! ### `TfIdf` -/

/-- The keywords as loaded. -/
theorem loadLoop_ok : ∀ (ws : List Word) (m : List (Word × Nat)) (v : List Word), m = v.zipIdx → v.Nodup →
    (loadLoop ws m v).1 = (loadLoop ws m v).2.zipIdx ∧ (loadLoop ws m v).2.Nodup ∧
      ∀ w, w ∈ (loadLoop ws m v).2 ↔ w ∈ v ∨ w ∈ ws := by
  intro ws
  induction ws with
  | nil => intro m v h1 h2; exact ⟨h1, h2, by simp [loadLoop]⟩
  | cons w ws ih =>
    intro m v h1 h2
    rcases find_zipIdx w v 0 with ⟨g1, g2⟩ | ⟨i, g1, g2⟩
    · rw [← h1] at g2
      simp only [loadLoop, g2]
      obtain ⟨k1, k2, k3⟩ := ih (m ++ [(w, v.length)]) (v ++ [w])
        (by rw [List.zipIdx_append, h1]; simp) (by
          simp only [List.nodup_append, h2, true_and]
          simp only [List.nodup_cons, List.not_mem_nil, not_false_iff, List.nodup_nil, and_self, true_and,
            List.mem_singleton]
          rintro a ha b rfl rfl
          exact g1 ha)
      refine ⟨k1, k2, ?_⟩
      intro x
      rw [k3]; simp [or_assoc]
    · rw [← h1] at g2
      simp only [loadLoop, g2]
      obtain ⟨k1, k2, k3⟩ := ih m v h1 h2
      refine ⟨k1, k2, ?_⟩
      intro x
      rw [k3, List.mem_cons]
      constructor
      · rintro (h | h)
        · exact Or.inl h
        · exact Or.inr (Or.inr h)
      · rintro (h | rfl | h)
        · exact Or.inl h
        · exact Or.inl (List.mem_of_getElem? g1)
        · exact Or.inr h

/-- Does the document contain a keyword? -/
def relevant (v : List Word) (d : List Word) : Bool := d.any (fun x => decide (lower x ∈ v))

/-- The count of `id` in a map of counts. -/
def countOf (m : List (Nat × Nat)) (id : Nat) : Nat := ((m.find? (fun p => p.1 = id)).map (·.2)).getD 0

theorem countOf_incMap (m : List (Nat × Nat)) (id j : Nat) :
    countOf (incMap m id) j = countOf m j + (if id = j then 1 else 0) := by
  induction m with
  | nil => by_cases h : id = j <;> simp [incMap, countOf, h]
  | cons p m ih =>
    rw [incMap]
    by_cases h : p.1 = id
    · rw [if_pos h]
      by_cases hj : id = j
      · simp [countOf, h, hj]
      · simp [countOf, h, hj]
    · rw [if_neg h]
      by_cases hj : p.1 = j
      · have : id ≠ j := fun h2 => h (hj.trans h2.symm)
        simp [countOf, hj, this]
      · simp only [countOf, List.find?_cons, hj, decide_false] at ih ⊢
        exact ih

/-- What the map of a document holds. -/
def Counts (v : List Word) (m : List (Nat × Nat)) (d : List Word) : Prop :=
  ∀ (i : Nat) (w : Word), v[i]? = some w → countOf m i = d.countP (fun x => lower x = w)

/-- The state of `TfIdf`. -/
structure TInv (v : List Word) (t : TfIdf) (fin : List (List Word)) (cur : List Word) : Prop where
  id2 : t.id2word = v
  ids : t.word2id = v.zipIdx
  len : t.df.length = v.length
  set : ∀ l, l ∈ t.set ↔ l ∈ v ∧ ∃ x ∈ cur, lower x = l
  df : ∀ (i : Nat) (w : Word), v[i]? = some w → t.df[i]? = some (docFreq (fin ++ [cur]) w)
  opened : t.open = relevant v cur
  tf : ∃ a b, t.tf = a ++ b ∧ List.Forall₂ (Counts v) a (fin.filter (relevant v)) ∧
    ((relevant v cur = false ∧ b = []) ∨ (relevant v cur = true ∧ ∃ m, b = [m] ∧ Counts v m cur))

theorem docFreq_append (a b : List (List Word)) (w : Word) : docFreq (a ++ b) w = docFreq a w + docFreq b w := by
  simp [docFreq]

theorem docFreq_one (d : List Word) (w : Word) : docFreq [d] w = if ∃ x ∈ d, lower x = w then 1 else 0 := by
  simp [docFreq, List.countP_cons]

theorem counts_append {v : List Word} (hv : v.Nodup) {m : List (Nat × Nat)} {d : List Word} (h : Counts v m d)
    {w : Word} {id : Nat} (hid : v[id]? = some (lower w)) : Counts v (incMap m id) (d ++ [w]) := by
  intro i u hi
  rw [countOf_incMap, h i u hi, List.countP_append]
  congr 1
  by_cases h2 : id = i
  · subst h2
    rw [hid] at hi
    simp [Option.some.inj hi]
  · have : lower w ≠ u := by rintro rfl; exact h2 (nodup_get hv hid hi)
    simp [h2, this]

theorem counts_nil (v : List Word) {d : List Word} (h : relevant v d = false) : Counts v [] d := by
  intro i w hi
  rw [eq_comm]
  simp only [countOf, List.find?_nil, Option.map_none, Option.getD_none, List.countP_eq_zero, decide_eq_true_eq]
  intro x hx he
  simp only [relevant, List.any_eq_false, decide_eq_true_eq] at h
  exact h x hx (he ▸ List.mem_of_getElem? hi)

theorem relevant_append (v d : List Word) (w : Word) :
    relevant v (d ++ [w]) = (relevant v d || decide (lower w ∈ v)) := by simp [relevant]

theorem counts_skip {v : List Word} {m : List (Nat × Nat)} {d : List Word} (h : Counts v m d) {w : Word}
    (hw : lower w ∉ v) : Counts v m (d ++ [w]) := by
  intro i u hi
  rw [h i u hi, List.countP_append]
  have : lower w ≠ u := by rintro rfl; exact hw (List.mem_of_getElem? hi)
  simp [this]

theorem TfIdf.append_ok {v : List Word} (hv : v.Nodup) {t : TfIdf} {fin : List (List Word)} {cur : List Word}
    (I : TInv v t fin cur) (w : Word) : ∃ t', t.append w = .ok t' ∧ TInv v t' fin (cur ++ [w]) := by
  rw [TfIdf.append]
  obtain ⟨a, b, hab, hfin, hcur⟩ := I.tf
  rcases find_zipIdx (lower w) v 0 with ⟨h1, h2⟩ | ⟨id, h1, h2⟩
  · -- not a keyword
    rw [← I.ids] at h2
    rw [h2]
    have hrel : relevant v (cur ++ [w]) = relevant v cur := by rw [relevant_append]; simp [h1]
    refine ⟨t, rfl, I.id2, I.ids, I.len, ?_, ?_, by rw [I.opened, hrel], ?_⟩
    · intro l
      rw [I.set]
      constructor
      · rintro ⟨h3, x, hx, h4⟩; exact ⟨h3, x, by simp [hx], h4⟩
      · rintro ⟨h3, x, hx, h4⟩
        rcases List.mem_append.mp hx with hx | hx
        · exact ⟨h3, x, hx, h4⟩
        · simp only [List.mem_singleton] at hx; subst hx; exact absurd (h4 ▸ h3) h1
    · intro i u hi
      rw [I.df i u hi, docFreq_append, docFreq_append, docFreq_one, docFreq_one]
      have hne : lower w ≠ u := by rintro rfl; exact h1 (List.mem_of_getElem? hi)
      have : (∃ x ∈ cur ++ [w], lower x = u) ↔ ∃ x ∈ cur, lower x = u := by
        constructor
        · rintro ⟨x, hx, h4⟩
          rcases List.mem_append.mp hx with hx | hx
          · exact ⟨x, hx, h4⟩
          · simp only [List.mem_singleton] at hx; subst hx; exact absurd h4 hne
        · rintro ⟨x, hx, h4⟩; exact ⟨x, by simp [hx], h4⟩
      simp only [this]
    · refine ⟨a, b, hab, hfin, ?_⟩
      rw [hrel]
      rcases hcur with hc | ⟨hc, m, hb, hm⟩
      · exact Or.inl hc
      · exact Or.inr ⟨hc, m, hb, counts_skip hm h1⟩
  · -- a keyword
    rw [← I.ids, Nat.zero_add] at h2
    rw [h2]
    have hk : lower w ∈ v := List.mem_of_getElem? h1
    have hrel : relevant v (cur ++ [w]) = true := by rw [relevant_append]; simp [hk]
    have htf : ∃ m, t.countTf id = a ++ [m] ∧ Counts v m (cur ++ [w]) := by
      rcases hcur with ⟨hc, hb⟩ | ⟨hc, m, hb, hm⟩
      · refine ⟨incMap [] id, ?_, counts_append hv (counts_nil v hc) h1⟩
        have : t.open = false := by rw [I.opened, hc]
        rw [TfIdf.countTf, this, hab, hb]
        simp
      · refine ⟨incMap m id, ?_, counts_append hv hm h1⟩
        have : t.open = true := by rw [I.opened, hc]
        rw [TfIdf.countTf, this, hab, hb]
        simp
    obtain ⟨m, hm1, hm2⟩ := htf
    simp only [TfIdf.countDf]
    by_cases hs : lower w ∈ t.set
    · obtain ⟨-, y, hy, hyw⟩ := (I.set _).mp hs
      refine ⟨⟨t.word2id, t.id2word, t.df, t.countTf id, true, t.set⟩, by simp [setInsert, hs],
        I.id2, I.ids, I.len, ?_, ?_, hrel.symm, a, [m], hm1, hfin, Or.inr ⟨hrel, m, rfl, hm2⟩⟩
      · intro l
        rw [I.set]
        constructor
        · rintro ⟨h3, x, hx, h4⟩; exact ⟨h3, x, by simp [hx], h4⟩
        · rintro ⟨h3, x, hx, h4⟩
          rcases List.mem_append.mp hx with hx | hx
          · exact ⟨h3, x, hx, h4⟩
          · simp only [List.mem_singleton] at hx; subst hx; exact ⟨h3, y, hy, hyw.trans h4⟩
      · intro i u hi
        rw [I.df i u hi, docFreq_append, docFreq_append, docFreq_one, docFreq_one]
        have : (∃ x ∈ cur ++ [w], lower x = u) ↔ ∃ x ∈ cur, lower x = u := by
          constructor
          · rintro ⟨x, hx, h4⟩
            rcases List.mem_append.mp hx with hx | hx
            · exact ⟨x, hx, h4⟩
            · simp only [List.mem_singleton] at hx; subst hx; exact ⟨y, hy, hyw.trans h4⟩
          · rintro ⟨x, hx, h4⟩; exact ⟨x, by simp [hx], h4⟩
        simp only [this]
    · have hdf := I.df id _ h1
      have hno : ¬ ∃ x ∈ cur, lower x = lower w := fun h => hs ((I.set _).mpr ⟨hk, h⟩)
      refine ⟨⟨t.word2id, t.id2word, t.df.set id (docFreq (fin ++ [cur]) (lower w) + 1), t.countTf id, true,
        t.set ++ [lower w]⟩, by
          simp only [setInsert, hs, if_false, if_true, inc_ok hdf, Res.ok_bind, Res.pure_eq],
        I.id2, I.ids, by simpa using I.len, ?_, ?_, hrel.symm, a, [m], hm1, hfin, Or.inr ⟨hrel, m, rfl, hm2⟩⟩
      · intro l
        simp only [List.mem_append, I.set, List.mem_singleton]
        constructor
        · rintro (⟨h3, x, hx, h4⟩ | rfl)
          · exact ⟨h3, x, Or.inl hx, h4⟩
          · exact ⟨hk, w, Or.inr rfl, rfl⟩
        · rintro ⟨h3, x, hx | rfl, h4⟩
          · exact Or.inl ⟨h3, x, hx, h4⟩
          · exact Or.inr h4.symm
      · intro i u hi
        simp only
        rw [List.getElem?_set]
        by_cases hi2 : id = i
        · subst hi2
          rw [h1] at hi
          have hu : lower w = u := Option.some.inj hi
          subst hu
          have hlt := (List.getElem?_eq_some_iff.mp hdf).1
          rw [if_pos rfl, if_pos hlt, docFreq_append, docFreq_append, docFreq_one, docFreq_one, if_neg hno,
            if_pos ⟨w, by simp, rfl⟩]
        · have hne : lower w ≠ u := by rintro rfl; exact hi2 (nodup_get hv h1 hi)
          rw [if_neg hi2, I.df i u hi, docFreq_append, docFreq_append, docFreq_one, docFreq_one]
          have : (∃ x ∈ cur ++ [w], lower x = u) ↔ ∃ x ∈ cur, lower x = u := by
            constructor
            · rintro ⟨x, hx, h4⟩
              rcases List.mem_append.mp hx with hx | hx
              · exact ⟨x, hx, h4⟩
              · simp only [List.mem_singleton] at hx; subst hx; exact absurd h4 hne
            · rintro ⟨x, hx, h4⟩; exact ⟨x, by simp [hx], h4⟩
          simp only [this]

theorem TfIdf.endDoc_ok {v : List Word} {t : TfIdf} {fin : List (List Word)} {cur : List Word}
    (I : TInv v t fin cur) : TInv v t.endDoc (fin ++ [cur]) [] := by
  obtain ⟨a, b, hab, hfin, hcur⟩ := I.tf
  refine ⟨I.id2, I.ids, I.len, by simp [TfIdf.endDoc], ?_, rfl, t.tf, [], by simp [TfIdf.endDoc], ?_,
    Or.inl ⟨rfl, rfl⟩⟩
  · intro i w hi
    have := I.df i w hi
    simp only [TfIdf.endDoc]
    rw [this, docFreq_append (b := [[]]), docFreq_one]
    simp
  · rw [hab, List.filter_append]
    rcases hcur with ⟨hc, hb⟩ | ⟨hc, m, hb, hm⟩
    · subst hb; simpa [hc] using hfin
    · subst hb
      rw [show [cur].filter (relevant v) = [cur] by simp [hc]]
      exact List.rel_append hfin (List.Forall₂.cons hm List.Forall₂.nil)

theorem TfIdf.run_ok {v : List Word} (hv : v.Nodup) : ∀ (es : List Ev) (t : TfIdf) (fin : List (List Word))
    (cur : List Word), TInv v t fin cur →
    ∃ t' fin' cur', TfIdf.run es t = .ok t' ∧ TInv v t' fin' cur' ∧ fin' ++ [cur'] = fin ++ glue cur (docs es) := by
  intro es
  induction es with
  | nil => intro d fin cur I; exact ⟨d, fin, cur, rfl, I, by simp [docs, glue]⟩
  | cons e es ih =>
    intro d fin cur I
    cases e with
    | append w =>
      obtain ⟨d1, e1, I1⟩ := TfIdf.append_ok hv I w
      obtain ⟨d2, f2, c2, e2, I2, h2⟩ := ih d1 fin (cur ++ [w]) I1
      exact ⟨d2, f2, c2, by rw [TfIdf.run, e1, Res.ok_bind, e2], I2, by rw [h2, glue_append]⟩
    | endDoc =>
      obtain ⟨d2, f2, c2, e2, I2, h2⟩ := ih d.endDoc (fin ++ [cur]) [] (TfIdf.endDoc_ok I)
      exact ⟨d2, f2, c2, by rw [TfIdf.run, e2], I2, by rw [h2, glue_endDoc]; simp⟩

theorem TfIdf.load_inv (keys : List Word) : ∃ v : List Word, v.Nodup ∧ (∀ w, w ∈ v ↔ w ∈ keys) ∧
    TInv v (TfIdf.load keys) [] [] := by
  obtain ⟨h1, h2, h3⟩ := loadLoop_ok keys [] [] rfl List.nodup_nil
  refine ⟨(loadLoop keys [] []).2, h2, by intro w; rw [h3]; simp, rfl, h1, by simp [TfIdf.load], by simp [TfIdf.load],
    ?_, rfl, [], [], rfl, List.Forall₂.nil, Or.inl ⟨rfl, rfl⟩⟩
  intro i w hi
  have hlt := (List.getElem?_eq_some_iff.mp hi).1
  simp only [TfIdf.load]
  rw [List.getElem?_replicate, if_pos hlt]
  rfl

end Verif.TfIdf
