import Verif.Model.TopNan
import Verif.Spec.TopNan
import Verif.Proof.TopScore

set_option linter.unusedSimpArgs false

namespace Verif.TopNan

open Verif.Spec.TopScore Verif.Spec.TopNan
open Verif.TopScore (Top put castInt shift endOf finish Ok inserted put_eq shift_eq take_shifted take_last toNat_aux before_trans before_append)

variable {α T : Type} [LinearOrder α]

/-- The result of the search. -/
theorem find_eq (s : Option α) (tbl : List (Option α × T)) : ∀ (cnt i : Nat), i + cnt ≤ tbl.length →
    ∃ f, find s tbl cnt i = .ok f ∧
      ∃ p, i ≤ p ∧ p ≤ i + cnt ∧ (∀ j e, i ≤ j → j < p → tbl[j]? = some e → gt s e.1 = false) ∧
        (f = none ∧ p = i + cnt ∨ f = some p ∧ p < i + cnt ∧ ∃ e, tbl[p]? = some e ∧ gt s e.1 = true) := by
  intro cnt
  induction cnt with
  | zero =>
    intro i h
    exact ⟨none, rfl, i, Nat.le_refl _, Nat.le_refl _, by omega, Or.inl ⟨rfl, rfl⟩⟩
  | succ cnt ih =>
    intro i h
    rw [find, at?_eq_ok (by omega), Res.ok_bind]
    cases hs : gt s (tbl[i]'(by omega)).1 with
    | true =>
      rw [if_pos rfl]
      exact ⟨some i, rfl, i, Nat.le_refl _, by omega, by omega,
        Or.inr ⟨rfl, by omega, tbl[i]'(by omega), List.getElem?_eq_getElem _, hs⟩⟩
    | false =>
      rw [if_neg (by simp)]
      obtain ⟨f, e, p, h1, h2, h3, h4⟩ := ih (i + 1) (by omega)
      refine ⟨f, e, p, by omega, by omega, ?_, ?_⟩
      · intro j x hj1 hj2 hx
        by_cases hj : j = i
        · subst hj
          rw [List.getElem?_eq_getElem (by omega)] at hx
          cases hx
          exact hs
        · exact h3 j x (by omega) hj2 hx
      · rw [show i + (cnt + 1) = i + 1 + cnt by omega]
        exact h4

/-- The numbers in the table are non-increasing. -/
def Desc (L : List (Option α × T)) : Prop := (reals L).Pairwise (fun a b => b.1 ≤ a.1)

theorem place_some {t : Top (Option α) T} {s : Option α} {i : Nat} {R : Nat} {t' : List (Option α × T)}
    (h : find s t.tbl t.size 0 = .ok (some i)) (hr : (endOf t.maxSize t.size + 1 - i).toNat = R)
    (e : shift i R t.tbl = .ok t') : place t s = .ok (t', castInt i) := by
  subst hr
  unfold place
  rw [h, Res.ok_bind]
  dsimp only
  rw [e, Res.ok_bind, Res.pure_eq]

/-- No number in a non-increasing table is lower than one that is not greater than the last. -/
theorem none_lower {L : List (Option α × T)} (hd : Desc L) {s : Option α} {e : Option α × T} (he : L[L.length - 1]? = some e) (hse : le s e.1 = true) :
    ∀ (j : Nat) x, L[j]? = some x → gt s x.1 = false := by
  intro j x hx
  obtain ⟨xs, xi⟩ := x
  obtain ⟨es, ei⟩ := e
  cases s with
  | none => rfl
  | some a =>
    cases es with
    | none => simp [le] at hse
    | some b =>
      cases xs with
      | none => rfl
      | some c =>
        simp only [le, decide_eq_true_eq] at hse
        simp only [gt, decide_eq_false_iff_not, not_lt]
        have hj := (List.getElem?_eq_some_iff.mp hx).1
        by_cases hjj : j = L.length - 1
        · rw [hjj, he] at hx
          cases hx
          exact hse
        · have hsplit : L = L.dropLast ++ [(some b, ei)] := by
            obtain ⟨h1, h2⟩ := List.getElem?_eq_some_iff.mp he
            have hne : L ≠ [] := by intro e; simp [e] at h1
            have := List.dropLast_concat_getLast hne
            rw [List.getLast_eq_getElem, h2] at this
            exact this.symm
          have hm : (some c, xi) ∈ L.dropLast := by
            rw [List.mem_iff_getElem?]
            refine ⟨j, ?_⟩
            rw [List.getElem?_dropLast, if_pos (by omega), hx]
          unfold Desc reals at hd
          rw [hsplit, List.filterMap_append, List.pairwise_append] at hd
          have := hd.2.2 (c, xi) (List.mem_filterMap.2 ⟨_, hm, rfl⟩) (b, ei) (by simp [real])
          exact le_trans hse this

theorem add_ok {t : Top (Option α) T} {m : Nat} {L : List (Option α × T)} (h2 : 2 ≤ m) (hc : ∀ n, n ≤ m → castInt n = n)
    (hw : ∀ n, n ≤ m → endOf m n = ((if m - 2 ≤ n - 1 then m - 2 else n - 1 : Nat) : Int)) (H : Ok t m L)
    (hd : Desc L) (s : Option α) (idx : T) :
    ∃ t' p, add t s idx = .ok t' ∧ p ≤ L.length ∧ (∀ j e, j < p → L[j]? = some e → gt s e.1 = false) ∧
      (∀ e, L[p]? = some e → gt s e.1 = true) ∧ Ok t' m (inserted L p m (s, idx)) := by
  obtain ⟨h1, hlen, hsz, hle, hv⟩ := H
  obtain ⟨maxSize, size, tbl⟩ := t
  simp only at h1 hlen hsz hv
  subst h1
  subst hsz
  have hget : ∀ j, j < L.length → L[j]? = tbl[j]? := by
    intro j hj
    rw [← hv, List.getElem?_take, if_pos hj]
  have hfull : L.length = maxSize → inserted L L.length maxSize (s, idx) = L := by
    intro hf
    rw [inserted, List.take_length, List.drop_length, ← hf, List.take_left]
  -- the short cut
  by_cases hsc : L.length = maxSize ∧ ∃ e, L[L.length - 1]? = some e ∧ le s e.1 = true
  · obtain ⟨hf, e, he, hse⟩ := hsc
    have he' : tbl[maxSize - 1]? = some e := by rw [← hget _ (by omega), ← hf]; exact he
    refine ⟨⟨maxSize, L.length, tbl⟩, L.length, ?_, Nat.le_refl _, ?_, by simp, ?_⟩
    · obtain ⟨hq, hx⟩ := List.getElem?_eq_some_iff.mp he'
      rw [add, shortcut]
      simp only [hf, if_true, if_neg (show ¬ maxSize = 0 by omega), at?_eq_ok hq, Res.ok_bind, Res.pure_eq, hx, hse]
    · intro j x _ hx
      exact none_lower hd he hse j x hx
    · rw [hfull hf]
      exact ⟨rfl, hlen, rfl, hle, hv⟩
  · have hshort : shortcut ⟨maxSize, L.length, tbl⟩ s = .ok false := by
      rw [shortcut]
      by_cases hf : L.length = maxSize
      · have hq : maxSize - 1 < tbl.length := by omega
        simp only [hf, if_true, if_neg (show ¬ maxSize = 0 by omega), at?_eq_ok hq, Res.ok_bind, Res.pure_eq]
        congr 1
        rw [Bool.eq_false_iff]
        intro hse
        exact hsc ⟨hf, tbl[maxSize - 1], by rw [hget _ (by omega), hf, List.getElem?_eq_getElem], hse⟩
      · simp only [hf, if_false]
    rw [add, hshort, Res.ok_bind]
    simp only [Bool.false_eq_true, if_false]
    obtain ⟨f, ef, p, -, hp2, hp3, hp4⟩ := find_eq s tbl L.length 0 (by omega)
    rw [Nat.zero_add] at hp2 hp4
    have hprev : ∀ j e, j < p → L[j]? = some e → gt s e.1 = false := by
      intro j e hj he
      have hjl : j < L.length := by omega
      exact hp3 j e (Nat.zero_le _) hj (by rw [← hget j hjl]; exact he)
    rcases hp4 with ⟨rfl, rfl⟩ | ⟨rfl, hp5, e, he, hes⟩
    · -- no lower entry
      have hpl : place ⟨maxSize, L.length, tbl⟩ s = .ok (tbl, -1) := by simp [place, ef]
      rw [hpl, Res.ok_bind]
      by_cases hf : L.length = maxSize
      · refine ⟨⟨maxSize, L.length, tbl⟩, L.length, ?_, Nat.le_refl _, hprev, by simp, ?_⟩
        · simp [finish, hf]
        · rw [hfull hf]
          exact ⟨rfl, hlen, rfl, hle, hv⟩
      · have hlt : L.length < maxSize := by omega
        refine ⟨⟨maxSize, L.length + 1, tbl.set L.length (s, idx)⟩, L.length, ?_, Nat.le_refl _, hprev, by simp, ?_⟩
        · simp only [finish, hlt, hc _ hle, true_and]
          rw [if_pos (show (-1 : Int) < 0 by decide), if_neg (by omega), put_eq _ (by omega)]
          simp
        · have : inserted L L.length maxSize (s, idx) = L ++ [(s, idx)] := by
            rw [inserted, List.take_length, List.drop_length, List.take_of_length_le (by simp; omega)]
          rw [this]
          refine ⟨rfl, by simpa using hlen, by simp, by simp; omega, ?_⟩
          simp only
          apply List.ext_getElem?
          intro j
          rw [List.getElem?_take, List.getElem?_set, List.getElem?_append]
          by_cases hj : j < L.length
          · rw [if_pos (by omega), if_neg (by omega), if_pos hj, hget j hj]
          · by_cases hj2 : j = L.length
            · subst hj2; simp; omega
            · rw [if_neg (by omega), if_neg hj, List.getElem?_eq_none]; simp; omega
    · -- a lower entry at `p`
      obtain ⟨E, hend, hE1, hE2⟩ : ∃ E : Nat, endOf maxSize L.length = (E : Int) ∧
          (E = maxSize - 2 ∨ E = L.length - 1) ∧ E ≤ maxSize - 2 ∧ E ≤ L.length - 1 := by
        refine ⟨if maxSize - 2 ≤ L.length - 1 then maxSize - 2 else L.length - 1, ?_, ?_, ?_⟩
        · exact hw _ hle
        · split <;> omega
        · split <;> omega
      have hpk : ∀ t' R, E + 1 - p = R → shift p R tbl = .ok t' →
          place ⟨maxSize, L.length, tbl⟩ s = .ok (t', (p : Int)) := by
        intro t' R hR e1
        rw [← hc p (Nat.le_trans hp2 hle)]
        refine place_some (t := ⟨maxSize, L.length, tbl⟩) ef ?_ e1
        show (endOf maxSize L.length + 1 - (p : Int)).toNat = R
        rw [hend, toNat_aux, hR]
      clear hw hend hc
      by_cases hcorner : p ≤ E
      · obtain ⟨t', e1, hl1, hg1⟩ := shift_eq p (E + 1 - p) tbl (by omega)
        rw [hpk t' _ rfl e1, Res.ok_bind]
        simp only
        obtain ⟨S, hS, hS1⟩ : ∃ S, S = (if L.length < maxSize then L.length + 1 else L.length) ∧
            ((L.length < maxSize ∧ S = L.length + 1) ∨ (L.length = maxSize ∧ S = L.length)) := by
          refine ⟨_, rfl, ?_⟩
          split <;> omega
        refine ⟨⟨maxSize, S, t'.set p (s, idx)⟩, p, ?_, by omega, hprev, ?_, ?_⟩
        · simp only [finish]
          rw [if_neg (by omega), if_neg (by omega), put_eq _ (by omega)]
          simp only [Res.ok_bind, Res.pure_eq]
          rw [hS]
        · intro x hx
          rw [hget p hp5, he] at hx; cases hx; exact hes
        · have hil : (inserted L p maxSize (s, idx)).length = S := by
            rw [inserted]; simp only [List.length_take, List.length_append, List.length_cons, List.length_drop]; omega
          refine ⟨rfl, by simp [hl1, hlen], hil.symm, by omega, ?_⟩
          exact take_shifted hlen hp5 hcorner hE1 hE2.1 hE2.2 hS1 hl1 hg1 hget
      · -- the last entry of a full table is replaced: nothing is shifted
        have hp6 : p = maxSize - 1 ∧ L.length = maxSize := by omega
        obtain ⟨hp6, hf⟩ := hp6
        rw [hpk tbl 0 (by omega) rfl, Res.ok_bind]
        simp only
        refine ⟨⟨maxSize, L.length, tbl.set p (s, idx)⟩, p, ?_, by omega, hprev, ?_, ?_⟩
        · simp only [finish]
          rw [if_neg (by omega), if_neg (by omega), put_eq _ (by omega)]
          simp only [Res.ok_bind, Res.pure_eq]
          rw [if_neg (by omega)]
        · intro x hx
          rw [hget p hp5, he] at hx; cases hx; exact hes
        · have hil : (inserted L p maxSize (s, idx)).length = L.length := by
            rw [inserted]; simp; omega
          refine ⟨rfl, by simp [hlen], hil.symm, by omega, ?_⟩
          exact take_last hlen hp6 hf hget

/-- The numbers in the table `r` and the numbers `l` added so far. -/
structure Best (l r : List (α × T)) (is : List Nat) : Prop where
  val : r.map some = is.map (fun i => l[i]?)
  lt : ∀ i ∈ is, i < l.length
  pw : is.Pairwise (Before l)
  rest : ∀ j, j < l.length → j ∉ is → ∀ i ∈ is, Before l i j

theorem Best.get {l r : List (α × T)} {is : List Nat} (B : Best l r is) (j : Nat) :
    r[j]?.map some = is[j]?.map (fun i => l[i]?) := by
  rw [← List.getElem?_map, ← List.getElem?_map, B.val]

theorem Best.length {l r : List (α × T)} {is : List Nat} (B : Best l r is) : is.length = r.length := by
  have := congrArg List.length B.val
  simpa using this.symm

theorem Best.desc {l r : List (α × T)} {is : List Nat} (B : Best l r is) : r.Pairwise (fun a b => b.1 ≤ a.1) := by
  rw [List.pairwise_iff_getElem]
  intro i j hi hj hij
  have hlen := B.length
  have h1 := B.get i
  have h2 := B.get j
  rw [List.getElem?_eq_getElem hi, List.getElem?_eq_getElem (by omega)] at h1
  rw [List.getElem?_eq_getElem hj, List.getElem?_eq_getElem (by omega)] at h2
  simp only [Option.map_some, Option.some.injEq] at h1 h2
  have := (List.pairwise_iff_getElem.mp B.pw) i j (by omega) (by omega) hij
  rw [Verif.TopScore.before_iff h1.symm h2.symm] at this
  rcases this with h | ⟨h, -⟩
  · exact le_of_lt h
  · exact le_of_eq h.symm

/-- One more number, of which the first `k` are kept. -/
theorem Best.step {l r : List (α × T)} {is : List Nat} (B : Best l r is) {q k : Nat} {x : α × T}
    (hq : q ≤ r.length) (h1 : ∀ j e, j < q → r[j]? = some e → x.1 ≤ e.1) (h2 : ∀ e, r[q]? = some e → e.1 < x.1)
    (hk : (∀ j, j < l.length → j ∈ is) ∨ q < r.length ∨ k ≤ q) :
    Best (l ++ [x]) ((r.take q ++ x :: r.drop q).take k) ((is.take q ++ l.length :: is.drop q).take k) := by
  have hlen := B.length
  have hxl : (l ++ [x])[l.length]? = some x := by simp
  have hA : ∀ i ∈ is.take q, Before (l ++ [x]) i l.length := by
    intro i hi
    obtain ⟨k, hk⟩ := List.getElem?_of_mem hi
    rw [List.getElem?_take] at hk
    split at hk
    · rename_i hkp
      have hb := B.get k
      rw [hk] at hb
      have hkr : k < r.length := by omega
      rw [List.getElem?_eq_getElem hkr] at hb
      simp only [Option.map_some, Option.some.injEq] at hb
      have hil := (List.getElem?_eq_some_iff.mp hb.symm).1
      refine ⟨r[k], x, by rw [List.getElem?_append_left hil]; exact hb.symm, hxl, ?_⟩
      have := h1 k _ hkp (List.getElem?_eq_getElem hkr)
      rcases lt_or_eq_of_le this with h | h
      · exact Or.inl h
      · exact Or.inr ⟨h.symm, hil⟩
    · simp at hk
  have hB : ∀ i ∈ is.drop q, Before (l ++ [x]) l.length i := by
    intro i hi
    obtain ⟨k, hk⟩ := List.getElem?_of_mem hi
    rw [List.getElem?_drop] at hk
    have hb := B.get (q + k)
    rw [hk] at hb
    have hkl := (List.getElem?_eq_some_iff.mp hk).1
    have hkr : q + k < r.length := by omega
    rw [List.getElem?_eq_getElem hkr] at hb
    simp only [Option.map_some, Option.some.injEq] at hb
    have hil := (List.getElem?_eq_some_iff.mp hb.symm).1
    refine ⟨x, r[q + k], hxl, by rw [List.getElem?_append_left hil]; exact hb.symm, Or.inl ?_⟩
    have hpr : q < r.length := by omega
    have h3 := h2 _ (List.getElem?_eq_getElem hpr)
    by_cases hk0 : k = 0
    · subst hk0; simpa using h3
    · have := (List.pairwise_iff_getElem.mp B.desc) q (q + k) hpr hkr (by omega)
      exact lt_of_le_of_lt this h3
  have hJ : (is.take q ++ l.length :: is.drop q).Pairwise (Before (l ++ [x])) := by
    have hpw : is.Pairwise (Before (l ++ [x])) := B.pw.imp (before_append x)
    have : (is.take q ++ is.drop q).Pairwise (Before (l ++ [x])) := by rw [List.take_append_drop]; exact hpw
    rw [List.pairwise_append] at this ⊢
    obtain ⟨g1, g2, g3⟩ := this
    refine ⟨g1, List.pairwise_cons.mpr ⟨hB, g2⟩, ?_⟩
    intro a ha b hb
    rcases List.mem_cons.mp hb with rfl | hb
    · exact hA a ha
    · exact g3 a ha b hb
  have hmem : ∀ i, i ∈ is.take q ++ l.length :: is.drop q ↔ i ∈ is ∨ i = l.length := by
    intro i
    rw [List.mem_append, List.mem_cons]
    have hsp : i ∈ is ↔ i ∈ is.take q ∨ i ∈ is.drop q := by
      rw [← List.mem_append, List.take_append_drop]
    rw [hsp]
    constructor
    · rintro (h | h | h)
      · exact Or.inl (Or.inl h)
      · exact Or.inr h
      · exact Or.inl (Or.inr h)
    · rintro ((h | h) | h)
      · exact Or.inl h
      · exact Or.inr (Or.inr h)
      · exact Or.inr (Or.inl h)
  refine ⟨?_, ?_, hJ.sublist (List.take_sublist _ _), ?_⟩
  · rw [List.map_take, List.map_take]
    congr 1
    rw [List.map_append, List.map_append, List.map_cons, List.map_cons, hxl, List.map_take, List.map_drop, B.val,
      ← List.map_take, ← List.map_drop]
    congr 1
    · apply List.map_congr_left
      intro i hi
      rw [List.getElem?_append_left (B.lt i (List.mem_of_mem_take hi))]
    · congr 1
      apply List.map_congr_left
      intro i hi
      rw [List.getElem?_append_left (B.lt i (List.mem_of_mem_drop hi))]
  · intro i hi
    rcases (hmem i).mp (List.mem_of_mem_take hi) with h | h
    · have := B.lt i h; simp; omega
    · simp; omega
  · intro j hj hnot i hi
    by_cases hjJ : j ∈ is.take q ++ l.length :: is.drop q
    · rw [← List.take_append_drop k (is.take q ++ l.length :: is.drop q), List.pairwise_append] at hJ
      have : j ∈ (is.take q ++ l.length :: is.drop q).drop k := by
        rw [← List.take_append_drop k (is.take q ++ l.length :: is.drop q), List.mem_append] at hjJ
        exact hjJ.resolve_left hnot
      exact hJ.2.2 i hi j this
    · rw [hmem, not_or] at hjJ
      have hjl : j < l.length := by simp at hj; omega
      rcases (hmem i).mp (List.mem_of_mem_take hi) with h | h
      · exact before_append x (B.rest j hjl hjJ.1 i h)
      · subst h
        have hpm : q < is.length := by
          rcases hk with hk | hk | hk
          · exact absurd (hk j hjl) hjJ.1
          · omega
          · exfalso
            rw [List.take_append_of_le_length (by simp; omega)] at hi
            have := B.lt _ (List.mem_of_mem_take (List.mem_of_mem_take hi))
            omega
        have hmemp : is[q] ∈ is.drop q := by
          rw [List.drop_eq_getElem_cons hpm]; exact List.mem_cons_self ..
        exact before_trans (hB _ hmemp) (before_append x (B.rest j hjl hjJ.1 _ (List.getElem_mem _)))

theorem reals_append (a b : List (Option α × T)) : reals (a ++ b) = reals a ++ reals b := List.filterMap_append ..

/-- The numbers of a prefix are a prefix of the numbers. -/
theorem reals_take (M : List (Option α × T)) (k : Nat) :
    reals (M.take k) = (reals M).take (reals (M.take k)).length := by
  have : reals M = reals (M.take k) ++ reals (M.drop k) := by rw [← reals_append, List.take_append_drop]
  rw [this, List.take_left]

theorem reals_drop (M : List (Option α × T)) (k : Nat) :
    reals (M.drop k) = (reals M).drop (reals (M.take k)).length := by
  have : reals M = reals (M.take k) ++ reals (M.drop k) := by rw [← reals_append, List.take_append_drop]
  rw [this, List.drop_left]

/-- The table `L` after the additions `es`. -/
structure Inv (m : Nat) (es L : List (Option α × T)) (is : List Nat) : Prop where
  len : L.length = min m es.length
  best : Best (reals es) (reals L) is
  all : es.length ≤ m → ∀ j, j < (reals es).length → j ∈ is
  nan : nans L ≤ nans (es.take m)

/-- One more entry. -/
theorem Inv.step {m : Nat} {es L : List (Option α × T)} {is : List Nat} (I : Inv m es L is) {s : Option α} {idx : T} {p : Nat}
    (hp : p ≤ L.length) (h1 : ∀ j e, j < p → L[j]? = some e → gt s e.1 = false)
    (h2 : ∀ e, L[p]? = some e → gt s e.1 = true) :
    ∃ is', Inv m (es ++ [(s, idx)]) (inserted L p m (s, idx)) is' := by
  obtain ⟨hlen, B, hall, hnan⟩ := I
  have hil : (inserted L p m (s, idx)).length = min m (es ++ [(s, idx)]).length := by
    rw [inserted]
    simp only [List.length_take, List.length_append, List.length_cons, List.length_drop, List.length_nil]
    omega
  have htk : nans (inserted L p m (s, idx)) ≤ nans ((es ++ [(s, idx)]).take m) := by
    by_cases hf : es.length < m
    · have e1 : (es ++ [(s, idx)]).take m = es ++ [(s, idx)] := List.take_of_length_le (by simp; omega)
      rw [List.take_of_length_le (by omega)] at hnan
      rw [e1]
      refine Nat.le_trans (List.Sublist.countP_le (List.take_sublist _ _)) ?_
      have e2 : nans L = nans (L.take p) + nans (L.drop p) := by
        unfold nans
        rw [← List.countP_append, List.take_append_drop]
      unfold nans at *
      rw [List.countP_append, List.countP_cons, List.countP_append, List.countP_cons, List.countP_nil]
      omega
    · have e1 : (es ++ [(s, idx)]).take m = es.take m := List.take_append_of_le_length (by omega)
      rw [e1]
      have hLm : L.length = m := by omega
      by_cases hpl : p = L.length
      · rw [inserted, hpl, List.take_length, List.drop_length, ← hLm, List.take_left, hLm]
        exact hnan
      · have hlt : p < L.length := by omega
        have hs := h2 _ (List.getElem?_eq_getElem hlt)
        have hsn : s.isNone = false := by
          cases s with
          | none => simp [gt] at hs
          | some a => rfl
        refine Nat.le_trans (List.Sublist.countP_le (List.take_sublist _ _)) ?_
        have e2 : nans L = nans (L.take p) + nans (L.drop p) := by
          unfold nans
          rw [← List.countP_append, List.take_append_drop]
        unfold nans at *
        rw [List.countP_append, List.countP_cons, hsn]
        simp only [Bool.false_eq_true, if_false]
        omega
  cases s with
  | none =>
    have hpl : p = L.length := by
      refine Classical.byContradiction fun hne => ?_
      have hlt : p < L.length := by omega
      have := h2 _ (List.getElem?_eq_getElem hlt)
      simp [gt] at this
    have e1 : reals (es ++ [((none : Option α), idx)]) = reals es := by simp [reals_append, reals, real]
    have e2 : reals (inserted L p m ((none : Option α), idx)) = reals L := by
      rw [inserted, hpl, List.take_length, List.drop_length]
      by_cases hf : L.length < m
      · rw [List.take_of_length_le (by simp; omega)]
        simp [reals_append, reals, real]
      · have hLm : L.length = m := by omega
        rw [← hLm, List.take_left]
    refine ⟨is, hil, ?_, ?_, htk⟩
    · rw [e1, e2]; exact B
    · rw [e1]
      intro h
      exact hall (by simp at h; omega)
  | some a =>
    have e1 : reals (es ++ [(some a, idx)]) = reals es ++ [(a, idx)] := by simp [reals_append, reals, real]
    have hM : reals (L.take p ++ (some a, idx) :: L.drop p) =
        (reals L).take (reals (L.take p)).length ++ (a, idx) :: (reals L).drop (reals (L.take p)).length := by
      rw [reals_append, ← reals_take, ← reals_drop]
      rfl
    have hq : (reals (L.take p)).length ≤ (reals L).length := by
      have := congrArg List.length (reals_take L p)
      rw [List.length_take] at this
      omega
    have hb1 : ∀ j e, j < (reals (L.take p)).length → (reals L)[j]? = some e → a ≤ e.1 := by
      intro j e hj he
      have : e ∈ reals (L.take p) := by
        rw [reals_take, List.mem_iff_getElem?]
        exact ⟨j, by rw [List.getElem?_take, if_pos hj, he]⟩
      obtain ⟨y, hy, hye⟩ := List.mem_filterMap.1 this
      obtain ⟨i, hi⟩ := List.getElem?_of_mem hy
      rw [List.getElem?_take] at hi
      split at hi
      · rename_i hip
        have hg := h1 i y hip hi
        obtain ⟨ys, yi⟩ := y
        cases ys with
        | none => simp [real] at hye
        | some b =>
          simp only [real, Option.map_some, Option.some.injEq] at hye
          subst hye
          simpa [gt] using hg
      · cases hi
    have hcase : p < L.length → ∃ b i, L[p]? = some (some b, i) ∧ b < a ∧ (reals L)[(reals (L.take p)).length]? = some (b, i) := by
      intro hlt
      have hg := h2 _ (List.getElem?_eq_getElem hlt)
      have he := List.getElem?_eq_getElem hlt
      rcases hy : L[p] with ⟨ys, yi⟩
      rw [hy] at hg he
      cases ys with
      | none => simp [gt] at hg
      | some b =>
        refine ⟨b, yi, he, by simpa [gt] using hg, ?_⟩
        have h3 := reals_drop L p
        rw [List.drop_eq_getElem_cons hlt, hy] at h3
        have h4 : ((reals L).drop (reals (L.take p)).length)[0]? = some (b, yi) := by
          rw [← h3]; rfl
        rw [List.getElem?_drop, Nat.add_zero] at h4
        exact h4
    have hb2 : ∀ e, (reals L)[(reals (L.take p)).length]? = some e → e.1 < a := by
      intro e he
      by_cases hlt : p < L.length
      · obtain ⟨b, i, -, hba, hb⟩ := hcase hlt
        rw [hb] at he
        cases he
        exact hba
      · rw [List.take_of_length_le (by omega), List.getElem?_eq_none (Nat.le_refl _)] at he
        cases he
    have hres : reals (inserted L p m (some a, idx)) =
        ((reals L).take (reals (L.take p)).length ++ (a, idx) :: (reals L).drop (reals (L.take p)).length).take
          (reals (inserted L p m (some a, idx))).length := by
      have := reals_take (L.take p ++ (some a, idx) :: L.drop p) m
      rw [hM] at this
      exact this
    have hk : (∀ j, j < (reals es).length → j ∈ is) ∨ (reals (L.take p)).length < (reals L).length ∨
        (reals (inserted L p m (some a, idx))).length ≤ (reals (L.take p)).length := by
      by_cases hf : es.length < m
      · exact Or.inl (hall (Nat.le_of_lt hf))
      · by_cases hlt : p < L.length
        · obtain ⟨b, i, -, -, hb⟩ := hcase hlt
          exact Or.inr (Or.inl (List.getElem?_eq_some_iff.mp hb).1)
        · refine Or.inr (Or.inr ?_)
          have hpm : p = m := by omega
          rw [inserted, List.take_append_of_le_length (by rw [List.length_take]; omega), List.take_of_length_le (i := m) (l := L.take p) (by rw [List.length_take]; omega)]
          exact Nat.le_refl _
    have Bs := B.step (x := (a, idx)) hq hb1 hb2 hk
    rw [← hres] at Bs
    refine ⟨_, hil, e1 ▸ Bs, ?_, htk⟩
    · rw [e1]
      intro h j hj
      have hf : es.length < m := by simp at h; omega
      have hke : (reals (inserted L p m (some a, idx))).length = (reals L).length + 1 := by
        rw [inserted, List.take_of_length_le (by simp; omega), hM]
        simp
        omega
      have hBl := B.length
      rw [hke, List.take_of_length_le (by simp; omega)]
      rw [List.mem_append, List.mem_cons]
      rw [List.length_append, List.length_singleton] at hj
      by_cases hjl : j = (reals es).length
      · exact Or.inr (Or.inl hjl)
      · have := hall (Nat.le_of_lt hf) j (by omega)
        rw [← List.take_append_drop (reals (L.take p)).length is, List.mem_append] at this
        rcases this with h | h
        · exact Or.inl h
        · exact Or.inr (Or.inr h)

theorem addAll_ok {m : Nat} (h2 : 2 ≤ m) (hc : ∀ n, n ≤ m → castInt n = n)
    (hw : ∀ n, n ≤ m → endOf m n = ((if m - 2 ≤ n - 1 then m - 2 else n - 1 : Nat) : Int)) :
    ∀ (es l : List (Option α × T)) (t : Top (Option α) T) (L : List (Option α × T)) (is : List Nat), Ok t m L → Inv m l L is →
    ∃ t' L' is', addAll t es = .ok t' ∧ Ok t' m L' ∧ Inv m (l ++ es) L' is' := by
  intro es
  induction es with
  | nil =>
    intro l t L is H I
    exact ⟨t, L, is, rfl, H, by rw [List.append_nil]; exact I⟩
  | cons x es ih =>
    intro l t L is H I
    obtain ⟨t1, p, e1, hp, h3, h4, H1⟩ := add_ok h2 hc hw H I.best.desc x.1 x.2
    obtain ⟨is1, I1⟩ := I.step (idx := x.2) hp h3 h4
    obtain ⟨t2, L2, is2, e2, H2, I2⟩ := ih (l ++ [x]) t1 _ is1 H1 I1
    refine ⟨t2, L2, is2, ?_, H2, ?_⟩
    · rw [addAll, e1, Res.ok_bind, e2]
    · rw [List.append_assoc] at I2
      exact I2

end Verif.TopNan
