import Verif.Model.TopScore
import Verif.Spec.TopScore
import Mathlib.Order.Basic

set_option linter.unusedSimpArgs false

namespace Verif.TopScore

open Verif.Spec.TopScore

variable {α T : Type}

theorem bmod_aux (n k : Nat) (h : n < k) : Int.bmod (n : Int) (2 * k) = n := by
  rw [Int.bmod_def]
  have : ((n : Int) % ((2 * k : Nat) : Int)) = n := Int.emod_eq_of_lt (by omega) (by omega)
  rw [this, if_pos (by omega)]

theorem wrap_aux (m k : Nat) (h : m < k) (h2 : 2 ≤ m) : (m + k - 2) % k = m - 2 := by
  rw [show m + k - 2 = m - 2 + k by omega, Nat.add_mod_right, Nat.mod_eq_of_lt (by omega)]

theorem castInt_eq {n : Nat} (h : n < 2 ^ 31) : castInt n = n := by
  have := bmod_aux n (2 ^ 31) h
  rw [show (2 * 2 ^ 31 : Nat) = 2 ^ 32 by decide] at this
  exact this

theorem endOf_eq {m n : Nat} (h : m < 2 ^ 31) (h2 : 2 ≤ m) (h3 : n ≤ m) :
    endOf m n = ((if m - 2 ≤ n - 1 then m - 2 else n - 1 : Nat) : Int) := by
  rw [endOf, wrap_aux m _ (Nat.lt_trans h (by decide)) h2, Nat.min_def, castInt_eq]
  refine Nat.lt_of_le_of_lt ?_ h
  split <;> omega

theorem toNat_aux (E p : Nat) : ((E : Int) + 1 - (p : Int)).toNat = E + 1 - p := by omega

theorem put_eq {tbl : List (α × T)} {i : Nat} (x : α × T) (h : i < tbl.length) :
    put tbl (i : Int) x = .ok (tbl.set i x) := by
  rw [put, if_pos (by omega)]; simp

/-- The shifted table. -/
theorem shift_eq (i : Nat) : ∀ (c : Nat) (tbl : List (α × T)), i + c < tbl.length →
    ∃ tbl', shift i c tbl = .ok tbl' ∧ tbl'.length = tbl.length ∧
      ∀ j, tbl'[j]? = if i < j ∧ j ≤ i + c then tbl[j - 1]? else tbl[j]? := by
  intro c
  induction c with
  | zero =>
    intro tbl h
    refine ⟨tbl, rfl, rfl, ?_⟩
    intro j
    rw [if_neg (by omega)]
  | succ c ih =>
    intro tbl h
    rw [shift, at?_eq_ok (by omega), Res.ok_bind, put_eq _ (by omega), Res.ok_bind]
    obtain ⟨t', e, h1, h2⟩ := ih (tbl.set (i + c + 1) (tbl[i + c]'(by omega))) (by simp; omega)
    refine ⟨t', e, by simpa using h1, ?_⟩
    intro j
    rw [h2 j, List.getElem?_set, List.getElem?_set]
    by_cases h3 : i < j ∧ j ≤ i + c
    · rw [if_pos h3, if_neg (by omega), if_pos (by omega)]
    · rw [if_neg h3]
      by_cases h4 : i + c + 1 = j
      · rw [if_pos h4, if_pos (by omega), if_pos (by omega), show j - 1 = i + c by omega,
          List.getElem?_eq_getElem]
      · rw [if_neg h4, if_neg (by omega)]

/-- The entries kept after adding `x` at place `p`. -/
def inserted (L : List (α × T)) (p m : Nat) (x : α × T) : List (α × T) := (L.take p ++ x :: L.drop p).take m

/-- The entries in use. -/
structure Ok (t : Top α T) (m : Nat) (L : List (α × T)) : Prop where
  max : t.maxSize = m
  len : t.tbl.length = m
  sz : t.size = L.length
  le : L.length ≤ m
  val : t.tbl.take t.size = L

/-- The entries in use after the shift. -/
theorem take_shifted {tbl t' L : List (α × T)} {maxSize p E S : Nat} {x : α × T} (hlen : tbl.length = maxSize)
    (hp5 : p < L.length) (hcorner : p ≤ E) (hE1 : E = maxSize - 2 ∨ E = L.length - 1) (hE2 : E ≤ maxSize - 2)
    (hE3 : E ≤ L.length - 1)
    (hS1 : (L.length < maxSize ∧ S = L.length + 1) ∨ (L.length = maxSize ∧ S = L.length))
    (hl1 : t'.length = tbl.length)
    (hg1 : ∀ j, t'[j]? = if p < j ∧ j ≤ p + (E + 1 - p) then tbl[j - 1]? else tbl[j]?)
    (hget : ∀ j, j < L.length → L[j]? = tbl[j]?) :
    (t'.set p x).take S = inserted L p maxSize x := by
  apply List.ext_getElem?
  intro j
  have hE : E + 1 - p + p = E + 1 := by omega
  rw [List.getElem?_take, List.getElem?_set, hg1 j, inserted, List.getElem?_take, List.getElem?_append,
    List.length_take, Nat.min_eq_left (Nat.le_of_lt hp5)]
  by_cases hj0 : j < S
  · have hjm : j < maxSize := by omega
    rw [if_pos hj0, if_pos hjm]
    by_cases hj1 : p = j
    · subst hj1
      rw [if_pos rfl, if_pos (by omega), if_neg (Nat.lt_irrefl p), Nat.sub_self]
      rfl
    · rw [if_neg hj1]
      by_cases hj2 : j < p
      · rw [if_neg (by omega), if_pos hj2, List.getElem?_take, if_pos hj2, hget j (by omega)]
      · have : j - 1 < L.length := by omega
        rw [if_pos (by omega), if_neg hj2, show j - p = (j - p - 1) + 1 by omega, List.getElem?_cons_succ,
          List.getElem?_drop, show p + (j - p - 1) = j - 1 by omega, hget _ this]
  · rw [if_neg hj0]
    split
    · rw [if_neg (by omega), List.getElem?_eq_none]
      simp only [List.length_cons, List.length_drop]
      omega
    · rfl

/-- The entries in use after the last one of a full table is replaced. -/
theorem take_last {tbl L : List (α × T)} {maxSize p : Nat} {x : α × T} (hlen : tbl.length = maxSize)
    (hp6 : p = maxSize - 1) (hf : L.length = maxSize) (hget : ∀ j, j < L.length → L[j]? = tbl[j]?) :
    (tbl.set p x).take L.length = inserted L p maxSize x := by
  apply List.ext_getElem?
  intro j
  rw [List.getElem?_take, List.getElem?_set, inserted, List.getElem?_take, List.getElem?_append,
    List.length_take, Nat.min_eq_left (show p ≤ L.length by omega)]
  by_cases hj0 : j < L.length
  · rw [if_pos hj0, if_pos (show j < maxSize by omega)]
    by_cases hj1 : p = j
    · subst hj1
      rw [if_pos rfl, if_pos (by omega), if_neg (Nat.lt_irrefl p), Nat.sub_self]
      rfl
    · rw [if_neg hj1, if_pos (by omega), List.getElem?_take, if_pos (by omega), hget j (by omega)]
  · rw [if_neg hj0, if_neg (by omega)]

variable [LinearOrder α]

/-- The result of the search. -/
theorem find_eq (s : α) (tbl : List (α × T)) : ∀ (cnt i : Nat), i + cnt ≤ tbl.length →
    ∃ f, find s tbl cnt i = .ok f ∧
      ∃ p, i ≤ p ∧ p ≤ i + cnt ∧ (∀ j e, i ≤ j → j < p → tbl[j]? = some e → s ≤ e.1) ∧
        (f = none ∧ p = i + cnt ∨ f = some p ∧ p < i + cnt ∧ ∃ e, tbl[p]? = some e ∧ e.1 < s) := by
  intro cnt
  induction cnt with
  | zero =>
    intro i h
    exact ⟨none, rfl, i, Nat.le_refl _, Nat.le_refl _, by omega, Or.inl ⟨rfl, rfl⟩⟩
  | succ cnt ih =>
    intro i h
    rw [find, at?_eq_ok (by omega), Res.ok_bind]
    by_cases hs : s > (tbl[i]'(by omega)).1
    · rw [if_pos hs]
      exact ⟨some i, rfl, i, Nat.le_refl _, by omega, by omega,
        Or.inr ⟨rfl, by omega, tbl[i]'(by omega), List.getElem?_eq_getElem _, hs⟩⟩
    · rw [if_neg hs]
      obtain ⟨f, e, p, h1, h2, h3, h4⟩ := ih (i + 1) (by omega)
      refine ⟨f, e, p, by omega, by omega, ?_, ?_⟩
      · intro j x hj1 hj2 hx
        by_cases hj : j = i
        · subst hj
          rw [List.getElem?_eq_getElem (by omega)] at hx
          cases hx
          exact not_lt.mp hs
        · exact h3 j x (by omega) hj2 hx
      · rw [show i + (cnt + 1) = i + 1 + cnt by omega]
        exact h4

/-- The table is non-increasing. -/
def Desc (L : List (α × T)) : Prop := L.Pairwise (fun a b => b.1 ≤ a.1)

theorem place_some {t : Top α T} {s : α} {i : Nat} {R : Nat} {t' : List (α × T)}
    (h : find s t.tbl t.size 0 = .ok (some i)) (hr : (endOf t.maxSize t.size + 1 - i).toNat = R)
    (e : shift i R t.tbl = .ok t') : place t s = .ok (t', castInt i) := by
  subst hr
  unfold place
  rw [h, Res.ok_bind]
  dsimp only
  rw [e, Res.ok_bind, Res.pure_eq]

theorem add_ok {t : Top α T} {m : Nat} {L : List (α × T)} (h2 : 2 ≤ m) (hc : ∀ n, n ≤ m → castInt n = n)
    (hw : ∀ n, n ≤ m → endOf m n = ((if m - 2 ≤ n - 1 then m - 2 else n - 1 : Nat) : Int)) (H : Ok t m L)
    (hd : Desc L) (s : α) (idx : T) :
    ∃ t' p, add t s idx = .ok t' ∧ p ≤ L.length ∧ (∀ j e, j < p → L[j]? = some e → s ≤ e.1) ∧
      (∀ e, L[p]? = some e → e.1 < s) ∧ Ok t' m (inserted L p m (s, idx)) := by
  obtain ⟨h1, hlen, hsz, hle, hv⟩ := H
  obtain ⟨maxSize, size, tbl⟩ := t
  simp only at h1 hlen hsz hv
  subst h1
  subst hsz
  have hget : ∀ j, j < L.length → L[j]? = tbl[j]? := by
    intro j hj
    rw [← hv, List.getElem?_take, if_pos hj]
  -- the short cut
  by_cases hsc : L.length = maxSize ∧ ∃ e, L[L.length - 1]? = some e ∧ s ≤ e.1
  · obtain ⟨hf, e, he, hse⟩ := hsc
    have he' : tbl[maxSize - 1]? = some e := by rw [← hget _ (by omega), ← hf]; exact he
    refine ⟨⟨maxSize, L.length, tbl⟩, L.length, ?_, Nat.le_refl _, ?_, by simp, ?_⟩
    · obtain ⟨hq, hx⟩ := List.getElem?_eq_some_iff.mp he'
      rw [add, shortcut]
      simp only [hf, if_true, if_neg (show ¬ maxSize = 0 by omega), at?_eq_ok hq, Res.ok_bind, Res.pure_eq, hx, hse,
        decide_true]
    · intro j x hj hx
      obtain ⟨hj', hxe⟩ := List.getElem?_eq_some_iff.mp hx
      obtain ⟨hl', hle'⟩ := List.getElem?_eq_some_iff.mp he
      by_cases hjj : j = L.length - 1
      · subst hjj; rw [he] at hx; cases hx; exact hse
      · have := (List.pairwise_iff_getElem.mp hd) j (L.length - 1) hj' hl' (by omega)
        rw [hxe, hle'] at this
        exact le_trans hse this
    · have : inserted L L.length maxSize (s, idx) = L := by
        rw [inserted, List.take_length, List.drop_length, ← hf, List.take_left]
      rw [this]
      exact ⟨rfl, hlen, rfl, hle, hv⟩
  · have hshort : shortcut ⟨maxSize, L.length, tbl⟩ s = .ok false := by
      rw [shortcut]
      by_cases hf : L.length = maxSize
      · have hq : maxSize - 1 < tbl.length := by omega
        simp only [hf, if_true, if_neg (show ¬ maxSize = 0 by omega), at?_eq_ok hq, Res.ok_bind, Res.pure_eq]
        congr 1
        simp only [decide_eq_false_iff_not]
        intro hse
        exact hsc ⟨hf, tbl[maxSize - 1], by rw [hget _ (by omega), hf, List.getElem?_eq_getElem], hse⟩
      · simp only [hf, if_false]
    rw [add, hshort, Res.ok_bind]
    simp only [Bool.false_eq_true, if_false]
    obtain ⟨f, ef, p, -, hp2, hp3, hp4⟩ := find_eq s tbl L.length 0 (by omega)
    rw [Nat.zero_add] at hp2 hp4
    have hprev : ∀ j e, j < p → L[j]? = some e → s ≤ e.1 := by
      intro j e hj he
      have hjl : j < L.length := by omega
      exact hp3 j e (Nat.zero_le _) hj (by rw [← hget j hjl]; exact he)
    rcases hp4 with ⟨rfl, rfl⟩ | ⟨rfl, hp5, e, he, hes⟩
    · -- no lower entry
      have hpl : place ⟨maxSize, L.length, tbl⟩ s = .ok (tbl, -1) := by simp [place, ef]
      rw [hpl, Res.ok_bind]
      by_cases hf : L.length = maxSize
      · -- cannot happen when full, as the short cut would have been taken
        exfalso
        apply hsc
        have hq : L.length - 1 < L.length := by omega
        refine ⟨hf, L[L.length - 1], List.getElem?_eq_getElem hq, ?_⟩
        exact hprev (L.length - 1) _ (by omega) (List.getElem?_eq_getElem hq)
      · have hlt : L.length < maxSize := by omega
        refine ⟨⟨maxSize, L.length + 1, tbl.set L.length (s, idx)⟩, L.length, ?_, Nat.le_refl _, hprev, by simp, ?_⟩
        · simp only [finish, hlt, hc _ hle, true_and]
          rw [if_pos (show (-1 : Int) < 0 by decide), if_neg (by omega), put_eq _ (by omega)]
          simp
        · have : inserted L L.length maxSize (s, idx) = L ++ [(s, idx)] := by
            rw [inserted, List.take_length, List.drop_length, List.take_of_length_le (by simp; omega)]
          rw [this]
          refine ⟨rfl, by simpa using hlen, by simp, by simp; omega, ?_⟩
          simp only
          apply List.ext_getElem?
          intro j
          rw [List.getElem?_take, List.getElem?_set, List.getElem?_append]
          by_cases hj : j < L.length
          · rw [if_pos (by omega), if_neg (by omega), if_pos hj, hget j hj]
          · by_cases hj2 : j = L.length
            · subst hj2; simp; omega
            · rw [if_neg (by omega), if_neg hj, List.getElem?_eq_none]; simp; omega
    · -- a lower entry at `p`
      obtain ⟨E, hend, hE1, hE2⟩ : ∃ E : Nat, endOf maxSize L.length = (E : Int) ∧
          (E = maxSize - 2 ∨ E = L.length - 1) ∧ E ≤ maxSize - 2 ∧ E ≤ L.length - 1 := by
        refine ⟨if maxSize - 2 ≤ L.length - 1 then maxSize - 2 else L.length - 1, ?_, ?_, ?_⟩
        · exact hw _ hle
        · split <;> omega
        · split <;> omega
      have hpk : ∀ t' R, E + 1 - p = R → shift p R tbl = .ok t' →
          place ⟨maxSize, L.length, tbl⟩ s = .ok (t', (p : Int)) := by
        intro t' R hR e1
        rw [← hc p (Nat.le_trans hp2 hle)]
        refine place_some (t := ⟨maxSize, L.length, tbl⟩) ef ?_ e1
        show (endOf maxSize L.length + 1 - (p : Int)).toNat = R
        rw [hend, toNat_aux, hR]
      clear hw hend hc
      by_cases hcorner : p ≤ E
      · obtain ⟨t', e1, hl1, hg1⟩ := shift_eq p (E + 1 - p) tbl (by omega)
        rw [hpk t' _ rfl e1, Res.ok_bind]
        simp only
        obtain ⟨S, hS, hS1⟩ : ∃ S, S = (if L.length < maxSize then L.length + 1 else L.length) ∧
            ((L.length < maxSize ∧ S = L.length + 1) ∨ (L.length = maxSize ∧ S = L.length)) := by
          refine ⟨_, rfl, ?_⟩
          split <;> omega
        refine ⟨⟨maxSize, S, t'.set p (s, idx)⟩, p, ?_, by omega, hprev, ?_, ?_⟩
        · simp only [finish]
          rw [if_neg (by omega), if_neg (by omega), put_eq _ (by omega)]
          simp only [Res.ok_bind, Res.pure_eq]
          rw [hS]
        · intro x hx
          rw [hget p hp5, he] at hx; cases hx; exact hes
        · have hil : (inserted L p maxSize (s, idx)).length = S := by
            rw [inserted]; simp only [List.length_take, List.length_append, List.length_cons, List.length_drop]; omega
          refine ⟨rfl, by simp [hl1, hlen], hil.symm, by omega, ?_⟩
          exact take_shifted hlen hp5 hcorner hE1 hE2.1 hE2.2 hS1 hl1 hg1 hget
      · -- the last entry of a full table is replaced: nothing is shifted
        have hp6 : p = maxSize - 1 ∧ L.length = maxSize := by omega
        obtain ⟨hp6, hf⟩ := hp6
        rw [hpk tbl 0 (by omega) rfl, Res.ok_bind]
        simp only
        refine ⟨⟨maxSize, L.length, tbl.set p (s, idx)⟩, p, ?_, by omega, hprev, ?_, ?_⟩
        · simp only [finish]
          rw [if_neg (by omega), if_neg (by omega), put_eq _ (by omega)]
          simp only [Res.ok_bind, Res.pure_eq]
          rw [if_neg (by omega)]
        · intro x hx
          rw [hget p hp5, he] at hx; cases hx; exact hes
        · have hil : (inserted L p maxSize (s, idx)).length = L.length := by
            rw [inserted]; simp; omega
          refine ⟨rfl, by simp [hlen], hil.symm, by omega, ?_⟩
          exact take_last hlen hp6 hf hget

/-- `Before` with the two entries given. -/
theorem before_iff {l : List (α × T)} {i j : Nat} {a b : α × T} (hi : l[i]? = some a) (hj : l[j]? = some b) :
    Before l i j ↔ (b.1 < a.1 ∨ (a.1 = b.1 ∧ i < j)) := by
  constructor
  · rintro ⟨a', b', h1, h2, h3⟩
    rw [hi] at h1; rw [hj] at h2
    cases h1; cases h2; exact h3
  · intro h; exact ⟨a, b, hi, hj, h⟩

theorem before_trans {l : List (α × T)} {i j k : Nat} (h1 : Before l i j) (h2 : Before l j k) : Before l i k := by
  obtain ⟨a, b, ha, hb, h3⟩ := h1
  obtain ⟨b', c, hb', hc, h4⟩ := h2
  rw [hb] at hb'; cases hb'
  refine ⟨a, c, ha, hc, ?_⟩
  rcases h3 with h3 | ⟨h3, h5⟩ <;> rcases h4 with h4 | ⟨h4, h6⟩
  · exact Or.inl (lt_trans h4 h3)
  · exact Or.inl (h4 ▸ h3)
  · exact Or.inl (h3 ▸ h4)
  · exact Or.inr ⟨h3.trans h4, by omega⟩

theorem before_append {l : List (α × T)} {i j : Nat} (x : α × T) (h : Before l i j) : Before (l ++ [x]) i j := by
  obtain ⟨a, b, ha, hb, h3⟩ := h
  have h1 := (List.getElem?_eq_some_iff.mp ha).1
  have h2 := (List.getElem?_eq_some_iff.mp hb).1
  exact ⟨a, b, by rw [List.getElem?_append_left h1]; exact ha, by rw [List.getElem?_append_left h2]; exact hb, h3⟩

/-- The invariant between the table and the entries added so far. -/
structure Best (m : Nat) (l r : List (α × T)) (is : List Nat) : Prop where
  len : r.length = min m l.length
  val : r.map some = is.map (fun i => l[i]?)
  lt : ∀ i ∈ is, i < l.length
  pw : is.Pairwise (Before l)
  rest : ∀ j, j < l.length → j ∉ is → ∀ i ∈ is, Before l i j
  all : l.length ≤ m → ∀ j, j < l.length → j ∈ is

theorem Best.get {m : Nat} {l r : List (α × T)} {is : List Nat} (B : Best m l r is) (j : Nat) :
    r[j]?.map some = is[j]?.map (fun i => l[i]?) := by
  rw [← List.getElem?_map, ← List.getElem?_map, B.val]

theorem Best.length {m : Nat} {l r : List (α × T)} {is : List Nat} (B : Best m l r is) : is.length = r.length := by
  have := congrArg List.length B.val
  simpa using this.symm

theorem Best.desc {m : Nat} {l r : List (α × T)} {is : List Nat} (B : Best m l r is) : Desc r := by
  rw [Desc, List.pairwise_iff_getElem]
  intro i j hi hj hij
  have hlen := B.length
  have h1 := B.get i
  have h2 := B.get j
  rw [List.getElem?_eq_getElem hi, List.getElem?_eq_getElem (by omega)] at h1
  rw [List.getElem?_eq_getElem hj, List.getElem?_eq_getElem (by omega)] at h2
  simp only [Option.map_some, Option.some.injEq] at h1 h2
  have := (List.pairwise_iff_getElem.mp B.pw) i j (by omega) (by omega) hij
  rw [before_iff h1.symm h2.symm] at this
  rcases this with h | ⟨h, -⟩
  · exact le_of_lt h
  · exact le_of_eq h.symm

/-- One more entry. -/
theorem Best.step {m : Nat} (hm : 1 ≤ m) {l r : List (α × T)} {is : List Nat} (B : Best m l r is) {p : Nat} {x : α × T}
    (hp : p ≤ r.length) (h1 : ∀ j e, j < p → r[j]? = some e → x.1 ≤ e.1) (h2 : ∀ e, r[p]? = some e → e.1 < x.1) :
    Best m (l ++ [x]) (inserted r p m x) ((is.take p ++ l.length :: is.drop p).take m) := by
  have hlen := B.length
  have hxl : (l ++ [x])[l.length]? = some x := by simp
  -- entries before the place
  have hA : ∀ i ∈ is.take p, Before (l ++ [x]) i l.length := by
    intro i hi
    obtain ⟨k, hk⟩ := List.getElem?_of_mem hi
    rw [List.getElem?_take] at hk
    split at hk
    · rename_i hkp
      have hb := B.get k
      rw [hk] at hb
      have hkr : k < r.length := by omega
      rw [List.getElem?_eq_getElem hkr] at hb
      simp only [Option.map_some, Option.some.injEq] at hb
      have hil := (List.getElem?_eq_some_iff.mp hb.symm).1
      refine ⟨r[k], x, by rw [List.getElem?_append_left hil]; exact hb.symm, hxl, ?_⟩
      have := h1 k _ hkp (List.getElem?_eq_getElem hkr)
      rcases lt_or_eq_of_le this with h | h
      · exact Or.inl h
      · exact Or.inr ⟨h.symm, hil⟩
    · simp at hk
  -- entries behind the place
  have hB : ∀ i ∈ is.drop p, Before (l ++ [x]) l.length i := by
    intro i hi
    obtain ⟨k, hk⟩ := List.getElem?_of_mem hi
    rw [List.getElem?_drop] at hk
    have hb := B.get (p + k)
    rw [hk] at hb
    have hkl := (List.getElem?_eq_some_iff.mp hk).1
    have hkr : p + k < r.length := by omega
    rw [List.getElem?_eq_getElem hkr] at hb
    simp only [Option.map_some, Option.some.injEq] at hb
    have hil := (List.getElem?_eq_some_iff.mp hb.symm).1
    refine ⟨x, r[p + k], hxl, by rw [List.getElem?_append_left hil]; exact hb.symm, Or.inl ?_⟩
    have hpr : p < r.length := by omega
    have h3 := h2 _ (List.getElem?_eq_getElem hpr)
    by_cases hk0 : k = 0
    · subst hk0; simpa using h3
    · have := (List.pairwise_iff_getElem.mp B.desc) p (p + k) hpr hkr (by omega)
      exact lt_of_le_of_lt this h3
  have hJ : (is.take p ++ l.length :: is.drop p).Pairwise (Before (l ++ [x])) := by
    have hpw : is.Pairwise (Before (l ++ [x])) := B.pw.imp (before_append x)
    have : (is.take p ++ is.drop p).Pairwise (Before (l ++ [x])) := by rw [List.take_append_drop]; exact hpw
    rw [List.pairwise_append] at this ⊢
    obtain ⟨g1, g2, g3⟩ := this
    refine ⟨g1, List.pairwise_cons.mpr ⟨hB, g2⟩, ?_⟩
    intro a ha b hb
    rcases List.mem_cons.mp hb with rfl | hb
    · exact hA a ha
    · exact g3 a ha b hb
  have hmem : ∀ i, i ∈ is.take p ++ l.length :: is.drop p ↔ i ∈ is ∨ i = l.length := by
    intro i
    rw [List.mem_append, List.mem_cons]
    have hsp : i ∈ is ↔ i ∈ is.take p ∨ i ∈ is.drop p := by
      rw [← List.mem_append, List.take_append_drop]
    rw [hsp]
    constructor
    · rintro (h | h | h)
      · exact Or.inl (Or.inl h)
      · exact Or.inr h
      · exact Or.inl (Or.inr h)
    · rintro ((h | h) | h)
      · exact Or.inl h
      · exact Or.inr (Or.inr h)
      · exact Or.inr (Or.inl h)
  have hlenJ : (is.take p ++ l.length :: is.drop p).length = is.length + 1 := by simp; omega
  have hlr := B.len
  refine ⟨?_, ?_, ?_, hJ.sublist (List.take_sublist _ _), ?_, ?_⟩
  · rw [inserted]; simp; omega
  · rw [inserted, List.map_take, List.map_take]
    congr 1
    rw [List.map_append, List.map_append, List.map_cons, List.map_cons, hxl, List.map_take, List.map_drop, B.val,
      ← List.map_take, ← List.map_drop]
    congr 1
    · apply List.map_congr_left
      intro i hi
      rw [List.getElem?_append_left (B.lt i (List.mem_of_mem_take hi))]
    · congr 1
      apply List.map_congr_left
      intro i hi
      rw [List.getElem?_append_left (B.lt i (List.mem_of_mem_drop hi))]
  · intro i hi
    rcases (hmem i).mp (List.mem_of_mem_take hi) with h | h
    · have := B.lt i h; simp; omega
    · simp; omega
  · intro j hj hnot i hi
    by_cases hjJ : j ∈ is.take p ++ l.length :: is.drop p
    · -- behind the first `m`
      rw [← List.take_append_drop m (is.take p ++ l.length :: is.drop p), List.pairwise_append] at hJ
      have : j ∈ (is.take p ++ l.length :: is.drop p).drop m := by
        rw [← List.take_append_drop m (is.take p ++ l.length :: is.drop p), List.mem_append] at hjJ
        exact hjJ.resolve_left hnot
      exact hJ.2.2 i hi j this
    · rw [hmem, not_or] at hjJ
      have hjl : j < l.length := by simp at hj; omega
      rcases (hmem i).mp (List.mem_of_mem_take hi) with h | h
      · exact before_append x (B.rest j hjl hjJ.1 i h)
      · subst h
        have hml : m < l.length := by
          rcases Nat.lt_or_ge m l.length with h | h
          · exact h
          · exact absurd (B.all h j hjl) hjJ.1
        -- the new entry is among the first `m`, so it stands before some old one
        have hpm : p < is.length := by
          rcases Nat.lt_or_ge p is.length with h | h
          · exact h
          · exfalso
            have hism : is.length = m := by omega
            rw [List.take_of_length_le h, List.take_append, List.take_of_length_le (by omega), hism, Nat.sub_self,
              List.take_zero, List.append_nil] at hi
            have := B.lt _ hi
            omega
        have hmemp : is[p] ∈ is.drop p := by
          rw [List.drop_eq_getElem_cons hpm]; exact List.mem_cons_self ..
        exact before_trans (hB _ hmemp) (before_append x (B.rest j hjl hjJ.1 _ (List.getElem_mem _)))
  · intro hle j hj
    simp only [List.length_append, List.length_singleton] at hle hj
    rw [List.take_of_length_le (by omega), hmem]
    by_cases hjl : j = l.length
    · exact Or.inr hjl
    · exact Or.inl (B.all (by omega) j (by omega))

theorem addAll_ok {m : Nat} (h2 : 2 ≤ m) (hc : ∀ n, n ≤ m → castInt n = n)
    (hw : ∀ n, n ≤ m → endOf m n = ((if m - 2 ≤ n - 1 then m - 2 else n - 1 : Nat) : Int)) : ∀ (es l : List (α × T)) (t : Top α T) (r : List (α × T))
    (is : List Nat), Ok t m r → Best m l r is →
    ∃ t' r' is', addAll t es = .ok t' ∧ Ok t' m r' ∧ Best m (l ++ es) r' is' := by
  intro es
  induction es with
  | nil => intro l t r is H B; exact ⟨t, r, is, rfl, H, by simpa using B⟩
  | cons e es ih =>
    intro l t r is H B
    obtain ⟨t1, p, e1, hp, g1, g2, H1⟩ := add_ok h2 hc hw H B.desc e.1 e.2
    have B1 := B.step (by omega) hp g1 g2
    obtain ⟨t2, r2, is2, e2, H2, B2⟩ := ih (l ++ [e]) t1 _ _ H1 B1
    exact ⟨t2, r2, is2, by rw [addAll, e1, Res.ok_bind, e2], H2, by simpa using B2⟩

end Verif.TopScore
