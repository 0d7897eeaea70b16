import Verif.Spec.TfIdfCopy
set_option linter.unusedSimpArgs false

/-! # C140: copies of `TfIdf` objects -/
namespace Verif.Props.TfIdfCopy
open Verif Verif.TfIdf Verif.TfIdfCopy Verif.Spec.TfIdfCopy

theorem upd_same {α : Type} (f : Nat → α) (i : Nat) (x : α) : upd f i x i = x := by simp [upd]
theorem upd_ne {α : Type} (f : Nat → α) {i k : Nat} (x : α) (h : k ≠ i) : upd f i x k = f k := by simp [upd, h]

/-- Every object has a buffer of its own, and its pointer is null or points to its last document. -/
structure Inv (st : St) : Prop where
  own : ∀ i x, st.objs i = some x → x.buf < st.next ∧ ∃ l, st.heap x.buf = some l ∧ ∀ p, x.cur = some p → p.1 = x.buf ∧ p.2 + 1 = l.length
  apart : ∀ i j x y, st.objs i = some x → st.objs j = some y → i ≠ j → x.buf ≠ y.buf

theorem put_ok {st st' : St} (hi : Inv st) (i : Nat) (x : Obj) (l : List (List (Nat × Nat))) (ho : st'.objs = upd st.objs i (some x))
    (hf : ∀ j y, j ≠ i → st.objs j = some y → y.buf ≠ x.buf ∧ st'.heap y.buf = st.heap y.buf) (hl : st'.heap x.buf = some l)
    (hc : ∀ p, x.cur = some p → p.1 = x.buf ∧ p.2 + 1 = l.length) (hb : x.buf < st'.next) (hn : st.next ≤ st'.next) :
    Inv st' ∧ st'.objs i = some x ∧ view st' i = some ⟨x.word2id, x.id2word, x.df, l, x.cur.isSome, x.set⟩ ∧
      (∀ k, k ≠ i → view st' k = view st k) := by
  have hx : st'.objs i = some x := by rw [ho, upd_same]
  have hk : ∀ k, k ≠ i → st'.objs k = st.objs k := fun k h => by rw [ho, upd_ne _ _ h]
  refine ⟨⟨fun j y hy => ?_, fun j k y z hy hz hjk => ?_⟩, hx, by simp [view, hx, hl], fun k h => ?_⟩
  · by_cases hj : j = i
    · subst hj; rw [hx] at hy; injection hy with hy; subst hy; exact ⟨hb, l, hl, hc⟩
    · rw [hk j hj] at hy
      obtain ⟨a, m, b, c⟩ := hi.own j y hy
      exact ⟨by omega, m, by rw [(hf j y hj hy).2, b], c⟩
  · by_cases hj : j = i
    · have hk' : k ≠ i := fun q => hjk (hj.trans q.symm)
      subst hj; rw [hx] at hy; injection hy with hy; subst hy
      rw [hk k hk'] at hz
      exact fun q => (hf k z hk' hz).1 q.symm
    · rw [hk j hj] at hy
      by_cases hk' : k = i
      · subst hk'; rw [hx] at hz; injection hz with hz; subst hz
        exact (hf j y hj hy).1
      · rw [hk k hk'] at hz; exact hi.apart j k y z hy hz hjk
  · simp only [view, hk k h]
    cases hy : st.objs k with
    | none => rfl
    | some y => dsimp only; rw [(hf k y h hy).2]

theorem view_some {st : St} {i : Nat} {t : TfIdf.TfIdf} (h : view st i = some t) :
    ∃ x, st.objs i = some x ∧ st.heap x.buf = some t.tf ∧ t = ⟨x.word2id, x.id2word, x.df, t.tf, x.cur.isSome, x.set⟩ := by
  unfold view at h
  cases hx : st.objs i with
  | none => simp [hx] at h
  | some x =>
    simp only [hx] at h
    cases hl : st.heap x.buf with
    | none => simp [hl] at h
    | some l => simp only [hl, Option.some.injEq] at h; subst h; exact ⟨x, rfl, hl, rfl⟩

theorem view_none {st : St} (hi : Inv st) {i : Nat} (h : view st i = none) : st.objs i = none := by
  cases hx : st.objs i with
  | none => rfl
  | some x => obtain ⟨_, l, hl, _⟩ := hi.own i x hx; simp [view, hx, hl] at h

/-- The objects are as the values say. -/
def Rel (st : St) (V : Vals) : Prop := Inv st ∧ ∀ k, view st k = V k

theorem rel_put {st' st : St} {V : Vals} {i : Nat} {t : TfIdf.TfIdf} (hV : ∀ k, view st k = V k) (hi : Inv st') (h1 : view st' i = some t)
    (h2 : ∀ k, k ≠ i → view st' k = view st k) : Rel st' (put V i (some t)) :=
  ⟨hi, fun k => by by_cases h : k = i <;> simp [put, h, h1, h2, hV]⟩

theorem set_last (l : List (List (Nat × Nat))) (k id : Nat) (h : k + 1 = l.length) (h' : k < l.length) :
    l.set k (incMap l[k] id) = l.dropLast ++ (l.getLast?.map (fun m => incMap m id)).toList := by
  have hne : l ≠ [] := by intro q; simp [q] at h
  obtain ⟨a, m, rfl⟩ : ∃ a m, l = a ++ [m] := ⟨l.dropLast, l.getLast hne, (List.dropLast_concat_getLast hne).symm⟩
  have hk : k = a.length := by simp at h; omega
  subst hk
  simp

theorem append_ok {st : St} {V : Vals} (h : Rel st V) {i : Nat} {w : Word} {re : Bool} {t t' : TfIdf.TfIdf} (hv : V i = some t)
    (ha : t.append w = .ok t') : ∃ st', append st i w re = .ok st' ∧ Rel st' (put V i (some t')) := by
  obtain ⟨hi, hV⟩ := h
  obtain ⟨x, hx, hl, ht⟩ := view_some ((hV i).trans hv)
  obtain ⟨hxn, l, hl', hc⟩ := hi.own i x hx
  have : l = t.tf := by rw [hl] at hl'; injection hl' with q; exact q.symm
  subst this
  have hw : t.word2id = x.word2id := by rw [ht]
  unfold TfIdf.append at ha
  rw [hw] at ha
  simp only [append, hx]
  cases hfd : find x.word2id (lower w) with
  | none =>
    simp only [hfd] at ha ⊢
    injection ha with ha; subst ha
    exact ⟨st, rfl, hi, fun k => by by_cases q : k = i <;> simp [put, q, hV, hv]⟩
  | some id =>
    simp only [hfd] at ha ⊢
    -- the document is open now
    have hopen : ∃ st1 x1 l1 k, openDoc st i x re = .ok (st1, (x1.buf, k)) ∧ Inv st1 ∧ st1.objs i = some x1 ∧ st1.heap x1.buf = some l1 ∧
        k + 1 = l1.length ∧ x1 = { x with buf := x1.buf, cur := some (x1.buf, k) } ∧ (∀ k, k ≠ i → view st1 k = view st k) ∧
        l1.dropLast ++ (l1.getLast?.map (fun m => incMap m id)).toList = t.countTf id := by
      have ho : t.open = x.cur.isSome := by rw [ht]
      cases hcur : x.cur with
      | some p =>
        obtain ⟨p1, p2⟩ := hc p hcur
        obtain ⟨pb, pk⟩ := p
        dsimp only at p1 p2
        subst p1
        refine ⟨st, x, t.tf, pk, by simp [openDoc, hcur], hi, hx, hl, p2, ?_, fun _ _ => rfl, ?_⟩
        · obtain ⟨a, b, c, d, e, f⟩ := x; dsimp only at hcur; rw [hcur]
        · rw [TfIdf.countTf, ho, hcur]; rfl
      | none =>
        let b := if re then st.next else x.buf
        let x1 : Obj := { x with buf := b, cur := some (b, t.tf.length) }
        let st1 : St := ⟨upd (if re then upd st.heap x.buf none else st.heap) b (some (t.tf ++ [[]])), upd st.objs i (some x1),
          if re then st.next + 1 else st.next⟩
        have hs : openDoc st i x re = .ok (st1, (x1.buf, t.tf.length)) := by simp only [openDoc, hcur, hl]; rfl
        have hp := put_ok (st' := st1) hi i x1 (t.tf ++ [[]]) rfl (fun j y hj hy => by
            have h1 := (hi.own j y hy).1
            have h2 := hi.apart j i y x hy hx hj
            cases re
            · exact ⟨h2, by simp [st1, b, upd, h2]⟩
            · have h3 : y.buf ≠ st.next := by omega
              exact ⟨h3, by simp [st1, b, upd, h2, h3]⟩) (by simp [st1, x1, upd]) (by simp [x1]) (by
            cases re <;> simp [st1, x1, b] <;> omega) (by simp only [st1]; split <;> omega)
        refine ⟨st1, x1, t.tf ++ [[]], t.tf.length, hs, hp.1, hp.2.1, by simp [st1, x1, upd], by simp, rfl, hp.2.2.2, ?_⟩
        rw [TfIdf.countTf, ho, hcur]; simp
    obtain ⟨st1, x1, l1, k, e1, i1, o1, hp1, hk1, hx1, v1, ht1⟩ := hopen
    have hkl : k < l1.length := by omega
    let st2 : St := { st1 with heap := upd st1.heap x1.buf (some (l1.set k (incMap l1[k] id))) }
    have e2 : countTf st1 (x1.buf, k) id = .ok st2 := by simp only [countTf, hp1, at?_eq_ok hkl, Res.ok_bind]; rfl
    obtain ⟨i2, o2, w2, v2⟩ := put_ok (st := st1) (st' := st2) i1 i x1 (l1.set k (incMap l1[k] id)) (by
        funext q; by_cases hq : q = i <;> simp [st2, upd, hq, o1]) (fun j y hj hy => by
        have h2 := i1.apart j i y x1 hy o1 hj
        exact ⟨h2, by simp [st2, upd, h2]⟩) (by simp [st2, upd]) (by
        intro p hp; rw [hx1] at hp; simp at hp; subst hp; simp [hk1]) (i1.own i x1 o1).1 (Nat.le_refl _)
    rw [e1, Res.ok_bind]
    dsimp only
    rw [e2, Res.ok_bind]
    rw [set_last l1 k id hk1 hkl, ht1] at w2
    have h3 : st2.heap x1.buf = some (t.countTf id) := by
      obtain ⟨z, q1, q2, _⟩ := view_some w2
      rw [o2] at q1; injection q1 with q1; subst q1; exact q2
    -- the set and the number of documents
    have hset : x1.set = t.set := by rw [hx1, ht]
    have hdf : x1.df = t.df := by rw [hx1, ht]
    have hwd : x1.word2id = t.word2id := by rw [hx1, ht]
    have hid : x1.id2word = t.id2word := by rw [hx1, ht]
    have hcr : x1.cur.isSome = true := by rw [hx1]; rfl
    simp only [TfIdf.countDf] at ha
    have hcd : countDf st2 i (lower w) id = if (setInsert x1.set (lower w)).2 then (do
      let df ← inc x1.df id
      return { st2 with objs := upd st2.objs i (some { x1 with set := (setInsert x1.set (lower w)).1, df := df }) }) else .ok st2 := by
      simp only [countDf, o2]
    rw [hcd, hset, hdf]
    by_cases hnew : (setInsert t.set (lower w)).2 = true
    · simp only [hnew, if_true] at ha ⊢
      rw [Res.bind_eq_ok] at ha
      obtain ⟨df, hd, ha⟩ := ha
      injection ha with ha; subst ha
      simp only [hd, Res.ok_bind, Res.pure_eq]
      let x3 : Obj := { x1 with set := (setInsert t.set (lower w)).1, df := df }
      let st3 : St := { st2 with objs := upd st2.objs i (some x3) }
      obtain ⟨i3, o3, w3, v3⟩ := put_ok (st := st2) (st' := st3) i2 i x3 (t.countTf id) rfl (fun j y hj hy => ⟨i2.apart j i y x1 hy o2 hj, rfl⟩)
        h3 (by
          intro p hp
          obtain ⟨_, l2, hl2, hc2⟩ := i2.own i x1 o2
          rw [h3] at hl2; injection hl2 with hl2; subst hl2
          exact hc2 p hp) (i2.own i x1 o2).1 (Nat.le_refl _)
      refine ⟨st3, rfl, rel_put hV i3 ?_ fun q hq => by rw [v3 q hq, v2 q hq, v1 q hq]⟩
      rw [w3]
      simp only [x3, hwd, hid, hcr, hw]
    · simp only [hnew, if_false] at ha ⊢
      injection ha with ha; subst ha
      refine ⟨st2, rfl, rel_put hV i2 ?_ fun q hq => by rw [v2 q hq, v1 q hq]⟩
      rw [w2]
      simp only [hwd, hid, hcr, hset, hdf, hw]

theorem step_ok {st : St} {V W : Vals} (h : Rel st V) {op : Op} (hb : Between V op) (hs : VStep V op W) : ∃ st', step st op = .ok st' ∧ Rel st' W := by
  obtain ⟨hi, hV⟩ := h
  cases hs with
  | @create i keys hn =>
    have ho := view_none hi ((hV i).trans hn)
    let x : Obj := ⟨(loadLoop keys [] []).1, (loadLoop keys [] []).2, List.replicate (loadLoop keys [] []).2.length 0, st.next, none, []⟩
    let st' : St := ⟨upd st.heap st.next (some []), upd st.objs i (some x), st.next + 1⟩
    have e : step st (.create i keys) = .ok st' := by simp only [step, create, ho]; rfl
    obtain ⟨i1, _, w1, v1⟩ := put_ok (st' := st') hi i x [] rfl (fun j y hj hy => by
      have := (hi.own j y hy).1
      exact ⟨by show y.buf ≠ st.next; omega, upd_ne _ _ (by omega)⟩) (upd_same _ _ _) (by simp [x]) (Nat.lt_succ_self _) (Nat.le_succ _)
    exact ⟨st', e, rel_put hV i1 (by rw [w1]; rfl) v1⟩
  | append h1 h2 => exact append_ok ⟨hi, hV⟩ h1 h2
  | @endDoc i t h1 =>
    obtain ⟨x, hx, hl, ht⟩ := view_some ((hV i).trans h1)
    let x' : Obj := { x with cur := none, set := [] }
    let st' : St := { st with objs := upd st.objs i (some x') }
    have e : step st (.endDoc i) = .ok st' := by simp only [step, endDoc, hx]; rfl
    obtain ⟨i1, _, w1, v1⟩ := put_ok (st' := st') hi i x' t.tf rfl (fun j y hj hy => ⟨hi.apart j i y x hy hx hj, rfl⟩) hl (by simp [x'])
      (hi.own i x hx).1 (Nat.le_refl _)
    exact ⟨st', e, rel_put hV i1 (by rw [w1, TfIdf.endDoc, ht]; rfl) v1⟩
  | @copy i j t h1 h2 =>
    obtain ⟨x, hx, hl, ht⟩ := view_some ((hV i).trans h1)
    have ho := view_none hi ((hV j).trans h2)
    have hc : x.cur = none := by
      have := hb t h1; rw [ht] at this; simpa using this
    let x' : Obj := { x with buf := st.next }
    let st' : St := ⟨upd st.heap st.next (some t.tf), upd st.objs j (some x'), st.next + 1⟩
    have e : step st (.copy i j) = .ok st' := by simp only [step, copy, hx, ho, hl]; rfl
    obtain ⟨i1, _, w1, v1⟩ := put_ok (st' := st') hi j x' t.tf rfl (fun k y hk hy => by
      have := (hi.own k y hy).1
      exact ⟨by show y.buf ≠ st.next; omega, upd_ne _ _ (by omega)⟩) (upd_same _ _ _) (by simp [x', hc]) (Nat.lt_succ_self _) (Nat.le_succ _)
    exact ⟨st', e, rel_put hV i1 (by rw [w1]; simp only [x']; rw [← ht]) v1⟩
  | @assign i j re t u h1 h2 =>
    obtain ⟨x, hx, hl, ht⟩ := view_some ((hV i).trans h1)
    obtain ⟨y, hy, hl2, hu⟩ := view_some ((hV j).trans h2)
    have hc : x.cur = none := by
      have := hb t h1; rw [ht] at this; simpa using this
    by_cases hij : i = j
    · subst hij
      refine ⟨st, by simp only [step, assign, hx]; rw [if_pos trivial], hi, fun k => ?_⟩
      by_cases q : k = i <;> simp [put, q, hV, h1]
    · let b := if re then st.next else y.buf
      let x' : Obj := { x with buf := b }
      let st' : St := ⟨upd (if re then upd st.heap y.buf none else st.heap) b (some t.tf), upd st.objs j (some x'),
        if re then st.next + 1 else st.next⟩
      have e : step st (.assign i j re) = .ok st' := by simp only [step, assign, hx, hy, hl]; rw [if_neg hij]
      obtain ⟨i1, _, w1, v1⟩ := put_ok (st' := st') hi j x' t.tf rfl (fun k z hk hz => by
        have h1 := (hi.own k z hz).1
        have h2 := hi.apart k j z y hz hy hk
        cases re
        · exact ⟨h2, by simp [st', b, upd, h2]⟩
        · have h3 : z.buf ≠ st.next := by omega
          exact ⟨h3, by simp [st', b, upd, h2, h3]⟩) (upd_same _ _ _) (by simp [x', hc])
        (by have := (hi.own j y hy).1; cases re <;> simp [st', x', b] <;> omega) (by simp only [st']; split <;> omega)
      exact ⟨st', e, rel_put hV i1 (by rw [w1]; simp only [x']; rw [← ht]) v1⟩
  | @destroy i t h1 =>
    obtain ⟨x, hx, hl, ht⟩ := view_some ((hV i).trans h1)
    have hne : ∀ k y, k ≠ i → st.objs k = some y → upd st.heap x.buf none y.buf = st.heap y.buf := fun k y hk hy =>
      upd_ne _ _ (hi.apart k i y x hy hx hk)
    refine ⟨{ st with heap := upd st.heap x.buf none, objs := upd st.objs i none }, by simp only [step, destroy, hx], ⟨?_, ?_⟩, ?_⟩
    · intro k y hy
      have hk : k ≠ i := by intro q; simp [upd, q] at hy
      simp only [upd, hk, if_false] at hy
      obtain ⟨a, l, b, c⟩ := hi.own k y hy
      exact ⟨a, l, by rw [← b]; exact hne k y hk hy, c⟩
    · intro k j y z hy hz hkj
      have hk : k ≠ i := by intro q; simp [upd, q] at hy
      have hj : j ≠ i := by intro q; simp [upd, q] at hz
      simp only [upd, hk, hj, if_false] at hy hz
      exact hi.apart k j y z hy hz hkj
    · intro k
      by_cases hk : k = i
      · simp [view, put, upd, hk]
      · simp only [view, put, if_neg hk, upd_ne _ _ hk]
        rw [← hV k, view]
        cases hy : st.objs k with
        | none => rfl
        | some y => dsimp only; rw [hne k y hk hy]

theorem run_ok : ∀ {ops : List Op} {st : St} {V W : Vals}, Rel st V → VRun V ops W → ∃ st', run st ops = .ok st' ∧ Rel st' W := by
  intro ops
  induction ops with
  | nil => intro st V W h r; cases r; exact ⟨st, rfl, h⟩
  | cons op ops ih =>
    intro st V W h r
    cases r with
    | cons h1 h2 h3 =>
      obtain ⟨st1, e1, r1⟩ := step_ok h h1 h2
      obtain ⟨st2, e2, r2⟩ := ih r1 h3
      exact ⟨st2, by rw [run, e1, Res.ok_bind, e2], r2⟩

theorem run_append {a b : List Op} {s s1 : St} (h : run s a = .ok s1) : run s (a ++ b) = run s1 b := by
  induction a generalizing s with
  | nil => simp [run] at h; subst h; rfl
  | cons o a ih =>
    rw [run, Res.bind_eq_ok] at h
    obtain ⟨s', q1, q2⟩ := h
    rw [List.cons_append, run, q1, Res.ok_bind, ih q2]

theorem rel_empty : Rel empty (fun _ => none) := ⟨⟨fun i x h => by simp [empty] at h, fun i j x y h => by simp [empty] at h⟩, fun k => rfl⟩

/-- C140.  In every program that copies `TfIdf` objects only between documents, each object is a value of its own: it has the counts its own calls
and those inherited with a copy give, whatever is done to the others, and nothing undefined happens. -/
theorem C140_values (ops : List Op) (W : Vals) (h : VRun (fun _ => none) ops W) : ∃ st, run empty ops = .ok st ∧ ∀ k, view st k = W k := by
  obtain ⟨st, e, _, hv⟩ := run_ok rel_empty h
  exact ⟨st, e, hv⟩

/-- C140.  A copy made in the middle of a document whose document is ended at once is a value of its own too. -/
theorem C140_end_at_once (ops : List Op) (W : Vals) (h : VRun (fun _ => none) ops W) (i j : Nat) (t : TfIdf.TfIdf) (hi : W i = some t) (hj : W j = none)
    (more : List Op) (X : Vals) (h2 : VRun (put W j (some t.endDoc)) more X) :
    ∃ st, run empty (ops ++ .copy i j :: .endDoc j :: more) = .ok st ∧ ∀ k, view st k = X k := by
  obtain ⟨st, e, hinv, hV⟩ := run_ok rel_empty h
  obtain ⟨x, hx, hl, ht⟩ := view_some ((hV i).trans hi)
  have ho := view_none hinv ((hV j).trans hj)
  let x' : Obj := { x with buf := st.next, cur := none, set := [] }
  let st1 : St := ⟨upd st.heap st.next (some t.tf), upd st.objs j (some { x with buf := st.next }), st.next + 1⟩
  let st2 : St := { st1 with objs := upd st1.objs j (some x') }
  have e1 : step st (.copy i j) = .ok st1 := by simp only [step, copy, hx, ho, hl]; rfl
  have e2 : step st1 (.endDoc j) = .ok st2 := by simp only [step, endDoc, st1, upd_same]; rfl
  have hobj : st2.objs = upd st.objs j (some x') := by
    funext k; by_cases hk : k = j <;> simp [st2, st1, upd, hk]
  obtain ⟨i1, _, w1, v1⟩ := put_ok (st' := st2) hinv j x' t.tf hobj (fun k y hk hy => by
    have := (hinv.own k y hy).1
    exact ⟨by show y.buf ≠ st.next; omega, upd_ne _ _ (by omega)⟩) (upd_same _ _ _) (by simp [x']) (Nat.lt_succ_self _) (Nat.le_succ _)
  have hr : Rel st2 (put W j (some t.endDoc)) := rel_put hV i1 (by rw [w1, TfIdf.endDoc, ht]; rfl) v1
  obtain ⟨st3, e3, _, hv⟩ := run_ok hr h2
  refine ⟨st3, ?_, hv⟩
  rw [run_append e, run, e1, Res.ok_bind, run, e2, Res.ok_bind, e3]

/-- Finding for C140.  In a copy made in the middle of a document, the next keyword is counted in the document of the source: the documents of the
source change though nothing is called on it, and those of the copy do not. -/
theorem C140_finding_source (ops : List Op) (W : Vals) (h : VRun (fun _ => none) ops W) (i j : Nat) (t : TfIdf.TfIdf) (hi : W i = some t)
    (hj : W j = none) (ho : t.open = true) (w : Word) (id : Nat) (hw : find t.word2id (lower w) = some id) (hs : lower w ∈ t.set) (re : Bool) :
    ∃ st u v, run empty (ops ++ [.copy i j, .append j w re]) = .ok st ∧ view st i = some u ∧ view st j = some v ∧ v.tf = t.tf ∧
      u.tf = t.tf.dropLast ++ (t.tf.getLast?.map (fun m => incMap m id)).toList ∧ u.tf ≠ t.tf := by
  obtain ⟨st, e, hinv, hV⟩ := run_ok rel_empty h
  obtain ⟨x, hx, hl, ht⟩ := view_some ((hV i).trans hi)
  have hon := view_none hinv ((hV j).trans hj)
  obtain ⟨hlt, l, hl', hc⟩ := hinv.own i x hx
  have : l = t.tf := by rw [hl] at hl'; injection hl' with q; exact q.symm
  subst this
  have hij : i ≠ j := by intro q; subst q; rw [hi] at hj; cases hj
  cases hcur : x.cur with
  | none => rw [ht] at ho; simp [hcur] at ho
  | some p =>
    obtain ⟨p1, p2⟩ := hc p hcur
    obtain ⟨pb, k⟩ := p
    dsimp only at p1 p2
    subst p1
    have hk : k < t.tf.length := by omega
    let y : Obj := { x with buf := st.next }
    let st1 : St := ⟨upd st.heap st.next (some t.tf), upd st.objs j (some y), st.next + 1⟩
    have e1 : step st (.copy i j) = .ok st1 := by simp only [step, copy, hx, hon, hl]; rfl
    have hne : x.buf ≠ st.next := by omega
    have hh : st1.heap x.buf = some t.tf := by simp [st1, upd, hne, hl]
    let st2 : St := { st1 with heap := upd st1.heap x.buf (some (t.tf.set k (incMap t.tf[k] id))) }
    have hw' : find y.word2id (lower w) = some id := by rw [← hw, ht]
    have hs' : (setInsert x.set (lower w)).2 = false := by
      have : lower w ∈ x.set := by rw [ht] at hs; exact hs
      simp [setInsert, this]
    have e2 : step st1 (.append j w re) = .ok st2 := by
      have hobj : st1.objs j = some y := upd_same _ _ _
      simp only [step, append, hobj, hw', openDoc, y, hcur, Res.ok_bind, countTf, hh, at?_eq_ok hk, Res.pure_eq]
      have : countDf st2 j (lower w) id = .ok st2 := by
        have hobj2 : st2.objs j = some y := upd_same _ _ _
        simp only [countDf, hobj2, y, hs', Bool.false_eq_true, if_false]
      exact this
    have hoi : st2.objs i = some x := by simp [st2, st1, upd, hij, hx]
    have hoj : st2.objs j = some y := upd_same _ _ _
    have hbi : st2.heap x.buf = some (t.tf.set k (incMap t.tf[k] id)) := upd_same _ _ _
    have hbj : st2.heap y.buf = some t.tf := by simp [st2, st1, y, upd, hne.symm]
    refine ⟨st2, _, _, by rw [run_append e, run, e1, Res.ok_bind, run, e2, Res.ok_bind]; rfl, by simp only [view, hoi, hbi]; rfl,
      by simp only [view, hoj, hbj]; exact congrArg some ht.symm, rfl, set_last _ _ _ p2 hk, ?_⟩
    intro q
    dsimp only at q
    have := congrArg (fun l => l[k]?) q
    simp only [List.getElem?_set_self hk, List.getElem?_eq_getElem hk, Option.some.injEq] at this
    have hm : ∀ m : List (Nat × Nat), incMap m id ≠ m := by
      intro m
      induction m with
      | nil => simp [incMap]
      | cons a m ih =>
        rw [incMap]
        split
        · intro q; injection q with q _; have := congrArg Prod.snd q; simp at this
        · intro q; injection q with _ q; exact ih q
    exact hm _ this

/-- Finding for C140.  If the source is destroyed first, the next keyword in such a copy is undefined behaviour. -/
theorem C140_finding_source_gone (ops : List Op) (W : Vals) (h : VRun (fun _ => none) ops W) (i j : Nat) (t : TfIdf.TfIdf) (hi : W i = some t)
    (hj : W j = none) (ho : t.open = true) (w : Word) (id : Nat) (hw : find t.word2id (lower w) = some id) (re : Bool) :
    run empty (ops ++ [.copy i j, .destroy i, .append j w re]) = .ub := by
  obtain ⟨st, e, hinv, hV⟩ := run_ok rel_empty h
  obtain ⟨x, hx, hl, ht⟩ := view_some ((hV i).trans hi)
  have hon := view_none hinv ((hV j).trans hj)
  obtain ⟨hlt, l, hl', hc⟩ := hinv.own i x hx
  have hij : i ≠ j := by intro q; subst q; rw [hi] at hj; cases hj
  cases hcur : x.cur with
  | none => rw [ht] at ho; simp [hcur] at ho
  | some p =>
    obtain ⟨p1, p2⟩ := hc p hcur
    obtain ⟨pb, k⟩ := p
    dsimp only at p1 p2
    subst p1
    let y : Obj := { x with buf := st.next }
    let st1 : St := ⟨upd st.heap st.next (some t.tf), upd st.objs j (some y), st.next + 1⟩
    have e1 : step st (.copy i j) = .ok st1 := by simp only [step, copy, hx, hon, hl]; rfl
    let st2 : St := { st1 with heap := upd st1.heap x.buf none, objs := upd st1.objs i none }
    have e2 : step st1 (.destroy i) = .ok st2 := by
      have hoi : st1.objs i = some x := by simp [st1, upd, hij, hx]
      simp only [step, destroy, hoi]; rfl
    have e3 : step st2 (.append j w re) = .ub := by
      have hoj : st2.objs j = some y := by simp [st2, st1, upd, Ne.symm hij]
      have hw' : find y.word2id (lower w) = some id := by rw [← hw, ht]
      have hh : st2.heap x.buf = none := upd_same _ _ _
      simp only [step, append, hoj, hw', openDoc, y, hcur, Res.ok_bind, countTf, hh, Res.ub_bind]
    rw [run_append e, run, e1, Res.ok_bind, run, e2, Res.ok_bind, run, e3, Res.ub_bind]

/-! ## Cases -/

example : ∃ W, VRun (fun _ => none) [.create 0 [[97], [98]], .append 0 [65] true, .endDoc 0, .copy 0 1, .append 1 [98] false, .destroy 0] W ∧
    W 0 = none ∧ (W 1).map (·.tf) = some [[(0, 1)], [(1, 1)]] :=
  ⟨_, .cons trivial (.create rfl) (.cons trivial (.append rfl rfl) (.cons trivial (.endDoc rfl) (.cons (by
    intro t h; injection h with h; subst h; rfl) (.copy rfl rfl) (.cons trivial (.append rfl rfl) (.cons trivial (.destroy rfl) .nil))))), rfl, by decide +kernel⟩
example : ∃ W t, VRun (fun _ => none) [.create 0 [[97], [98]], .append 0 [65] true] W ∧ W 0 = some t ∧ W 1 = none ∧ t.open = true ∧
    find t.word2id (lower [65]) = some 0 ∧ lower [65] ∈ t.set :=
  ⟨_, _, .cons trivial (.create rfl) (.cons trivial (.append rfl rfl) .nil), rfl, rfl, rfl, by decide +kernel, by decide +kernel⟩

#print axioms C140_values
#print axioms C140_end_at_once
#print axioms C140_finding_source
#print axioms C140_finding_source_gone

end Verif.Props.TfIdfCopy
