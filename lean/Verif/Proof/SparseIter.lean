import Verif.Proof.Sparse
set_option linter.unusedSimpArgs false
/-! Lemmas for C51 and C52: iterating, `Intersection`, `Union`, `InnerProduct`. -/
namespace Verif.Sparse
open Verif.Spec.Sparse

variable {P T : Type} [Lawful P]

/-- The vector holds the pairs `l`. -/
def VRep (s : SVec P T) (l : List (Nat × T)) : Prop :=
  Lawful.Rep s.posTbl (l.map Prod.fst) ∧ s.vec = l.map Prod.snd

/-- The vector holds the pairs `l`, its end can be read and it is not too long. -/
structure VReady (s : SVec P T) (l : List (Nat × T)) : Prop where
  rep : VRep s l
  ready : Lawful.Ready s.posTbl
  small : l.length < 2 ^ 30 - 1

/-- The iterator stands at index `i`. -/
def At (l : List (Nat × T)) (i : Nat) (c : PosTbl.Curr P) : Prop := Lawful.Iter (l.map Prod.fst) i c

theorem begin_ok {s : SVec P T} {l : List (Nat × T)} (h : VRep s l) (hs : l.length < 2 ^ 30 - 1) :
    ∃ s' c, s.begin = .ok (s', c) ∧ VReady s' l ∧ s'.vec = s.vec ∧ At l 0 c := by
  obtain ⟨t', c, e, h1, h2, h3⟩ := Lawful.first_ok h.1 (by simpa using hs)
  refine ⟨{ s with posTbl := t' }, c, ?_, ⟨⟨h1, h.2⟩, h2, hs⟩, rfl, h3⟩
  rw [SVec.begin, e]; rfl

theorem isEnd_ok {s : SVec P T} {l : List (Nat × T)} {i : Nat} {c : PosTbl.Curr P} (h : VRep s l) (ha : At l i c) :
    s.isEnd c = decide (i = l.length) := by
  rw [SVec.isEnd, h.2, (Lawful.vecPos_ok ha).1, List.length_map]
  by_cases hi : i = l.length <;> simp [hi]

theorem at_le {l : List (Nat × T)} {i : Nat} {c : PosTbl.Curr P} (ha : At l i c) : i ≤ l.length := by
  simpa using (Lawful.vecPos_ok ha).2

theorem pos_ok {s : SVec P T} {l : List (Nat × T)} {i : Nat} {c : PosTbl.Curr P} (h : VRep s l) (ha : At l i c)
    (hi : i < l.length) : s.pos c = .ok l[i].1 := by
  rw [SVec.pos, Lawful.get_ok h.1 ha (by simpa using hi)]
  simp

theorem val_ok {s : SVec P T} {l : List (Nat × T)} {i : Nat} {c : PosTbl.Curr P} (h : VRep s l) (ha : At l i c)
    (hi : i < l.length) : s.val c = .ok l[i].2 := by
  rw [SVec.val, (Lawful.vecPos_ok ha).1, h.2, at?_eq_ok (by simpa using hi)]
  simp

theorem next_ok {s : SVec P T} {l : List (Nat × T)} {i : Nat} {c : PosTbl.Curr P} (h : VReady s l) (ha : At l i c)
    (hi : i < l.length) : ∃ c', s.next c = .ok c' ∧ At l (i + 1) c' :=
  Lawful.next_ok h.rep.1 (by simpa using h.small) ha (by simpa using hi) (.inr h.ready)

theorem iterLoop_ok {s : SVec P T} {l : List (Nat × T)} (h : VReady s l) (fuel : Nat) : ∀ (i : Nat) (c : PosTbl.Curr P),
    At l i c → l.length - i < fuel → SVec.iterLoop fuel s c = .ok (l.drop i) := by
  induction fuel with
  | zero => intro i c _ h; omega
  | succ fuel ih =>
    intro i c ha hf
    rw [SVec.iterLoop, isEnd_ok h.rep ha]
    by_cases hi : i = l.length
    · simp [hi]
    · have hlt : i < l.length := by have := at_le ha; omega
      obtain ⟨c', e, ha'⟩ := next_ok h ha hlt
      simp only [hi, decide_false, Bool.false_eq_true, if_false, pos_ok h.rep ha hlt, val_ok h.rep ha hlt, e, Res.ok_bind]
      rw [ih (i + 1) c' ha' (by omega), Res.ok_bind, Res.pure_eq, List.drop_eq_getElem_cons hlt]

theorem iterate_ok {s : SVec P T} {l : List (Nat × T)} (h : VRep s l) (hs : l.length < 2 ^ 30 - 1) :
    ∃ s', s.iterate = .ok (l, s') ∧ VRep s' l := by
  obtain ⟨s', c, e, hr, hv, ha⟩ := begin_ok h hs
  refine ⟨s', ?_, hr.rep⟩
  rw [SVec.iterate, e]
  simp only [Res.ok_bind]
  rw [iterLoop_ok hr _ 0 c ha (by rw [hr.rep.2]; simp)]
  rfl

theorem push_ok {s : SVec P T} {l : List (Nat × T)} (h : VRep s l) (p : Nat) (x : T) (hp : p < 2 ^ 64) :
    ∃ b s', s.pushBack p x = .ok (b, s') ∧
      (Lawful.accepts P (l.map Prod.fst) p ∧ b = false ∧ VRep s' (l ++ [(p, x)]) ∨
        ¬ Lawful.accepts P (l.map Prod.fst) p ∧ b = true ∧ VRep s' l) := by
  obtain ⟨b, t', e, hx⟩ := Lawful.set_ok p hp h.1
  rw [SVec.pushBack, e]
  obtain ⟨h1, rfl, h2⟩ | ⟨h1, rfl, h2⟩ := hx
  · exact ⟨false, ⟨t', s.vec ++ [x]⟩, rfl, .inl ⟨h1, rfl, by simpa using h2, by simp [h.2]⟩⟩
  · exact ⟨true, { s with posTbl := t' }, rfl, .inr ⟨h1, rfl, h2, h.2⟩⟩

/-! ## `operator==` -/

theorem eqLoop_ok [DecidableEq T] {s1 s2 : SVec P T} {l1 l2 : List (Nat × T)} (h1 : VReady s1 l1) (h2 : VReady s2 l2)
    (hl : l1.length = l2.length) (fuel : Nat) : ∀ (i : Nat) (c1 c2 : PosTbl.Curr P), At l1 i c1 → At l2 i c2 →
    l1.length - i < fuel → SVec.eqLoop fuel s1 s2 c1 c2 = .ok (decide (l1.drop i = l2.drop i)) := by
  induction fuel with
  | zero => intro i c1 c2 _ _ h; omega
  | succ fuel ih =>
    intro i c1 c2 a1 a2 hf
    rw [SVec.eqLoop, isEnd_ok h1.rep a1]
    by_cases hi : i = l1.length
    · have e1 : l1.drop i = [] := List.drop_eq_nil_of_le (by omega)
      have e2 : l2.drop i = [] := List.drop_eq_nil_of_le (by omega)
      simp only [hi, decide_true, if_true]
      rw [← hi, e1, e2]; rfl
    · have hlt : i < l1.length := by have := at_le a1; omega
      have hlt2 : i < l2.length := by omega
      obtain ⟨c1', e1, a1'⟩ := next_ok h1 a1 hlt
      obtain ⟨c2', e2, a2'⟩ := next_ok h2 a2 hlt2
      simp only [hi, decide_false, Bool.false_eq_true, if_false, pos_ok h1.rep a1 hlt, pos_ok h2.rep a2 hlt2, val_ok h1.rep a1 hlt,
        val_ok h2.rep a2 hlt2, e1, e2, Res.ok_bind, List.drop_eq_getElem_cons hlt, List.drop_eq_getElem_cons hlt2, List.cons.injEq]
      by_cases hp : l1[i].1 = l2[i].1
      · by_cases hv : l1[i].2 = l2[i].2
        · have : l1[i] = l2[i] := Prod.ext hp hv
          simp only [this, ne_eq, not_true, if_false, true_and]
          exact ih (i + 1) c1' c2' a1' a2' (by omega)
        · have : l1[i] ≠ l2[i] := fun h => hv (by rw [h])
          simp [hp, hv, this]
      · have : l1[i] ≠ l2[i] := fun h => hp (by rw [h])
        simp [hp, this]

/-! ## Intersection -/

variable {P1 P2 T1 T2 : Type} [Lawful P1] [Lawful P2]

/-- The common positions. -/
def inter (A : List (Nat × T1)) (B : List (Nat × T2)) : List (Nat × T1 × T2) :=
  A.filterMap (fun a => (B.find? (fun b => b.1 == a.1)).map (fun b => (a.1, a.2, b.2)))

theorem find_none_of_lt {B : List (Nat × T2)} {p : Nat} (h : ∀ b ∈ B, p < b.1) : B.find? (fun b => b.1 == p) = none := by
  rw [List.find?_eq_none]
  intro b hb
  have := h b hb
  simp; omega

theorem inter_lt (a : Nat × T1) (A : List (Nat × T1)) (B : List (Nat × T2)) (h : ∀ b ∈ B, a.1 < b.1) :
    inter (a :: A) B = inter A B := by
  rw [inter, List.filterMap_cons, find_none_of_lt h]
  rfl

theorem inter_gt (A : List (Nat × T1)) (b : Nat × T2) (B : List (Nat × T2)) (h : ∀ a ∈ A, b.1 < a.1) :
    inter A (b :: B) = inter A B := by
  induction A with
  | nil => rfl
  | cons a A ih =>
    have h1 := h a (by simp)
    have h2 := ih (fun a ha => h a (by simp [ha]))
    rw [inter] at h2 ⊢
    rw [List.filterMap_cons, h2, List.find?_cons_of_neg (by simp; omega)]
    rfl

theorem inter_eq (a : Nat × T1) (A : List (Nat × T1)) (b : Nat × T2) (B : List (Nat × T2)) (h : a.1 = b.1) :
    inter (a :: A) (b :: B) = (a.1, a.2, b.2) :: inter A (b :: B) := by
  rw [inter, List.filterMap_cons, List.find?_cons_of_pos (by simp [h])]
  rfl

theorem inter_nil_left (B : List (Nat × T2)) : inter ([] : List (Nat × T1)) B = [] := rfl

theorem inter_nil_right (A : List (Nat × T1)) : inter A ([] : List (Nat × T2)) = [] := by
  rw [inter]
  simp

theorem asc_tail {A : List (Nat × T)} (h : Ascending A) (i : Nat) (hi : i < A.length) :
    ∀ b ∈ A.drop (i + 1), A[i].1 < b.1 := by
  have := h.drop (i := i)
  rw [List.drop_eq_getElem_cons hi] at this
  exact (List.pairwise_cons.1 this).1

theorem asc_ge {A : List (Nat × T)} (h : Ascending A) (i : Nat) (hi : i < A.length) :
    ∀ b ∈ A.drop i, A[i].1 ≤ b.1 := by
  intro b hb
  rw [List.drop_eq_getElem_cons hi, List.mem_cons] at hb
  obtain rfl | hb := hb
  · omega
  · have := asc_tail h i hi b hb; omega

section Inter
variable {s1 : SVec P1 T1} {s2 : SVec P2 T2} {l1 : List (Nat × T1)} {l2 : List (Nat × T2)}

/-- The state of an iterator that is not at its end. -/
structure IAt (l1 : List (Nat × T1)) (l2 : List (Nat × T2)) (i j : Nat) (it : IIter P1 P2) : Prop where
  a1 : At l1 i it.b1
  a2 : At l2 j it.b2
  run : it.isEnd = false
  h1 : i < l1.length
  h2 : j < l2.length

theorem while1_ok (r1 : VReady s1 l1) (r2 : VReady s2 l2) (o1 : Ascending l1) (o2 : Ascending l2) (fuel : Nat) :
    ∀ (i j : Nat) (it : IIter P1 P2), (ia : IAt l1 l2 i j it) → l1.length - i < fuel + 1 →
    ∃ it', IIter.while1 s1 s2 fuel it = .ok it' ∧
      (it'.isEnd = true ∧ inter (l1.drop i) (l2.drop j) = [] ∨
       ∃ i', IAt l1 l2 i' j it' ∧ (∀ h h', (l2[j]'h).1 ≤ (l1[i']'h').1) ∧ i ≤ i' ∧
        inter (l1.drop i) (l2.drop j) = inter (l1.drop i') (l2.drop j)) := by
  induction fuel with
  | zero => intro i j it ia h; have := ia.h1; omega
  | succ fuel ih =>
    intro i j it ia hf
    have h1 := ia.h1
    have h2 := ia.h2
    obtain ⟨c', e, ha'⟩ := next_ok r1 ia.a1 ia.h1
    rw [IIter.while1]
    simp only [pos_ok r1.rep ia.a1 ia.h1, pos_ok r2.rep ia.a2 ia.h2, Res.ok_bind]
    by_cases hlt : l1[i].1 < l2[j].1
    · rw [if_pos hlt]
      simp only [e, Res.ok_bind, isEnd_ok r1.rep ha']
      have hi : inter (l1.drop i) (l2.drop j) = inter (l1.drop (i + 1)) (l2.drop j) := by
        rw [List.drop_eq_getElem_cons ia.h1]
        refine inter_lt _ _ _ (fun b hb => ?_)
        have := asc_ge o2 j ia.h2 b hb
        omega
      by_cases hend : i + 1 = l1.length
      · rw [if_pos (by simp [hend])]
        refine ⟨_, rfl, .inl ⟨rfl, ?_⟩⟩
        rw [hi, List.drop_eq_nil_of_le (by omega), inter_nil_left]
      · rw [if_neg (by simp [hend])]
        obtain ⟨it', e', hx⟩ := ih (i + 1) j { it with b1 := c' } ⟨ha', ia.a2, ia.run, by omega, ia.h2⟩ (by omega)
        refine ⟨it', e', ?_⟩
        obtain ⟨hx1, hx2⟩ | ⟨i', hx1, hx2, hx3, hx4⟩ := hx
        · exact .inl ⟨hx1, by rw [hi, hx2]⟩
        · exact .inr ⟨i', hx1, hx2, by omega, by rw [hi, hx4]⟩
    · rw [if_neg hlt]
      exact ⟨it, rfl, .inr ⟨i, ia, fun _ _ => by omega, by omega, rfl⟩⟩

theorem while2_ok (r1 : VReady s1 l1) (r2 : VReady s2 l2) (o1 : Ascending l1) (o2 : Ascending l2) (fuel : Nat) :
    ∀ (i j : Nat) (it : IIter P1 P2), (ia : IAt l1 l2 i j it) → l2.length - j < fuel + 1 →
    ∃ it', IIter.while2 s1 s2 fuel it = .ok it' ∧
      (it'.isEnd = true ∧ inter (l1.drop i) (l2.drop j) = [] ∨
       ∃ j', IAt l1 l2 i j' it' ∧ (∀ h h', (l1[i]'h).1 ≤ (l2[j']'h').1) ∧ j ≤ j' ∧ ((∀ h h', (l2[j]'h).1 < (l1[i]'h').1) → j < j') ∧
        inter (l1.drop i) (l2.drop j) = inter (l1.drop i) (l2.drop j')) := by
  induction fuel with
  | zero => intro i j it ia h; have := ia.h2; omega
  | succ fuel ih =>
    intro i j it ia hf
    have h1 := ia.h1
    have h2 := ia.h2
    obtain ⟨c', e, ha'⟩ := next_ok r2 ia.a2 ia.h2
    rw [IIter.while2]
    simp only [pos_ok r1.rep ia.a1 ia.h1, pos_ok r2.rep ia.a2 ia.h2, Res.ok_bind]
    by_cases hlt : l1[i].1 > l2[j].1
    · rw [if_pos hlt]
      simp only [e, Res.ok_bind, isEnd_ok r2.rep ha']
      have hi : inter (l1.drop i) (l2.drop j) = inter (l1.drop i) (l2.drop (j + 1)) := by
        rw [List.drop_eq_getElem_cons ia.h2]
        refine inter_gt _ _ _ (fun b hb => ?_)
        have := asc_ge o1 i ia.h1 b hb
        omega
      by_cases hend : j + 1 = l2.length
      · rw [if_pos (by simp [hend])]
        refine ⟨_, rfl, .inl ⟨rfl, ?_⟩⟩
        rw [hi, List.drop_eq_nil_of_le (show l2.length ≤ j + 1 by omega), inter_nil_right]
      · rw [if_neg (by simp [hend])]
        obtain ⟨it', e', hx⟩ := ih i (j + 1) { it with b2 := c' } ⟨ia.a1, ha', ia.run, ia.h1, by omega⟩ (by omega)
        refine ⟨it', e', ?_⟩
        obtain ⟨hx1, hx2⟩ | ⟨j', hx1, hx2, hx3, _, hx4⟩ := hx
        · exact .inl ⟨hx1, by rw [hi, hx2]⟩
        · exact .inr ⟨j', hx1, hx2, by omega, fun _ => by omega, by rw [hi, hx4]⟩
    · rw [if_neg hlt]
      exact ⟨it, rfl, .inr ⟨j, ia, fun _ _ => by omega, by omega, fun h => absurd (h h2 h1) hlt, rfl⟩⟩

/-- The end, or at a common position, with the same common positions to come. -/
def Found (l1 : List (Nat × T1)) (l2 : List (Nat × T2)) (R : List (Nat × T1 × T2)) (k : Nat) (it : IIter P1 P2) : Prop :=
  it.isEnd = true ∧ R = [] ∨
  ∃ i j, IAt l1 l2 i j it ∧ (∀ h h', (l1[i]'h).1 = (l2[j]'h').1) ∧ k ≤ i ∧ R = inter (l1.drop i) (l2.drop j)

theorem forever_ok (r1 : VReady s1 l1) (r2 : VReady s2 l2) (o1 : Ascending l1) (o2 : Ascending l2) (fuel : Nat) :
    ∀ (i j : Nat) (it : IIter P1 P2), (ia : IAt l1 l2 i j it) → l2.length - j < fuel + 1 →
    ∃ it', IIter.forever s1 s2 fuel it = .ok it' ∧ Found l1 l2 (inter (l1.drop i) (l2.drop j)) i it' := by
  have hv1 : s1.vec.length = l1.length := by rw [r1.rep.2]; simp
  have hv2 : s2.vec.length = l2.length := by rw [r2.rep.2]; simp
  induction fuel with
  | zero => intro i j it ia h; have := ia.h2; omega
  | succ fuel ih =>
    intro i j it ia hf
    rw [IIter.forever]
    obtain ⟨it1, e1, hx⟩ := while1_ok r1 r2 o1 o2 (rounds s1 s2) i j it ia (by rw [rounds]; omega)
    simp only [e1, Res.ok_bind]
    obtain ⟨hx1, hx2⟩ | ⟨i', ia', hx2, hx3, hx4⟩ := hx
    · rw [if_pos hx1]
      exact ⟨it1, rfl, .inl ⟨hx1, hx2⟩⟩
    · rw [if_neg (by simp [ia'.run])]
      simp only [pos_ok r1.rep ia'.a1 ia'.h1, pos_ok r2.rep ia'.a2 ia'.h2, Res.ok_bind]
      have hi' := ia'.h1
      have hj := ia'.h2
      by_cases heq : l1[i'].1 = l2[j].1
      · rw [if_pos heq]
        exact ⟨it1, rfl, .inr ⟨i', j, ia', fun _ _ => heq, hx3, hx4⟩⟩
      · rw [if_neg heq]
        obtain ⟨it2, e2, hy⟩ := while2_ok r1 r2 o1 o2 (rounds s1 s2) i' j it1 ia' (by rw [rounds]; omega)
        simp only [e2, Res.ok_bind]
        obtain ⟨hy1, hy2⟩ | ⟨j', ia'', hy2, hy3, hy4, hy5⟩ := hy
        · rw [if_pos hy1]
          exact ⟨it2, rfl, .inl ⟨hy1, by rw [hx4, hy2]⟩⟩
        · rw [if_neg (by simp [ia''.run])]
          have hj' := ia''.h2
          have hjj : j < j' := by
            have hxx := hx2 hj hi'
            exact hy4 (fun _ _ => Nat.lt_of_le_of_ne hxx (fun h => heq h.symm))
          simp only [pos_ok r1.rep ia''.a1 ia''.h1, pos_ok r2.rep ia''.a2 ia''.h2, Res.ok_bind]
          by_cases heq' : l1[i'].1 = l2[j'].1
          · rw [if_pos heq']
            exact ⟨it2, rfl, .inr ⟨i', j', ia'', fun _ _ => heq', hx3, by rw [hx4, hy5]⟩⟩
          · rw [if_neg heq']
            obtain ⟨it3, e3, hz⟩ := ih i' j' it2 ia'' (by clear hx2 hy2 hy4; omega)
            refine ⟨it3, e3, ?_⟩
            obtain ⟨hz1, hz2⟩ | ⟨a, b, hz1, hz2, hz3, hz4⟩ := hz
            · exact .inl ⟨hz1, by rw [hx4, hy5, hz2]⟩
            · exact .inr ⟨a, b, hz1, hz2, by omega, by rw [hx4, hy5, hz4]⟩

/-- `operator++` at a common position: the next common position. -/
theorem inext_eq_ok (r1 : VReady s1 l1) (r2 : VReady s2 l2) (o1 : Ascending l1) (o2 : Ascending l2) (i j : Nat)
    (it : IIter P1 P2) (ia : IAt l1 l2 i j it) (heq : ∀ h h', (l1[i]'h).1 = (l2[j]'h').1) :
    ∃ it', it.next s1 s2 = .ok it' ∧ Found l1 l2 (inter (l1.drop (i + 1)) (l2.drop j)) (i + 1) it' := by
  have hv1 : s1.vec.length = l1.length := by rw [r1.rep.2]; simp
  have hv2 : s2.vec.length = l2.length := by rw [r2.rep.2]; simp
  have h1 := ia.h1
  have h2 := ia.h2
  obtain ⟨c', e, ha'⟩ := next_ok r1 ia.a1 ia.h1
  rw [IIter.next, if_neg (by simp [ia.run])]
  simp only [pos_ok r1.rep ia.a1 ia.h1, pos_ok r2.rep ia.a2 ia.h2, Res.ok_bind]
  rw [if_pos (heq h1 h2)]
  simp only [e, Res.ok_bind, isEnd_ok r1.rep ha']
  by_cases hend : i + 1 = l1.length
  · rw [if_pos (by simp [hend])]
    refine ⟨_, rfl, .inl ⟨rfl, ?_⟩⟩
    rw [List.drop_eq_nil_of_le (by omega), inter_nil_left]
  · rw [if_neg (by simp [hend])]
    exact forever_ok r1 r2 o1 o2 (rounds s1 s2) (i + 1) j { it with b1 := c' } ⟨ha', ia.a2, ia.run, by omega, ia.h2⟩
      (by rw [rounds]; omega)

theorem ifirst_ok (r1 : VReady s1 l1) (r2 : VReady s2 l2) (o1 : Ascending l1) (o2 : Ascending l2) (b1 : PosTbl.Curr P1)
    (b2 : PosTbl.Curr P2) (a1 : At l1 0 b1) (a2 : At l2 0 b2) :
    ∃ it, IIter.first s1 s2 b1 b2 = .ok it ∧ Found l1 l2 (inter l1 l2) 0 it := by
  have hv1 : s1.vec.length = l1.length := by rw [r1.rep.2]; simp
  have hv2 : s2.vec.length = l2.length := by rw [r2.rep.2]; simp
  rw [IIter.first, isEnd_ok r1.rep a1, isEnd_ok r2.rep a2]
  by_cases e1 : 0 = l1.length
  · rw [if_pos (by simp [e1])]
    refine ⟨_, rfl, .inl ⟨rfl, ?_⟩⟩
    rw [List.eq_nil_of_length_eq_zero e1.symm, inter_nil_left]
  · by_cases e2 : 0 = l2.length
    · rw [if_pos (by simp [e2])]
      refine ⟨_, rfl, .inl ⟨rfl, ?_⟩⟩
      rw [List.eq_nil_of_length_eq_zero e2.symm, inter_nil_right]
    · rw [if_neg (by simp [e1, e2])]
      have h1 : 0 < l1.length := by omega
      have h2 : 0 < l2.length := by omega
      simp only [pos_ok r1.rep a1 h1, pos_ok r2.rep a2 h2, Res.ok_bind]
      have ia : IAt l1 l2 0 0 (⟨b1, b2, false⟩ : IIter P1 P2) := ⟨a1, a2, rfl, h1, h2⟩
      by_cases heq : l1[0].1 = l2[0].1
      · rw [if_neg (by simp [heq])]
        exact ⟨_, rfl, .inr ⟨0, 0, ia, fun _ _ => heq, by omega, by simp⟩⟩
      · rw [if_pos heq, IIter.next, if_neg (by simp)]
        simp only [pos_ok r1.rep a1 h1, pos_ok r2.rep a2 h2, Res.ok_bind]
        rw [if_neg heq]
        obtain ⟨it, e, hf⟩ := forever_ok r1 r2 o1 o2 (rounds s1 s2) 0 0 _ ia (by rw [rounds]; omega)
        exact ⟨it, e, by simpa using hf⟩

theorem interLoop_ok (r1 : VReady s1 l1) (r2 : VReady s2 l2) (o1 : Ascending l1) (o2 : Ascending l2) (fuel : Nat) :
    ∀ (k : Nat) (R : List (Nat × T1 × T2)) (it : IIter P1 P2), Found l1 l2 R k it → k ≤ l1.length → l1.length - k < fuel →
    Intersection.loop s1 s2 fuel it = .ok R := by
  induction fuel with
  | zero => intro k R it _ _ h; omega
  | succ fuel ih =>
    intro k R it hF hk hf
    rw [Intersection.loop]
    obtain ⟨h1, rfl⟩ | ⟨i, j, ia, heq, hki, rfl⟩ := hF
    · rw [if_pos h1]
    · rw [if_neg (by simp [ia.run])]
      have h1 := ia.h1
      have h2 := ia.h2
      obtain ⟨it', e, hF'⟩ := inext_eq_ok r1 r2 o1 o2 i j it ia heq
      simp only [pos_ok r1.rep ia.a1 ia.h1, val_ok r1.rep ia.a1 ia.h1, val_ok r2.rep ia.a2 ia.h2, e, Res.ok_bind]
      rw [ih (i + 1) _ it' hF' (by omega) (by omega), Res.ok_bind, Res.pure_eq]
      conv => rhs; rw [List.drop_eq_getElem_cons h1, List.drop_eq_getElem_cons h2, inter_eq _ _ _ _ (heq h1 h2)]
      rw [← List.drop_eq_getElem_cons h2]

theorem innerLoop_ok {R : Type} [Add R] [Mul R] (inj1 : T1 → R) (inj2 : T2 → R) (r1 : VReady s1 l1) (r2 : VReady s2 l2)
    (o1 : Ascending l1) (o2 : Ascending l2) (fuel : Nat) :
    ∀ (k : Nat) (L : List (Nat × T1 × T2)) (it : IIter P1 P2) (ret : R), Found l1 l2 L k it → k ≤ l1.length → l1.length - k < fuel →
    innerLoop inj1 inj2 s1 s2 fuel it ret = .ok (L.foldl (fun r e => r + inj1 e.2.1 * inj2 e.2.2) ret) := by
  induction fuel with
  | zero => intro k R it _ _ _ h; omega
  | succ fuel ih =>
    intro k R it ret hF hk hf
    rw [innerLoop]
    obtain ⟨h1, rfl⟩ | ⟨i, j, ia, heq, hki, rfl⟩ := hF
    · rw [if_pos h1]; rfl
    · rw [if_neg (by simp [ia.run])]
      have h1 := ia.h1
      have h2 := ia.h2
      obtain ⟨it', e, hF'⟩ := inext_eq_ok r1 r2 o1 o2 i j it ia heq
      simp only [val_ok r1.rep ia.a1 ia.h1, val_ok r2.rep ia.a2 ia.h2, e, Res.ok_bind]
      rw [ih (i + 1) _ it' _ hF' (by omega) (by omega)]
      conv => rhs; rw [List.drop_eq_getElem_cons h1, List.drop_eq_getElem_cons h2, inter_eq _ _ _ _ (heq h1 h2)]
      rw [← List.drop_eq_getElem_cons h2, List.foldl_cons]

end Inter

theorem selfLoop_ok {R : Type} [Add R] [Mul R] (inj : T → R) {s : SVec P T} {l : List (Nat × T)} (h : VReady s l) (fuel : Nat) :
    ∀ (i : Nat) (c : PosTbl.Curr P) (ret : R), At l i c → l.length - i < fuel →
    selfLoop inj fuel s c ret = .ok ((l.drop i).foldl (fun r e => r + inj e.2 * inj e.2) ret) := by
  induction fuel with
  | zero => intro i c _ _ h; omega
  | succ fuel ih =>
    intro i c ret ha hf
    rw [selfLoop, isEnd_ok h.rep ha]
    by_cases hi : i = l.length
    · simp [hi]
    · have hlt : i < l.length := by have := at_le ha; omega
      obtain ⟨c', e, ha'⟩ := next_ok h ha hlt
      simp only [hi, decide_false, Bool.false_eq_true, if_false, val_ok h.rep ha hlt, e, Res.ok_bind]
      rw [ih (i + 1) c' _ ha' (by omega), List.drop_eq_getElem_cons hlt, List.foldl_cons]

/-! ### What `inter` is -/

theorem asc_fst_inj {l : List (Nat × T)} (h : Ascending l) {p : Nat} {x y : T} (hx : (p, x) ∈ l) (hy : (p, y) ∈ l) : x = y := by
  induction l with
  | nil => simp at hx
  | cons a l ih =>
    obtain ⟨h1, h2⟩ := List.pairwise_cons.1 h
    rw [List.mem_cons] at hx hy
    obtain hx | hx := hx
    · obtain hy | hy := hy
      · rw [hx.symm] at hy; exact (Prod.mk.inj hy).2.symm
      · have := h1 _ hy; rw [← hx] at this; simp at this
    · obtain hy | hy := hy
      · have := h1 _ hx; rw [← hy] at this; simp at this
      · exact ih h2 hx hy

theorem find_some {l : List (Nat × T)} (h : Ascending l) {p : Nat} {x : T} (hx : (p, x) ∈ l) :
    l.find? (fun e => e.1 == p) = some (p, x) := by
  cases hf : l.find? (fun e => e.1 == p) with
  | none =>
    rw [List.find?_eq_none] at hf
    exact absurd (hf _ hx) (by simp)
  | some e =>
    have h1 := List.find?_some hf
    have h2 := List.mem_of_find?_eq_some hf
    obtain ⟨q, y⟩ := e
    have : q = p := by simpa using h1
    subst this
    rw [asc_fst_inj h h2 hx]

theorem inter_mem {l1 : List (Nat × T1)} {l2 : List (Nat × T2)} (o2 : Ascending l2) (p : Nat) (x : T1) (y : T2) :
    (p, x, y) ∈ inter l1 l2 ↔ (p, x) ∈ l1 ∧ (p, y) ∈ l2 := by
  rw [inter, List.mem_filterMap]
  constructor
  · rintro ⟨⟨q, z⟩, hq, hb⟩
    rw [Option.map_eq_some_iff] at hb
    obtain ⟨⟨q', y'⟩, hb, he⟩ := hb
    have h1 : q' = q := by simpa using List.find?_some hb
    have h2 := List.mem_of_find?_eq_some hb
    simp only [Prod.mk.injEq] at he
    obtain ⟨rfl, rfl, rfl⟩ := he
    subst h1
    exact ⟨hq, h2⟩
  · rintro ⟨h1, h2⟩
    exact ⟨(p, x), h1, by rw [find_some o2 h2]; rfl⟩

theorem inter_asc {l1 : List (Nat × T1)} (l2 : List (Nat × T2)) (o1 : Ascending l1) : Ascending (inter l1 l2) := by
  rw [Ascending, inter, List.pairwise_filterMap]
  refine List.Pairwise.imp (fun {a b} hab => ?_) o1
  intro c hc d hd
  simp only [Option.map_eq_some_iff] at hc hd
  obtain ⟨_, _, rfl⟩ := hc
  obtain ⟨_, _, rfl⟩ := hd
  exact hab

end Verif.Sparse
