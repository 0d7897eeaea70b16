import Verif.Proof.SparseIter
set_option linter.unusedSimpArgs false
/-! Lemmas for C52: `Union`. -/
namespace Verif.Sparse
open Verif.Spec.Sparse

variable {P1 P2 T1 T2 : Type} [Lawful P1] [Lawful P2] [Zero T1] [Zero T2]

/-- The positions of either list. -/
def merge : List (Nat × T1) → List (Nat × T2) → List (Nat × T1 × T2)
  | [], [] => []
  | a :: A, [] => (a.1, a.2, 0) :: merge A []
  | [], b :: B => (b.1, 0, b.2) :: merge [] B
  | a :: A, b :: B =>
    if a.1 < b.1 then (a.1, a.2, 0) :: merge A (b :: B)
    else if a.1 = b.1 then (a.1, a.2, b.2) :: merge A B
    else (b.1, 0, b.2) :: merge (a :: A) B
termination_by A B => A.length + B.length

section
variable {s1 : SVec P1 T1} {s2 : SVec P2 T2} {l1 : List (Nat × T1)} {l2 : List (Nat × T2)}

/-- What `detectMode` finds at indices `i` and `j`. -/
structure UAt (l1 : List (Nat × T1)) (l2 : List (Nat × T2)) (i j : Nat) (it : UIter P1 P2) : Prop where
  a1 : At l1 i it.b1
  a2 : At l2 j it.b2
  e0 : it.mode = .end → i = l1.length ∧ j = l2.length
  o1 : it.mode = .only1 → ∃ h : i < l1.length, j = l2.length ∧ it.pos = l1[i].1
  o2 : it.mode = .only2 → ∃ h : j < l2.length, i = l1.length ∧ it.pos = l2[j].1
  sm : it.mode = .small → ∃ (h1 : i < l1.length) (h2 : j < l2.length), l1[i].1 < l2[j].1 ∧ it.pos = l1[i].1
  eq : it.mode = .equal → ∃ (h1 : i < l1.length) (h2 : j < l2.length), l1[i].1 = l2[j].1 ∧ it.pos = l1[i].1
  lg : it.mode = .large → ∃ (h1 : i < l1.length) (h2 : j < l2.length), l2[j].1 < l1[i].1 ∧ it.pos = l2[j].1

omit [Zero T1] [Zero T2] in
theorem detect_ok (r1 : VReady s1 l1) (r2 : VReady s2 l2) (i j : Nat) (it : UIter P1 P2) (a1 : At l1 i it.b1) (a2 : At l2 j it.b2) :
    ∃ it', it.detectMode s1 s2 = .ok it' ∧ UAt l1 l2 i j it' := by
  have g1 := at_le a1
  have g2 := at_le a2
  rw [UIter.detectMode, isEnd_ok r1.rep a1]
  simp only [isEnd_ok r2.rep a2]
  by_cases e1 : i = l1.length
  · rw [if_neg (by simp [e1])]
    by_cases e2 : j = l2.length
    · rw [if_neg (by simp [e2])]
      exact ⟨_, rfl, a1, a2, fun _ => ⟨e1, e2⟩, by simp, by simp, by simp, by simp, by simp⟩
    · have h2 : j < l2.length := by omega
      rw [if_pos (by simp [e2]), pos_ok r2.rep a2 h2]
      exact ⟨_, rfl, a1, a2, by simp, by simp, fun _ => ⟨h2, e1, rfl⟩, by simp, by simp, by simp⟩
  · have h1 : i < l1.length := by omega
    rw [if_pos (by simp [e1]), pos_ok r1.rep a1 h1]
    simp only [Res.ok_bind]
    by_cases e2 : j = l2.length
    · rw [if_neg (by simp [e2])]
      exact ⟨_, rfl, a1, a2, by simp, fun _ => ⟨h1, e2, rfl⟩, by simp, by simp, by simp, by simp⟩
    · have h2 : j < l2.length := by omega
      rw [if_pos (by simp [e2]), pos_ok r2.rep a2 h2]
      simp only [Res.ok_bind]
      by_cases hlt : l1[i].1 < l2[j].1
      · rw [if_pos hlt]
        exact ⟨_, rfl, a1, a2, by simp, by simp, by simp, fun _ => ⟨h1, h2, hlt, rfl⟩, by simp, by simp⟩
      · rw [if_neg hlt]
        by_cases heq : l1[i].1 = l2[j].1
        · rw [if_pos heq]
          exact ⟨_, rfl, a1, a2, by simp, by simp, by simp, by simp, fun _ => ⟨h1, h2, heq, rfl⟩, by simp⟩
        · rw [if_neg heq]
          exact ⟨_, rfl, a1, a2, by simp, by simp, by simp, by simp, by simp, fun _ => ⟨h1, h2, by omega, rfl⟩⟩

theorem unionLoop_ok (r1 : VReady s1 l1) (r2 : VReady s2 l2) (fuel : Nat) :
    ∀ (i j : Nat) (it : UIter P1 P2), UAt l1 l2 i j it → l1.length - i + (l2.length - j) < fuel →
    Union.loop s1 s2 fuel it = .ok (merge (l1.drop i) (l2.drop j)) := by
  induction fuel with
  | zero => intro i j it _ h; omega
  | succ fuel ih =>
    intro i j it ua hf
    rw [Union.loop, UIter.next]
    obtain ⟨b1, b2, mode, pos⟩ := it
    have a1 : At l1 i b1 := ua.a1
    have a2 : At l2 j b2 := ua.a2
    cases mode with
    | «end» =>
      obtain ⟨h1, h2⟩ := ua.e0 rfl
      rw [if_pos rfl, List.drop_eq_nil_of_le (by omega), List.drop_eq_nil_of_le (by omega), merge]
    | only1 =>
      obtain ⟨h1, h2, hp⟩ := ua.o1 rfl
      obtain ⟨c1, e1, a1'⟩ := next_ok r1 a1 h1
      obtain ⟨it', e, ua'⟩ := detect_ok r1 r2 (i + 1) j ⟨c1, b2, .only1, pos⟩ a1' a2
      simp only [reduceCtorEq, if_false, Mode.has1, Mode.has2, beq_self_eq_true, Bool.true_or, if_true, val_ok r1.rep a1 h1, Res.ok_bind,
        show (Mode.only1 == Mode.only2 || Mode.only1 == Mode.equal || Mode.only1 == Mode.large) = false from rfl, Bool.false_eq_true, e1, e]
      rw [ih (i + 1) j it' ua' (by omega)]
      simp only at hp
      have hd2 : l2.drop j = [] := List.drop_eq_nil_of_le (by omega)
      rw [hd2, List.drop_eq_getElem_cons h1, merge, hp]
      rfl
    | only2 =>
      obtain ⟨h2, h1, hp⟩ := ua.o2 rfl
      obtain ⟨c2, e2, a2'⟩ := next_ok r2 a2 h2
      obtain ⟨it', e, ua'⟩ := detect_ok r1 r2 i (j + 1) ⟨b1, c2, .only2, pos⟩ a1 a2'
      simp only [reduceCtorEq, if_false, Mode.has1, Mode.has2, beq_self_eq_true, Bool.true_or, if_true, val_ok r2.rep a2 h2, Res.ok_bind,
        show (Mode.only2 == Mode.only1 || Mode.only2 == Mode.small || Mode.only2 == Mode.equal) = false from rfl, Bool.false_eq_true, e2, e]
      rw [ih i (j + 1) it' ua' (by omega)]
      simp only at hp
      have hd1 : l1.drop i = [] := List.drop_eq_nil_of_le (by omega)
      rw [hd1, List.drop_eq_getElem_cons h2, merge, hp]
      rfl
    | small =>
      obtain ⟨h1, h2, hlt, hp⟩ := ua.sm rfl
      obtain ⟨c1, e1, a1'⟩ := next_ok r1 a1 h1
      obtain ⟨it', e, ua'⟩ := detect_ok r1 r2 (i + 1) j ⟨c1, b2, .small, pos⟩ a1' a2
      simp only [reduceCtorEq, if_false, Mode.has1, Mode.has2, beq_self_eq_true, Bool.true_or, Bool.or_true, if_true, val_ok r1.rep a1 h1,
        Res.ok_bind,
        show (Mode.small == Mode.only2 || Mode.small == Mode.equal || Mode.small == Mode.large) = false from rfl, Bool.false_eq_true, e1, e]
      rw [ih (i + 1) j it' ua' (by omega)]
      simp only at hp
      rw [List.drop_eq_getElem_cons h1, List.drop_eq_getElem_cons h2, merge, if_pos hlt, hp]
      rfl
    | equal =>
      obtain ⟨h1, h2, heq, hp⟩ := ua.eq rfl
      obtain ⟨c1, e1, a1'⟩ := next_ok r1 a1 h1
      obtain ⟨c2, e2, a2'⟩ := next_ok r2 a2 h2
      obtain ⟨it', e, ua'⟩ := detect_ok r1 r2 (i + 1) (j + 1) ⟨c1, c2, .equal, pos⟩ a1' a2'
      simp only [reduceCtorEq, if_false, Mode.has1, Mode.has2, beq_self_eq_true, Bool.true_or, Bool.or_true, if_true, val_ok r1.rep a1 h1,
        val_ok r2.rep a2 h2, Res.ok_bind, e1, e2, e]
      rw [ih (i + 1) (j + 1) it' ua' (by omega)]
      simp only at hp
      rw [List.drop_eq_getElem_cons h1, List.drop_eq_getElem_cons h2, merge, if_neg (by omega), if_pos heq, hp]
      rfl
    | large =>
      obtain ⟨h1, h2, hlt, hp⟩ := ua.lg rfl
      obtain ⟨c2, e2, a2'⟩ := next_ok r2 a2 h2
      obtain ⟨it', e, ua'⟩ := detect_ok r1 r2 i (j + 1) ⟨b1, c2, .large, pos⟩ a1 a2'
      simp only [reduceCtorEq, if_false, Mode.has1, Mode.has2, beq_self_eq_true, Bool.true_or, Bool.or_true, if_true, val_ok r2.rep a2 h2,
        Res.ok_bind,
        show (Mode.large == Mode.only1 || Mode.large == Mode.small || Mode.large == Mode.equal) = false from rfl, Bool.false_eq_true, e2, e]
      rw [ih i (j + 1) it' ua' (by omega)]
      simp only at hp
      rw [List.drop_eq_getElem_cons h1, List.drop_eq_getElem_cons h2, merge, if_neg (by omega), if_neg (by omega), hp]
      rfl
end

/-! ### What `merge` is -/

omit [Zero T2] in
theorem dense_cons (a : Nat × T1) (A : List (Nat × T1)) (p : Nat) : dense (a :: A) p = if a.1 = p then a.2 else dense A p := by
  rw [dense]
  by_cases h : a.1 = p
  · rw [List.find?_cons_of_pos (by simp [h]), if_pos h]
  · rw [List.find?_cons_of_neg (by simp [h]), if_neg h]; rfl

omit [Zero T2] in
theorem dense_lt {A : List (Nat × T1)} {p : Nat} (h : ∀ a ∈ A, p < a.1) : dense A p = 0 := by
  rw [dense, find_none_of_lt h]

omit [Zero T2] in
theorem dense_mem {A : List (Nat × T1)} (o : Ascending A) {p : Nat} {x : T1} (h : (p, x) ∈ A) : dense A p = x := by
  rw [dense, find_some o h]

theorem merge_mem (A : List (Nat × T1)) (B : List (Nat × T2)) : Ascending A → Ascending B → ∀ (p : Nat) (x : T1) (y : T2),
    (p, x, y) ∈ merge A B ↔ (p ∈ A.map Prod.fst ∨ p ∈ B.map Prod.fst) ∧ x = dense A p ∧ y = dense B p := by
  induction A, B using merge.induct with
  | case1 => intro _ _ p x y; simp [merge]
  | case2 a A ih =>
    intro oA oB p x y
    obtain ⟨h1, h2⟩ := List.pairwise_cons.1 oA
    rw [merge, List.mem_cons, ih h2 oB, dense_cons, List.map_cons, List.mem_cons, Prod.mk.injEq, Prod.mk.injEq]
    by_cases hp : a.1 = p
    · subst hp
      have hn : ¬ (a.1 ∈ A.map Prod.fst) := by
        intro h
        obtain ⟨b, hb, he⟩ := List.mem_map.1 h
        have := h1 b hb; omega
      simp [hn, dense]
    · simp [hp, show p ≠ a.1 from fun h => hp h.symm]
  | case3 b B ih =>
    intro oA oB p x y
    obtain ⟨h1, h2⟩ := List.pairwise_cons.1 oB
    rw [merge, List.mem_cons, ih oA h2, dense_cons, List.map_cons, List.mem_cons, Prod.mk.injEq, Prod.mk.injEq]
    by_cases hp : b.1 = p
    · subst hp
      have hn : ¬ (b.1 ∈ B.map Prod.fst) := by
        intro h
        obtain ⟨c, hc, he⟩ := List.mem_map.1 h
        have := h1 c hc; omega
      simp [hn, dense]
    · simp [hp, show p ≠ b.1 from fun h => hp h.symm]
  | case4 a A b B hlt ih =>
    intro oA oB p x y
    obtain ⟨h1, h2⟩ := List.pairwise_cons.1 oA
    obtain ⟨g1, g2⟩ := List.pairwise_cons.1 oB
    rw [merge, if_pos hlt, List.mem_cons, ih h2 oB, dense_cons (a := a), List.map_cons (l := A), List.mem_cons, Prod.mk.injEq, Prod.mk.injEq]
    by_cases hp : a.1 = p
    · subst hp
      have hn : ¬ (a.1 ∈ A.map Prod.fst) := by
        intro h
        obtain ⟨c, hc, he⟩ := List.mem_map.1 h
        have := h1 c hc; omega
      have hn2 : ¬ (a.1 ∈ (b :: B).map Prod.fst) := by
        intro h
        obtain ⟨c, hc, he⟩ := List.mem_map.1 h
        rw [List.mem_cons] at hc
        obtain rfl | hc := hc
        · omega
        · have := g1 c hc; omega
      have hd : dense (b :: B) a.1 = 0 := dense_lt (fun c hc => by
        rw [List.mem_cons] at hc
        obtain rfl | hc := hc
        · omega
        · have := g1 c hc; omega)
      simp only [hn, hn2, hd, or_self, false_and, or_false, true_or, true_and, if_true]
    · simp only [hp, show p ≠ a.1 from fun h => hp h.symm, if_false, false_and, false_or]
  | case5 a A b B hlt heq ih =>
    intro oA oB p x y
    obtain ⟨h1, h2⟩ := List.pairwise_cons.1 oA
    obtain ⟨g1, g2⟩ := List.pairwise_cons.1 oB
    rw [merge, if_neg hlt, if_pos heq, List.mem_cons, ih h2 g2, dense_cons (a := a), dense_cons (a := b), List.map_cons, List.map_cons,
      List.mem_cons, List.mem_cons, Prod.mk.injEq, Prod.mk.injEq]
    by_cases hp : a.1 = p
    · subst hp
      have hn : ¬ (a.1 ∈ A.map Prod.fst) := by
        intro h
        obtain ⟨c, hc, he⟩ := List.mem_map.1 h
        have := h1 c hc; omega
      have hn2 : ¬ (a.1 ∈ B.map Prod.fst) := by
        intro h
        obtain ⟨c, hc, he⟩ := List.mem_map.1 h
        have := g1 c hc; omega
      simp only [hn, hn2, heq.symm, or_self, false_and, or_false, true_or, true_and, if_true]
    · simp only [hp, show p ≠ a.1 from fun h => hp h.symm, show p ≠ b.1 from fun h => hp (heq.trans h.symm),
        show ¬ (b.1 = p) from fun h => hp (heq.trans h), if_false, false_and, false_or]
  | case6 a A b B hlt hne ih =>
    intro oA oB p x y
    obtain ⟨h1, h2⟩ := List.pairwise_cons.1 oA
    obtain ⟨g1, g2⟩ := List.pairwise_cons.1 oB
    rw [merge, if_neg hlt, if_neg hne, List.mem_cons, ih oA g2, dense_cons (a := b), List.map_cons (l := B), List.mem_cons (l := B.map _),
      Prod.mk.injEq, Prod.mk.injEq]
    by_cases hp : b.1 = p
    · subst hp
      have hn : ¬ (b.1 ∈ B.map Prod.fst) := by
        intro h
        obtain ⟨c, hc, he⟩ := List.mem_map.1 h
        have := g1 c hc; omega
      have hn2 : ¬ (b.1 ∈ (a :: A).map Prod.fst) := by
        intro h
        obtain ⟨c, hc, he⟩ := List.mem_map.1 h
        rw [List.mem_cons] at hc
        obtain rfl | hc := hc
        · omega
        · have := h1 c hc; omega
      have hd : dense (a :: A) b.1 = 0 := dense_lt (fun c hc => by
        rw [List.mem_cons] at hc
        obtain rfl | hc := hc
        · omega
        · have := h1 c hc; omega)
      simp only [hn, hn2, hd, or_self, false_and, or_false, false_or, true_or, true_and, if_true]
    · simp only [hp, show p ≠ b.1 from fun h => hp h.symm, if_false, false_and, false_or]

theorem merge_dom (A : List (Nat × T1)) (B : List (Nat × T2)) (e : Nat × T1 × T2) (h : e ∈ merge A B) :
    (∃ a ∈ A, a.1 = e.1) ∨ (∃ b ∈ B, b.1 = e.1) := by
  induction A, B using merge.induct with
  | case1 => simp [merge] at h
  | case2 a A ih =>
    rw [merge, List.mem_cons] at h
    obtain rfl | h := h
    · exact .inl ⟨a, by simp, rfl⟩
    · obtain ⟨c, hc, he⟩ | ⟨c, hc, he⟩ := ih h
      · exact .inl ⟨c, by simp [hc], he⟩
      · simp at hc
  | case3 b B ih =>
    rw [merge, List.mem_cons] at h
    obtain rfl | h := h
    · exact .inr ⟨b, by simp, rfl⟩
    · obtain ⟨c, hc, he⟩ | ⟨c, hc, he⟩ := ih h
      · simp at hc
      · exact .inr ⟨c, by simp [hc], he⟩
  | case4 a A b B hlt ih =>
    rw [merge, if_pos hlt, List.mem_cons] at h
    obtain rfl | h := h
    · exact .inl ⟨a, by simp, rfl⟩
    · obtain ⟨c, hc, he⟩ | hc := ih h
      · exact .inl ⟨c, by simp [hc], he⟩
      · exact .inr hc
  | case5 a A b B hlt heq ih =>
    rw [merge, if_neg hlt, if_pos heq, List.mem_cons] at h
    obtain rfl | h := h
    · exact .inl ⟨a, by simp, rfl⟩
    · obtain ⟨c, hc, he⟩ | ⟨c, hc, he⟩ := ih h
      · exact .inl ⟨c, by simp [hc], he⟩
      · exact .inr ⟨c, by simp [hc], he⟩
  | case6 a A b B hlt hne ih =>
    rw [merge, if_neg hlt, if_neg hne, List.mem_cons] at h
    obtain rfl | h := h
    · exact .inr ⟨b, by simp, rfl⟩
    · obtain hc | ⟨c, hc, he⟩ := ih h
      · exact .inl hc
      · exact .inr ⟨c, by simp [hc], he⟩

theorem merge_asc (A : List (Nat × T1)) (B : List (Nat × T2)) : Ascending A → Ascending B → Ascending (merge A B) := by
  induction A, B using merge.induct with
  | case1 => intro _ _; simp [merge, Ascending]
  | case2 a A ih =>
    intro oA oB
    obtain ⟨h1, h2⟩ := List.pairwise_cons.1 oA
    rw [merge]
    refine List.pairwise_cons.2 ⟨fun e he => ?_, ih h2 oB⟩
    obtain ⟨c, hc, hce⟩ | ⟨c, hc, hce⟩ := merge_dom _ _ e he
    · have := h1 c hc; simp only; omega
    · simp at hc
  | case3 b B ih =>
    intro oA oB
    obtain ⟨h1, h2⟩ := List.pairwise_cons.1 oB
    rw [merge]
    refine List.pairwise_cons.2 ⟨fun e he => ?_, ih oA h2⟩
    obtain ⟨c, hc, hce⟩ | ⟨c, hc, hce⟩ := merge_dom _ _ e he
    · simp at hc
    · have := h1 c hc; simp only; omega
  | case4 a A b B hlt ih =>
    intro oA oB
    obtain ⟨h1, h2⟩ := List.pairwise_cons.1 oA
    obtain ⟨g1, g2⟩ := List.pairwise_cons.1 oB
    rw [merge, if_pos hlt]
    refine List.pairwise_cons.2 ⟨fun e he => ?_, ih h2 oB⟩
    obtain ⟨c, hc, hce⟩ | ⟨c, hc, hce⟩ := merge_dom _ _ e he
    · have := h1 c hc; simp only; omega
    · rw [List.mem_cons] at hc
      obtain rfl | hc := hc
      · simp only; omega
      · have := g1 c hc; simp only; omega
  | case5 a A b B hlt heq ih =>
    intro oA oB
    obtain ⟨h1, h2⟩ := List.pairwise_cons.1 oA
    obtain ⟨g1, g2⟩ := List.pairwise_cons.1 oB
    rw [merge, if_neg hlt, if_pos heq]
    refine List.pairwise_cons.2 ⟨fun e he => ?_, ih h2 g2⟩
    obtain ⟨c, hc, hce⟩ | ⟨c, hc, hce⟩ := merge_dom _ _ e he
    · have := h1 c hc; simp only; omega
    · have := g1 c hc; simp only; omega
  | case6 a A b B hlt hne ih =>
    intro oA oB
    obtain ⟨h1, h2⟩ := List.pairwise_cons.1 oA
    obtain ⟨g1, g2⟩ := List.pairwise_cons.1 oB
    rw [merge, if_neg hlt, if_neg hne]
    refine List.pairwise_cons.2 ⟨fun e he => ?_, ih oA g2⟩
    obtain ⟨c, hc, hce⟩ | ⟨c, hc, hce⟩ := merge_dom _ _ e he
    · rw [List.mem_cons] at hc
      obtain rfl | hc := hc
      · simp only; omega
      · have := h1 c hc; simp only; omega
    · have := g1 c hc; simp only; omega

end Verif.Sparse
