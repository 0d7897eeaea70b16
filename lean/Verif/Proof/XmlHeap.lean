import Verif.Spec.XmlHeap
set_option linter.unusedSimpArgs false

namespace Verif.XmlHeap
open Verif.Config (Str)
open Verif.MiniXml (Attrs Node TagType skipSpace getWord query parseTag parseAttributes parseContent parseNode isName readHeader parse getFirst getFirstList)
open Verif.Spec.XmlHeap

theorem _root_.Verif.Spec.XmlHeap.Forest.frame {c c' : Nat → Option Cell} {w : Bool} {par : Option Nat} {ps : List (Option Nat)} {ts : List Node} {as : List Nat}
    (h : Forest c w par ps ts as) (e : ∀ i ∈ as, c' i = c i) : Forest c' w par ps ts as := by
  induction h with
  | nil => exact .nil _
  | null hw _ ih => exact .null hw (ih e)
  | @node par id cl ps ts us as bs hc hp _ _ ih1 ih2 =>
    exact .node (by rw [e id (by simp), hc]) hp (ih1 fun i hi => e i (by simp [hi])) (ih2 fun i hi => e i (by simp [hi]))

theorem _root_.Verif.Spec.XmlHeap.Forest.append {c : Nat → Option Cell} {w : Bool} {par : Option Nat} {ps qs : List (Option Nat)} {ts us : List Node} {as bs : List Nat}
    (h : Forest c w par ps ts as) (h' : Forest c w par qs us bs) : Forest c w par (ps ++ qs) (ts ++ us) (as ++ bs) := by
  induction h with
  | nil => exact h'
  | null hw _ ih => exact .null hw (ih h')
  | node hc hp h1 _ _ ih2 =>
    have := Forest.node hc hp h1 (ih2 h')
    simpa using this

theorem _root_.Verif.Spec.XmlHeap.Forest.weaken {c : Nat → Option Cell} {w : Bool} {par : Option Nat} {ps : List (Option Nat)} {ts : List Node} {as : List Nat}
    (h : Forest c w par ps ts as) : Forest c false par ps ts as := by
  induction h with
  | nil => exact .nil _
  | null _ _ ih => exact .null rfl ih
  | node hc hp _ _ ih1 ih2 => exact .node hc hp ih1 ih2

theorem _root_.Verif.Spec.XmlHeap.Forest.live {c : Nat → Option Cell} {w : Bool} {par : Option Nat} {ps : List (Option Nat)} {ts : List Node} {as : List Nat}
    (h : Forest c w par ps ts as) : ∀ i ∈ as, (c i).isSome = true := by
  induction h with
  | nil => simp
  | null _ _ ih => exact ih
  | node hc _ _ _ ih1 ih2 =>
    intro i hi
    simp only [List.cons_append, List.mem_cons, List.mem_append] at hi
    rcases hi with rfl | hi | hi
    · rw [hc]; rfl
    · exact ih1 i hi
    · exact ih2 i hi

/-- Deleting the pointers of a forest whose nodes are all different frees these nodes and no others. -/
theorem deleteAll_ok {c : Nat → Option Cell} {w : Bool} {par : Option Nat} {ps : List (Option Nat)} {ts : List Node} {as : List Nat}
    (hf : Forest c w par ps ts as) (hn : as.Nodup) :
    ∃ n, ∀ fuel, n ≤ fuel → ∀ h : Heap, (∀ i ∈ as, h.cell i = c i) →
      deleteAll fuel ps h = .ok { h with cell := fun i => if i ∈ as then none else h.cell i } := by
  induction hf with
  | nil par =>
    refine ⟨1, fun fuel hl h _ => ?_⟩
    obtain ⟨k, rfl⟩ : ∃ k, fuel = k + 1 := ⟨fuel - 1, by omega⟩
    simp [deleteAll]
  | null _ _ ih =>
    obtain ⟨n, hh⟩ := ih hn
    refine ⟨n + 1, fun fuel hl h he => ?_⟩
    obtain ⟨k, rfl⟩ : ∃ k, fuel = k + 1 := ⟨fuel - 1, by omega⟩
    rw [deleteAll, hh k (by omega) h he]
  | @node par id cl ps ts us as bs hc' hp h1 h2 ih1 ih2 =>
    have hn' : id ∉ as ∧ id ∉ bs ∧ as.Nodup ∧ bs.Nodup ∧ ∀ i ∈ as, i ∉ bs := by
      simp only [List.cons_append, List.nodup_cons, List.mem_append, not_or, List.nodup_append] at hn
      refine ⟨hn.1.1, hn.1.2, hn.2.1, hn.2.2.1, fun i hi hj => hn.2.2.2 i hi i hj rfl⟩
    obtain ⟨hi1, hi2, hna, hnb, hd⟩ := hn'
    obtain ⟨n1, e1⟩ := ih1 hna
    obtain ⟨n2, e2⟩ := ih2 hnb
    refine ⟨max n1 n2 + 1, fun fuel hl h he => ?_⟩
    obtain ⟨k, rfl⟩ : ∃ k, fuel = k + 1 := ⟨fuel - 1, by omega⟩
    rw [deleteAll]
    have hid : h.cell id = some cl := by rw [he id (by simp), hc']
    simp only [hid]
    rw [e1 k (by omega) h (fun i hi => he i (by simp [hi])), Res.ok_bind, e2 k (by omega)]
    · congr 1
      congr 1
      funext i
      simp only [List.cons_append, List.mem_cons, List.mem_append]
      by_cases a1 : i = id <;> by_cases a2 : i ∈ as <;> by_cases a3 : i ∈ bs <;> simp [a1, a2, a3]
    · intro i hi
      have h3 : i ≠ id := fun e => hi2 (e ▸ hi)
      have h4 : i ∉ as := fun e => hd i e hi
      simp only [if_neg h3, if_neg h4]
      exact he i (by simp [hi])

/-- What is known of the memory while a node is being filled: its children are a forest of other nodes, and there is nothing from
`next` on. -/
structure Filling (h : Heap) (w : Bool) (id : Nat) (cl : Cell) (ts : List Node) (as : List Nat) : Prop where
  here : h.cell id = some cl
  kids : Forest h.cell w (some id) cl.child ts as
  nodup : as.Nodup
  other : id ∉ as
  old : id < h.next
  olds : ∀ i ∈ as, i < h.next
  fresh : ∀ i, h.next ≤ i → h.cell i = none

/-- `h'` comes from `h` by filling `id`: other nodes are not touched; the new ones are `new`. -/
structure Grown (h h' : Heap) (id : Nat) (new : List Nat) : Prop where
  next : h.next ≤ h'.next
  keep : ∀ i, i < h.next → i ≠ id → h'.cell i = h.cell i
  range : ∀ i, i ∈ new ↔ h.next ≤ i ∧ i < h'.next

theorem M.bind_ok {α β : Type} {m : M α} {f : α → M β} {h h' : Heap} {a : α} (e : m h = (h', .ok a)) : m.bind f h = f a h' := by
  simp [M.bind, e]
theorem M.bind_throw {α β : Type} {m : M α} {f : α → M β} {h h' : Heap} (e : m h = (h', .throw)) : m.bind f h = (h', .throw) := by
  simp [M.bind, e]
theorem M.bind_ub {α β : Type} {m : M α} {f : α → M β} {h h' : Heap} (e : m h = (h', .ub)) : m.bind f h = (h', .ub) := by
  simp [M.bind, e]

theorem appendChild_eq (alloc : Nat → Bool) (p : Nat) (name : Str) (attr : Attrs) (h : Heap) (c : Cell) (hc : h.cell p = some c)
    (hp : p < h.next) : appendChild alloc p name attr h =
      if alloc h.tick then
        if alloc (h.tick + 1) then
          (⟨fun i => if i = h.next then some ⟨name, attr, [], some p, []⟩ else
              if i = p then some { c with child := c.child ++ [some h.next] } else h.cell i, h.next + 1, h.tick + 2⟩, .ok h.next)
        else (⟨fun i => if i = p then some { c with child := c.child ++ [none] } else h.cell i, h.next, h.tick + 2⟩, .throw)
      else (⟨h.cell, h.next, h.tick + 1⟩, .throw) := by
  have hne : p ≠ h.next := by omega
  unfold appendChild M.bind ask
  by_cases h1 : alloc h.tick
  · by_cases h2 : alloc (h.tick + 1)
    · simp [h1, h2, modify, hc, newNode, hne, hne.symm, lift]
      funext i
      by_cases a1 : i = h.next <;> by_cases a2 : i = p <;> simp_all
    · simp [h1, h2, modify, hc, newNode, hne, lift]
  · simp [h1]

theorem Grown.trans {h h' h'' : Heap} {id : Nat} {n n' : List Nat} (a : Grown h h' id n) (b : Grown h' h'' id n') :
    Grown h h'' id (n ++ n') := by
  have h1 := a.next
  have h2 := b.next
  refine ⟨by omega, fun i hi hne => by rw [b.keep i (by omega) hne, a.keep i hi hne], fun i => ?_⟩
  rw [List.mem_append, a.range, b.range]
  omega

theorem Grown.refl (h : Heap) (id : Nat) (t : Nat) : Grown h { h with tick := t } id [] :=
  ⟨Nat.le_refl _, fun _ _ _ => rfl, fun i => by simp⟩

theorem Filling.content {h : Heap} {w : Bool} {id : Nat} {cl : Cell} {ts : List Node} {as : List Nat} (f : Filling h w id cl ts as) (t : Str) :
    let h' : Heap := { h with cell := fun i => if i = id then some { cl with content := t } else h.cell i }
    Filling h' w id { cl with content := t } ts as ∧ Grown h h' id [] := by
  intro h'
  refine ⟨⟨by simp [h'], f.kids.frame fun i hi => ?_, f.nodup, f.other, f.old, f.olds, fun i hi => ?_⟩, ⟨Nat.le_refl _, fun i _ hne => by simp [h', hne], fun i => ?_⟩⟩
  · have : i ≠ id := fun e => f.other (e ▸ hi)
    simp [h', this]
  · have h1 := f.old
    have h2 : i ≠ id := by change h.next ≤ i at hi; omega
    simp only [h', if_neg h2]
    exact f.fresh i hi
  · simp [h']

theorem Filling.tick {h : Heap} {w : Bool} {id : Nat} {cl : Cell} {ts : List Node} {as : List Nat} (f : Filling h w id cl ts as) (t : Nat) :
    Filling { h with tick := t } w id cl ts as := ⟨f.here, f.kids, f.nodup, f.other, f.old, f.olds, f.fresh⟩

/-- The memory after a child has been appended. -/
def appended (h : Heap) (id : Nat) (cl : Cell) (name : Str) (attr : Attrs) : Heap :=
  ⟨fun i => if i = h.next then some ⟨name, attr, [], some id, []⟩ else
    if i = id then some { cl with child := cl.child ++ [some h.next] } else h.cell i, h.next + 1, h.tick + 2⟩

theorem Filling.newChild {h : Heap} {w : Bool} {id : Nat} {cl : Cell} {ts : List Node} {as : List Nat} (f : Filling h w id cl ts as)
    (name : Str) (attr : Attrs) : Filling (appended h id cl name attr) true h.next ⟨name, attr, [], some id, []⟩ [] [] := by
  refine ⟨by simp [appended], .nil _, by simp, by simp, by simp [appended], by simp, fun i hi => ?_⟩
  have h1 := f.old
  have h2 : h.next + 1 ≤ i := hi
  simp only [appended]
  rw [if_neg (by omega), if_neg (by omega)]
  exact f.fresh i (by omega)

theorem Filling.attach {h h' : Heap} {w : Bool} {id : Nat} {cl cq : Cell} {ts us : List Node} {as new : List Nat} {name : Str}
    {attr : Attrs} (f : Filling h true id cl ts as) (g : Grown (appended h id cl name attr) h' h.next new)
    (f' : Filling h' w h.next cq us new) (hp : cq.parent = some id) :
    Filling h' w id { cl with child := cl.child ++ [some h.next] } (ts ++ [.mk cq.name cq.attr cq.content us]) (as ++ h.next :: new) ∧
      Grown h h' id (h.next :: new) := by
  have hold := f.old
  have hnx : h.next + 1 ≤ h'.next := g.next
  have keep : ∀ i, i < h.next → i ≠ id → h'.cell i = h.cell i := by
    intro i hi hne
    rw [g.keep i (by simp [appended]; omega) (by omega)]
    simp only [appended]
    rw [if_neg (by omega), if_neg hne]
  have hid : h'.cell id = some { cl with child := cl.child ++ [some h.next] } := by
    rw [g.keep id (by simp [appended]; omega) (by omega)]
    simp only [appended]
    rw [if_neg (by omega)]
    simp
  have hrange : ∀ i, i ∈ new → h.next + 1 ≤ i ∧ i < h'.next := fun i hi => (g.range i).1 hi
  have hk : Forest h'.cell w (some id) cl.child ts as := by
    have h1 : Forest h'.cell true (some id) cl.child ts as :=
      f.kids.frame fun i hi => keep i (f.olds i hi) (fun e => f.other (e ▸ hi))
    cases w
    · exact h1.weaken
    · exact h1
  refine ⟨⟨hid, ?_, ?_, ?_, by omega, ?_, f'.fresh⟩, ⟨by omega, keep, fun i => ?_⟩⟩
  · have := hk.append (Forest.node f'.here hp f'.kids (Forest.nil (some id)))
    simpa using this
  · rw [List.nodup_append]
    refine ⟨f.nodup, by rw [List.nodup_cons]; exact ⟨f'.other, f'.nodup⟩, fun a ha b hb => ?_⟩
    have h1 := f.olds a ha
    rw [List.mem_cons] at hb
    rcases hb with rfl | hb
    · omega
    · have := hrange b hb; omega
  · rw [List.mem_append, List.mem_cons]
    rintro (h1 | h1 | h1)
    · exact f.other h1
    · omega
    · have := hrange _ h1; omega
  · intro i hi
    rw [List.mem_append, List.mem_cons] at hi
    rcases hi with h1 | h1 | h1
    · have := f.olds i h1; omega
    · omega
    · have := hrange _ h1; omega
  · rw [List.mem_cons, g.range]
    simp only [appended]
    omega

/-- What `contentH` does. -/
theorem content_step {h : Heap} {id : Nat} {cl : Cell} {ts : List Node} {as : List Nat} (f : Filling h true id cl ts as) (s : Str) :
    ∃ h' cl' r, contentH id s h = (h', r) ∧ Filling h' true id cl' ts as ∧ Grown h h' id [] ∧ cl'.name = cl.name ∧ cl'.attr = cl.attr ∧
      cl'.parent = cl.parent ∧
      (∀ s', r = .ok s' → parseContent cl.content s = .ok (cl'.content, s')) ∧ (r = .throw → parseContent cl.content s = .throw) ∧
      (r = .ub → parseContent cl.content s = .ub) := by
  unfold contentH parseContent
  cases hq : query s with
  | ub => exact ⟨h, cl, .ub, by simp [M.bind, lift, hq], f, Grown.refl h id h.tick, rfl, rfl, rfl, by simp, by simp, by simp⟩
  | throw => exact ⟨h, cl, .throw, by simp [M.bind, lift, hq], f, Grown.refl h id h.tick, rfl, rfl, rfl, by simp, by simp, by simp⟩
  | ok c =>
    by_cases hc : c = 60
    · exact ⟨h, cl, .ok s, by simp [M.bind, lift, hc], f, Grown.refl h id h.tick, rfl, rfl, rfl, by simp [hc], by simp, by simp⟩
    · obtain ⟨f', g'⟩ := f.content (getWord (fun c => c ≠ 60) s).1
      refine ⟨_, _, if (getWord (fun c => c ≠ 60) s).2 = [] then .throw else .ok (getWord (fun c => c ≠ 60) s).2,
        by simp [M.bind, lift, hc, modify, f.here], f', g', rfl, rfl, rfl, ?_, ?_, ?_⟩
      · intro s' hr
        split at hr
        · cases hr
        · rename_i hne
          cases hr
          simp only [Res.ok_bind, ne_eq, hc, not_false_eq_true, if_true]
          rw [if_neg hne]
          rfl
      · intro hr
        split at hr
        · rename_i he
          simp only [Res.ok_bind, ne_eq, hc, not_false_eq_true, if_true]
          rw [if_pos he]
        · cases hr
      · intro hr
        split at hr <;> cases hr

/-- What `parseNodeH` does: the node `id` is filled further, and the result is that of the function on values unless memory runs out. -/
def Done (alloc : Nat → Bool) (h : Heap) (id : Nat) (cl : Cell) (as : List Nat) (pure : Res (Str × List Node × Str)) (x : Heap × Res Str) : Prop :=
  ∃ w cl' ts' new, Filling x.1 w id cl' ts' (as ++ new) ∧ Grown h x.1 id new ∧ cl'.name = cl.name ∧ cl'.attr = cl.attr ∧ cl'.parent = cl.parent ∧
    (w = false → (∃ k, alloc k = false) ∧ x.2 = .throw) ∧ (∀ s', x.2 = .ok s' → pure = .ok (cl'.content, ts', s')) ∧
    (x.2 = .throw → pure = .throw ∨ ∃ k, alloc k = false) ∧ (x.2 = .ub → pure = .ub)

theorem Done.after {alloc : Nat → Bool} {h h' : Heap} {id : Nat} {cl cl' : Cell} {as new : List Nat} {pure : Res (Str × List Node × Str)}
    {x : Heap × Res Str} (g : Grown h h' id new) (hn : cl'.name = cl.name) (ha : cl'.attr = cl.attr) (hp : cl'.parent = cl.parent)
    (d : Done alloc h' id cl' (as ++ new) pure x) : Done alloc h id cl as pure x := by
  obtain ⟨w, c2, ts2, n2, f2, g2, e1, e2, e3, e4⟩ := d
  exact ⟨w, c2, ts2, new ++ n2, by rw [← List.append_assoc]; exact f2, g.trans g2, by rw [e1, hn], by rw [e2, ha], by rw [e3, hp], e4⟩

theorem Done.stay {alloc : Nat → Bool} {h : Heap} {id : Nat} {cl : Cell} {ts : List Node} {as : List Nat} {pure : Res (Str × List Node × Str)}
    {r : Res Str} (f : Filling h true id cl ts as) (h1 : ∀ s', r = .ok s' → pure = .ok (cl.content, ts, s')) (h2 : r = .throw → pure = .throw)
    (h3 : r = .ub → pure = .ub) : Done alloc h id cl as pure (h, r) :=
  ⟨true, cl, ts, [], by simpa using f, Grown.refl h id h.tick, rfl, rfl, rfl, by simp, h1, fun e => .inl (h2 e), h3⟩

theorem Done.noMemory {alloc : Nat → Bool} {h : Heap} {id : Nat} {cl : Cell} {ts : List Node} {as : List Nat} {pure : Res (Str × List Node × Str)}
    (f : Filling h true id cl ts as) (name : Str) (attr : Attrs) (hn : ¬ (alloc h.tick = true ∧ alloc (h.tick + 1) = true)) :
    ∃ h', appendChild alloc id name attr h = (h', .throw) ∧ Done alloc h id cl as pure (h', .throw) := by
  rw [appendChild_eq alloc id name attr h cl f.here f.old]
  have hid := f.old
  by_cases h1 : alloc h.tick = true
  · have h2 : alloc (h.tick + 1) = false := by
      cases e : alloc (h.tick + 1)
      · rfl
      · exact absurd ⟨h1, e⟩ hn
    refine ⟨⟨fun i => if i = id then some { cl with child := cl.child ++ [none] } else h.cell i, h.next, h.tick + 2⟩,
      by rw [if_pos h1, if_neg (by simp [h2])], false, { cl with child := cl.child ++ [none] }, ts, [], ⟨by simp, ?_, by simpa using f.nodup,
      by simpa using f.other, hid, by simpa using f.olds, fun i hi => ?_⟩, ⟨Nat.le_refl _, fun i _ hne => by simp [hne], by simp⟩, rfl, rfl, rfl,
      fun _ => ⟨⟨_, h2⟩, rfl⟩, by simp, fun _ => .inr ⟨_, h2⟩, by simp⟩
    · have hk : Forest h.cell false (some id) (cl.child ++ [none]) (ts ++ []) (as ++ []) :=
        f.kids.weaken.append (.null rfl (.nil _))
      rw [List.append_nil] at hk
      refine hk.frame fun i hi => ?_
      have : i ≠ id := fun e => f.other (by rw [← e]; simpa using hi)
      simp [this]
    · have h3 : h.next ≤ i := hi
      have : i ≠ id := by omega
      simp only [if_neg this]
      exact f.fresh i h3
  · refine ⟨_, by rw [if_neg h1], true, cl, ts, [], by simpa using f.tick _, Grown.refl h id _, rfl, rfl, rfl, by simp, by simp, fun _ => .inr ⟨h.tick, by simpa using h1⟩, by simp⟩

theorem parseNode_done (alloc : Nat → Bool) (fuel : Nat) : ∀ (id : Nat) (s : Str) (h : Heap) (cl : Cell) (ts : List Node) (as : List Nat),
    Filling h true id cl ts as → Done alloc h id cl as (parseNode fuel cl.name cl.content ts s) (parseNodeH alloc fuel id s h) := by
  induction fuel with
  | zero =>
    intro id s h cl ts as f
    exact Done.stay f (by simp) (by simp) (by simp [parseNode])
  | succ fuel ih =>
    intro id s h cl ts as f
    unfold parseNodeH parseNode
    dsimp only
    by_cases he : skipSpace s = []
    · rw [if_pos he, if_pos he]
      exact Done.stay f (by simp) (by simp) (by simp)
    rw [if_neg he, if_neg he]
    obtain ⟨h1, c1, r1, e1, f1, g1, n1, a1, p1, k1, k2, k3⟩ := content_step f (skipSpace s)
    cases r1 with
    | ub =>
      rw [M.bind_ub e1, k3 rfl]
      exact Done.after g1 n1 a1 p1 (by simpa using Done.stay f1 (by simp) (by simp) (by simp))
    | throw =>
      rw [M.bind_throw e1, k2 rfl]
      exact Done.after g1 n1 a1 p1 (by simpa using Done.stay f1 (by simp) (by simp) (by simp))
    | ok s1 =>
      rw [M.bind_ok e1, k1 s1 rfl]
      refine Done.after g1 n1 a1 p1 ?_
      rw [List.append_nil, ← n1]
      simp only [Res.ok_bind]
      cases ht : parseTag (fuel + 1) s1 with
      | ub => rw [M.bind_ub (h' := h1) rfl]; exact Done.stay f1 (by simp) (by simp) (by simp)
      | throw => rw [M.bind_throw (h' := h1) rfl]; exact Done.stay f1 (by simp) (by simp) (by simp)
      | ok t =>
        obtain ⟨type, name, attr, s2⟩ := t
        rw [M.bind_ok (h' := h1) rfl]
        simp only [Res.ok_bind]
        cases type with
        | «end» =>
          dsimp only
          rw [M.bind_ok (h' := h1) (a := c1) (by simp [deref, f1.here])]
          refine Done.stay f1 ?_ ?_ ?_
          · intro s' hs
            split at hs
            · cases hs
            · rename_i hne
              cases hs
              rw [if_neg hne]
              rfl
          · intro hs
            split at hs
            · rename_i hne
              rw [if_pos hne]
            · cases hs
          · intro hs
            split at hs <;> cases hs
        | begin =>
          dsimp only
          by_cases hm : alloc h1.tick = true ∧ alloc (h1.tick + 1) = true
          · have ea : appendChild alloc id name attr h1 = (appended h1 id c1 name attr, .ok h1.next) := by
              rw [appendChild_eq alloc id name attr h1 c1 f1.here f1.old, if_pos hm.1, if_pos hm.2]
              rfl
            rw [M.bind_ok ea]
            have d := ih h1.next s2 _ _ _ _ (f1.newChild name attr)
            obtain ⟨w, cq, us, new, fq, gq, nq, aq, pq, w1, w2, w3, w4⟩ := d
            rw [List.nil_append] at fq
            obtain ⟨f3, g3⟩ := f1.attach gq fq pq
            cases hr : (parseNodeH alloc fuel h1.next s2 (appended h1 id c1 name attr)).2 with
            | ok s3 =>
              rw [M.bind_ok (a := s3) (Prod.ext rfl hr), w2 s3 hr]
              have hw : w = true := by
                cases w
                · rw [(w1 rfl).2] at hr; cases hr
                · rfl
              subst hw
              refine Done.after (cl' := { c1 with child := c1.child ++ [some h1.next] }) g3 rfl rfl rfl ?_
              have d2 := ih id s3 _ _ _ _ f3
              rw [nq, aq] at d2
              exact d2
            | throw =>
              rw [M.bind_throw (Prod.ext rfl hr)]
              refine ⟨w, _, _, _, f3, g3, rfl, rfl, rfl, fun e => ⟨(w1 e).1, rfl⟩, by simp, fun _ => ?_, by simp⟩
              rcases w3 hr with e | e
              · left
                have e' : parseNode fuel name [] [] s2 = .throw := e
                rw [e']
                rfl
              · exact .inr e
            | ub =>
              rw [M.bind_ub (Prod.ext rfl hr)]
              refine ⟨w, _, _, _, f3, g3, rfl, rfl, rfl, fun e => ?_, by simp, by simp, fun _ => ?_⟩
              · rw [(w1 e).2] at hr; cases hr
              · have e' : parseNode fuel name [] [] s2 = .ub := w4 hr
                rw [e']
                rfl
          · obtain ⟨h2, e2, d2⟩ := Done.noMemory (pure := do
                let (content2, child2, s) ← parseNode fuel name [] [] s2
                parseNode fuel c1.name c1.content (ts ++ [.mk name attr content2 child2]) s) f1 name attr hm
            rw [M.bind_throw e2]
            exact d2
        | complete =>
          dsimp only
          by_cases hm : alloc h1.tick = true ∧ alloc (h1.tick + 1) = true
          · have ea : appendChild alloc id name attr h1 = (appended h1 id c1 name attr, .ok h1.next) := by
              rw [appendChild_eq alloc id name attr h1 c1 f1.here f1.old, if_pos hm.1, if_pos hm.2]
              rfl
            rw [M.bind_ok ea]
            obtain ⟨f3, g3⟩ := f1.attach (Grown.refl _ _ (h1.tick + 2)) (f1.newChild name attr) rfl
            refine Done.after (cl' := { c1 with child := c1.child ++ [some h1.next] }) g3 rfl rfl rfl ?_
            have d2 := ih id s2 _ _ _ _ f3
            exact d2
          · obtain ⟨h2, e2, d2⟩ := Done.noMemory (pure := parseNode fuel c1.name c1.content (ts ++ [.mk name attr [] []]) s2) f1 name attr hm
            rw [M.bind_throw e2]
            exact d2

/-- The part of `parseH` after the root was made. -/
def body (alloc : Nat → Bool) (fuel : Nat) (r : Nat) (s : Str) : M Unit :=
  (lift (parseAttributes false fuel [] s)).bind fun (_, _, s) =>
  (lift (parseTag fuel s)).bind fun (type, name, attr, s) =>
  (modify r fun c => { c with name := name, attr := attr }).bind fun _ =>
  match type with
  | .end => lift .throw
  | .begin => (parseNodeH alloc fuel r s).bind fun _ => lift (.ok ())
  | .complete => lift (.ok ())

theorem parseH_eq (alloc : Nat → Bool) (fuel : Nat) (root : Option Nat) (s : Str) (h : Heap) :
    parseH alloc fuel root s h =
      if (getWord isName (skipSpace s)).1 ≠ [60, 63, 120, 109, 108] then (h, root, .throw)
      else if alloc h.tick then
        let b := body alloc fuel h.next (getWord isName (skipSpace s)).2
          ⟨fun i => if i = h.next then some ⟨[], [], [], none, []⟩ else h.cell i, h.next + 1, h.tick + 1⟩
        (b.1, some h.next, b.2)
      else ({ h with tick := h.tick + 1 }, root, .throw) := by
  unfold parseH
  dsimp only
  split
  · rfl
  · by_cases ha : alloc h.tick = true
    · simp only [newNode, if_pos ha]
      rfl
    · simp only [newNode, if_neg ha]

/-- What is known after the root was made. -/
structure Rooted (h h' : Heap) (w : Bool) (n : Node) (as : List Nat) : Prop where
  forest : Forest h'.cell w none [some h.next] [n] as
  nodup : as.Nodup
  range : ∀ i, i ∈ as ↔ h.next ≤ i ∧ i < h'.next
  keep : ∀ i, i < h.next → h'.cell i = h.cell i
  more : h.next < h'.next
  fresh : ∀ i, h'.next ≤ i → h'.cell i = none

theorem Filling.rooted {h h' : Heap} {w : Bool} {cl : Cell} {ts : List Node} {as : List Nat} {c0 : Cell} {t : Nat} (f : Filling h' w h.next cl ts as)
    (hp : cl.parent = none)
    (g : Grown ⟨fun i => if i = h.next then some c0 else h.cell i, h.next + 1, t⟩ h' h.next as) :
    Rooted h h' w (.mk cl.name cl.attr cl.content ts) (h.next :: as) := by
  have h1 : h.next + 1 ≤ h'.next := g.next
  refine ⟨?_, List.nodup_cons.2 ⟨f.other, f.nodup⟩, fun i => ?_, fun i hi => ?_, by omega, f.fresh⟩
  · have := Forest.node f.here hp f.kids (.nil none)
    simpa using this
  · rw [List.mem_cons, g.range]
    dsimp only
    omega
  · rw [g.keep i (by dsimp only; omega) (by omega)]
    dsimp only
    rw [if_neg (by omega)]

theorem parseH_done (alloc : Nat → Bool) (fuel : Nat) (root : Option Nat) (s : Str) (h : Heap) (hfresh : ∀ i, h.next ≤ i → h.cell i = none) :
    ∃ h' root' r, parseH alloc fuel root s h = (h', root', r) ∧
      (h'.cell = h.cell ∧ h'.next = h.next ∧ root' = root ∧ r = .throw ∧ (parse fuel s = .throw ∨ ∃ k, alloc k = false) ∨
       root' = some h.next ∧ (getWord isName (skipSpace s)).1 = [60, 63, 120, 109, 108] ∧ ∃ w n as, Rooted h h' w n as ∧ (w = false → (∃ k, alloc k = false) ∧ r = .throw) ∧
        (r = .ok () → ∃ hdr, parse fuel s = .ok (hdr, n)) ∧ (r = .throw → parse fuel s = .throw ∨ ∃ k, alloc k = false) ∧
        (r = .ub → parse fuel s = .ub)) := by
  rw [parseH_eq]
  by_cases hw : (getWord isName (skipSpace s)).1 ≠ [60, 63, 120, 109, 108]
  · rw [if_pos hw]
    refine ⟨_, _, _, rfl, .inl ⟨rfl, rfl, rfl, rfl, .inl ?_⟩⟩
    unfold parse readHeader
    simp only [if_pos hw]
    rfl
  rw [if_neg hw]
  by_cases ha : ¬ alloc h.tick = true
  · rw [if_neg ha]
    exact ⟨_, _, _, rfl, .inl ⟨rfl, rfl, rfl, rfl, .inr ⟨h.tick, by simpa using ha⟩⟩⟩
  have ha : alloc h.tick = true := Classical.not_not.1 ha
  rw [if_pos ha]
  refine ⟨_, _, _, rfl, .inr ⟨rfl, by simpa using hw, ?_⟩⟩
  have hpe : parse fuel s = (parseAttributes false fuel [] (getWord isName (skipSpace s)).2).bind (fun x =>
      (parseTag fuel x.2.2).bind fun (type, name, attr, s) => match type with
        | .end => .throw
        | .begin => (parseNode fuel name [] [] s).bind fun (content, child, _) => .ok (x.2.1, .mk name attr content child)
        | .complete => .ok (x.2.1, .mk name attr [] [])) := by
    unfold parse readHeader
    simp only [if_neg hw]
    cases parseAttributes false fuel [] (getWord isName (skipSpace s)).2 <;> rfl
  rw [hpe]
  clear hpe hw
  generalize (getWord isName (skipSpace s)).2 = s1
  have f0 : ∀ name attr, Filling ⟨fun i => if i = h.next then some ⟨name, attr, [], none, []⟩ else h.cell i, h.next + 1, h.tick + 1⟩ true h.next
      ⟨name, attr, [], none, []⟩ [] [] := fun name attr =>
    ⟨by simp, .nil _, by simp, by simp, by simp, by simp, fun i hi => by
      have : h.next + 1 ≤ i := hi
      dsimp only
      rw [if_neg (by omega)]
      exact hfresh i (by omega)⟩
  unfold body
  cases e1 : parseAttributes false fuel [] s1 with
  | ub =>
    rw [M.bind_ub rfl]
    exact ⟨true, _, _, (f0 [] []).rooted rfl (Grown.refl ⟨_, _, h.tick + 1⟩ _ (h.tick + 1)), by simp, by simp, by simp, fun _ => rfl⟩
  | throw =>
    rw [M.bind_throw rfl]
    exact ⟨true, _, _, (f0 [] []).rooted rfl (Grown.refl ⟨_, _, h.tick + 1⟩ _ (h.tick + 1)), by simp, by simp, fun _ => .inl rfl, by simp⟩
  | ok x =>
    obtain ⟨x1, hdr, s2⟩ := x
    rw [M.bind_ok rfl]
    dsimp only [Res.bind]
    cases e2 : parseTag fuel s2 with
    | ub =>
      rw [M.bind_ub rfl]
      exact ⟨true, _, _, (f0 [] []).rooted rfl (Grown.refl ⟨_, _, h.tick + 1⟩ _ (h.tick + 1)), by simp, by simp, by simp, fun _ => rfl⟩
    | throw =>
      rw [M.bind_throw rfl]
      exact ⟨true, _, _, (f0 [] []).rooted rfl (Grown.refl ⟨_, _, h.tick + 1⟩ _ (h.tick + 1)), by simp, by simp, fun _ => .inl rfl, by simp⟩
    | ok t =>
      obtain ⟨type, name, attr, s3⟩ := t
      rw [M.bind_ok rfl]
      dsimp only
      have em : modify h.next (fun c => { c with name := name, attr := attr })
          ⟨fun i => if i = h.next then some ⟨[], [], [], none, []⟩ else h.cell i, h.next + 1, h.tick + 1⟩ =
          (⟨fun i => if i = h.next then some ⟨name, attr, [], none, []⟩ else h.cell i, h.next + 1, h.tick + 1⟩, .ok ()) := by
        simp only [modify, if_true]
        congr 2
        funext i
        by_cases hi : i = h.next <;> simp [hi]
      rw [M.bind_ok em]
      cases type with
      | «end» => exact ⟨true, _, _, (f0 name attr).rooted rfl (Grown.refl ⟨_, _, h.tick + 1⟩ _ (h.tick + 1)), by simp, by simp [lift], fun _ => .inl rfl, by simp [lift]⟩
      | complete => exact ⟨true, _, _, (f0 name attr).rooted rfl (Grown.refl ⟨_, _, h.tick + 1⟩ _ (h.tick + 1)), by simp, fun _ => ⟨hdr, rfl⟩, by simp [lift], by simp [lift]⟩
      | begin =>
        dsimp only
        obtain ⟨w, cl, ts, new, f1, g1, n1, a1, p1, w1, w2, w3, w4⟩ := parseNode_done alloc fuel h.next s3 _ _ _ _ (f0 name attr)
        rw [List.nil_append] at f1
        have fr := f1.rooted p1 g1
        rw [n1, a1] at fr
        cases hr : (parseNodeH alloc fuel h.next s3 ⟨fun i => if i = h.next then some ⟨name, attr, [], none, []⟩ else h.cell i, h.next + 1, h.tick + 1⟩).2 with
        | ok s4 =>
          rw [M.bind_ok (a := s4) (Prod.ext rfl hr)]
          have e4 : parseNode fuel name [] [] s3 = _ := w2 s4 hr
          rw [e4]
          exact ⟨w, _, _, fr, (fun e => by rw [(w1 e).2] at hr; cases hr), fun _ => ⟨hdr, rfl⟩, by simp [lift], by simp [lift]⟩
        | throw =>
          rw [M.bind_throw (Prod.ext rfl hr)]
          refine ⟨w, _, _, fr, fun e => ⟨(w1 e).1, rfl⟩, by simp, fun _ => ?_, by simp⟩
          rcases w3 hr with e4 | e4
          · have e4' : parseNode fuel name [] [] s3 = _ := e4
            rw [e4']
            exact .inl rfl
          · exact .inr e4
        | ub =>
          rw [M.bind_ub (Prod.ext rfl hr)]
          have e4 : parseNode fuel name [] [] s3 = _ := w4 hr
          rw [e4]
          exact ⟨w, _, _, fr, (fun e => by rw [(w1 e).2] at hr; cases hr), by simp, by simp, fun _ => rfl⟩

/-- Searching a forest without null pointers. -/
theorem findAll_ok {c : Nat → Option Cell} {par : Option Nat} {ps : List (Option Nat)} {ts : List Node} {as : List Nat}
    (hf : Forest c true par ps ts as) (v : Str) :
    ∃ n r, First c v ps r ∧ (r = none ↔ getFirstList v ts = none) ∧
      (∀ id, r = some id → ∃ m par' bs, getFirstList v ts = some m ∧ id ∈ as ∧ Forest c true par' [some id] [m] bs) ∧
      ∀ fuel, n ≤ fuel → ∀ h : Heap, h.cell = c → findAll v fuel ps h = .ok r := by
  induction hf with
  | nil par =>
    refine ⟨1, none, .none, by simp [getFirstList], by simp, fun fuel hl h _ => ?_⟩
    obtain ⟨k, rfl⟩ : ∃ k, fuel = k + 1 := ⟨fuel - 1, by omega⟩
    rfl
  | null hw => cases hw
  | @node par id cl ps ts us as bs hc hp h1 h2 ih1 ih2 =>
    obtain ⟨n1, r1, a1, b1, c1, d1⟩ := ih1
    obtain ⟨n2, r2, a2, b2, c2, d2⟩ := ih2
    by_cases hv : cl.name = v
    · refine ⟨1, some id, .here hc hv, by simp [getFirstList, getFirst, hv], ?_, fun fuel hl h he => ?_⟩
      · intro i hi
        cases hi
        exact ⟨_, par, _, by simp [getFirstList, getFirst, hv], by simp, .node hc hp h1 (.nil par)⟩
      · obtain ⟨k, rfl⟩ : ∃ k, fuel = k + 1 := ⟨fuel - 1, by omega⟩
        simp [findAll, he, hc, hv]
    · have hg : getFirstList v (.mk cl.name cl.attr cl.content ts :: us) =
          match getFirstList v ts with | some p => some p | none => getFirstList v us := by
        rw [getFirstList, getFirst, if_neg hv]
        cases getFirstList v ts <;> rfl
      cases r1 with
      | some r =>
        obtain ⟨m, p', bs', e1, e2, e3⟩ := c1 r rfl
        rw [hg, e1]
        refine ⟨n1 + 1, some r, .inside hc hv a1, by simp, ?_, fun fuel hl h he => ?_⟩
        · intro i hi
          cases hi
          exact ⟨m, p', bs', rfl, by simp [e2], e3⟩
        · obtain ⟨k, rfl⟩ : ∃ k, fuel = k + 1 := ⟨fuel - 1, by omega⟩
          simp [findAll, he, hc, hv, d1 k (by omega) h he]
      | none =>
        rw [hg, b1.1 rfl]
        refine ⟨max n1 n2 + 1, r2, .later hc hv a1 a2, b2, ?_, fun fuel hl h he => ?_⟩
        · intro i hi
          obtain ⟨m, p', bs', e1, e2, e3⟩ := c2 i hi
          exact ⟨m, p', bs', e1, by simp [e2], e3⟩
        · obtain ⟨k, rfl⟩ : ∃ k, fuel = k + 1 := ⟨fuel - 1, by omega⟩
          simp [findAll, he, hc, hv, d1 k (by omega) h he, d2 k (by omega) h he]

end Verif.XmlHeap
