import Verif.Model.ConfigPtr
import Verif.Proof.Config
set_option linter.unusedSimpArgs false

/-! Lemmas for C153. -/
namespace Verif.ConfigPtr
open Verif.Config

/-- Addresses are distinct and below the next one; names are distinct. -/
structure Inv (s : St) : Prop where
  names : ∀ x ∈ s.secs, ∀ y ∈ s.secs, x.1 = y.1 → x = y
  ids : ∀ x ∈ s.secs, ∀ y ∈ s.secs, x.2.id = y.2.id → x = y
  lt : ∀ x ∈ s.secs, x.2.id < s.next
  elt : ∀ x ∈ s.secs, ∀ a ∈ x.2.ents, a.2.id < s.next
  eids : ∀ x ∈ s.secs, ∀ y ∈ s.secs, ∀ a ∈ x.2.ents, ∀ b ∈ y.2.ents, a.2.id = b.2.id → x = y ∧ a = b

theorem inv_new : Inv St.new := ⟨by simp [St.new], by simp [St.new], by simp [St.new], by simp [St.new], by simp [St.new]⟩

theorem mapFind_mem {β : Type} {m : List (Str × β)} {k : Str} {b : β} (h : mapFind m k = some b) : (k, b) ∈ m := by
  rw [mapFind, Option.map_eq_some_iff] at h
  obtain ⟨x, h1, h2⟩ := h
  have h3 := List.mem_of_find?_eq_some h1
  have h4 := List.find?_some h1
  simp at h4
  rw [← h4, ← h2]
  exact h3

theorem mapFind_of_mem {s : St} (hi : Inv s) {n : Str} {sec : Sec} (h : (n, sec) ∈ s.secs) : mapFind s.secs n = some sec := by
  cases hf : mapFind s.secs n with
  | none =>
    rw [mapFind, Option.map_eq_none_iff, List.find?_eq_none] at hf
    have := hf _ h
    simp at this
  | some b =>
    have := hi.names _ (mapFind_mem hf) _ h rfl
    rw [(Prod.mk.inj this).2]

theorem sec?_of_mem {s : St} (hi : Inv s) {n : Str} {sec : Sec} (h : (n, sec) ∈ s.secs) : s.sec? sec.id = some sec := by
  rw [St.sec?]
  cases hf : s.secs.find? (fun x => x.2.id = sec.id) with
  | none =>
    rw [List.find?_eq_none] at hf
    have := hf _ h
    simp at this
  | some b =>
    have h3 := List.mem_of_find?_eq_some hf
    have h4 := List.find?_some hf
    simp at h4
    rw [hi.ids _ h3 _ h h4]
    rfl

theorem sec?_mem {s : St} {p : Nat} {sec : Sec} (h : s.sec? p = some sec) : sec.id = p ∧ ∃ n, (n, sec) ∈ s.secs := by
  rw [St.sec?, Option.map_eq_some_iff] at h
  obtain ⟨x, h1, h2⟩ := h
  have h3 := List.mem_of_find?_eq_some h1
  have h4 := List.find?_some h1
  simp at h4
  exact ⟨by rw [← h2]; exact h4, x.1, by rw [← h2]; exact h3⟩

theorem deref_of_mem {s : St} (hi : Inv s) {x : Str × Sec} (hx : x ∈ s.secs) {a : Str × Ent} (ha : a ∈ x.2.ents) : s.deref a.2.id = .ok a.2.val := by
  rw [St.deref]
  cases hf : (s.secs.flatMap (fun x => x.2.ents)).find? (fun x => x.2.id = a.2.id) with
  | none =>
    rw [List.find?_eq_none] at hf
    have := hf a (List.mem_flatMap.2 ⟨x, hx, ha⟩)
    simp at this
  | some b =>
    have h3 := List.mem_of_find?_eq_some hf
    have h4 := List.find?_some hf
    simp at h4
    obtain ⟨y, hy, hb⟩ := List.mem_flatMap.1 h3
    rw [(hi.eids y hy x hx b hb a ha h4).2]

/-- What was there is still there; the texts of sections outside `N` are as well. -/
def Ext (N : Str → Prop) (s t : St) : Prop :=
  ∀ x ∈ s.secs, ∃ y ∈ t.secs, y.1 = x.1 ∧ y.2.id = x.2.id ∧ (¬ N x.1 → ∀ k a, mapFind x.2.ents k = some a → mapFind y.2.ents k = some a)

theorem Ext.rfl' {N : Str → Prop} (s : St) : Ext N s s := fun x hx => ⟨x, hx, rfl, rfl, fun _ _ _ h => h⟩

theorem Ext.trans {N : Str → Prop} {s t u : St} (h1 : Ext N s t) (h2 : Ext N t u) : Ext N s u := by
  intro x hx
  obtain ⟨y, hy, a1, a2, a3⟩ := h1 x hx
  obtain ⟨z, hz, b1, b2, b3⟩ := h2 y hy
  exact ⟨z, hz, b1.trans a1, b2.trans a2, fun hn k a h => b3 (by rw [a1]; exact hn) k a (a3 hn k a h)⟩

theorem Ext.mono {N M : Str → Prop} {s t : St} (h : Ext N s t) (hNM : ∀ n, N n → M n) : Ext M s t := by
  intro x hx
  obtain ⟨y, hy, a1, a2, a3⟩ := h x hx
  exact ⟨y, hy, a1, a2, fun hn => a3 fun h => hn (hNM _ h)⟩

theorem mem_setEnts {s : St} {p : Nat} {es : List (Str × Ent)} {x : Str × Sec} (h : x ∈ s.setEnts p es) :
    (x ∈ s.secs ∧ x.2.id ≠ p) ∨ ∃ y ∈ s.secs, y.2.id = p ∧ x = (y.1, ⟨p, es⟩) := by
  rw [St.setEnts, List.mem_map] at h
  obtain ⟨y, hy, e⟩ := h
  split at e
  next h => exact .inr ⟨y, hy, h, e.symm⟩
  next h => exact .inl ⟨by rw [← e]; exact hy, by rw [← e]; exact h⟩

theorem setEnts_inv {s : St} (hi : Inv s) (p : Nat) (es : List (Str × Ent)) (n' : Nat) (hn : s.next ≤ n') (h1 : ∀ a ∈ es, a.2.id < n')
    (h2 : ∀ a ∈ es, s.next ≤ a.2.id ∨ ∃ x ∈ s.secs, x.2.id = p ∧ a ∈ x.2.ents) (h3 : ∀ a ∈ es, ∀ b ∈ es, a.2.id = b.2.id → a = b) :
    Inv ⟨s.setEnts p es, n'⟩ := by
  have key : ∀ x ∈ s.setEnts p es, ∃ y ∈ s.secs, y.1 = x.1 ∧ y.2.id = x.2.id ∧ (x.2.id ≠ p → y = x) ∧ (x.2.id = p → x = (y.1, ⟨p, es⟩)) := by
    intro x hx
    rcases mem_setEnts hx with ⟨h, h'⟩ | ⟨y, hy, h, h'⟩
    · exact ⟨x, h, rfl, rfl, fun _ => rfl, fun g => absurd g h'⟩
    · refine ⟨y, hy, by rw [h'], by rw [h', h], fun g => absurd (by rw [h']) g, fun _ => h'⟩
  have uniq : ∀ x ∈ s.setEnts p es, ∀ y ∈ s.setEnts p es, x.1 = y.1 ∨ x.2.id = y.2.id → x = y := by
    intro x hx y hy h
    obtain ⟨u, hu, u1, u2, u3, u4⟩ := key x hx
    obtain ⟨v, hv, v1, v2, v3, v4⟩ := key y hy
    have huv : u = v := by
      rcases h with h | h
      · exact hi.names u hu v hv (by rw [u1, v1, h])
      · exact hi.ids u hu v hv (by rw [u2, v2, h])
    subst huv
    have hxy : x.2.id = y.2.id := by rw [← u2, ← v2]
    by_cases hp : x.2.id = p
    · rw [u4 hp, v4 (hxy ▸ hp)]
    · rw [← u3 hp, ← v3 (hxy ▸ hp)]
  refine ⟨fun x hx y hy h => uniq x hx y hy (.inl h), fun x hx y hy h => uniq x hx y hy (.inr h), ?_, ?_, ?_⟩
  · intro x hx
    obtain ⟨u, hu, u1, u2, _⟩ := key x hx
    have := hi.lt u hu
    show x.2.id < n'
    omega
  · intro x hx a ha
    show a.2.id < n'
    rcases mem_setEnts hx with ⟨h, _⟩ | ⟨y, hy, h, h'⟩
    · have := hi.elt x h a ha; omega
    · rw [h'] at ha; exact h1 a ha
  · intro x hx y hy a ha b hb hab
    have cross : ∀ x y : Str × Sec, x ∈ s.secs → x.2.id ≠ p → (∃ u ∈ s.secs, u.2.id = p ∧ y = (u.1, ⟨p, es⟩)) → ∀ a ∈ x.2.ents, ∀ b ∈ y.2.ents, a.2.id ≠ b.2.id := by
      intro x y hx hxp ⟨u, hu, hup, hy⟩ a ha b hb e
      rw [hy] at hb
      rcases h2 b hb with h | ⟨v, hv, hvp, hbv⟩
      · have := hi.elt x hx a ha; omega
      · have := (hi.eids x hx v hv a ha b hbv e).1
        rw [this] at hxp
        exact hxp hvp
    rcases mem_setEnts hx with ⟨g1, g2⟩ | g
    · rcases mem_setEnts hy with ⟨k1, k2⟩ | k
      · exact hi.eids x g1 y k1 a ha b hb hab
      · exact absurd hab (cross x y g1 g2 k a ha b hb)
    · rcases mem_setEnts hy with ⟨k1, k2⟩ | k
      · exact absurd hab.symm (cross y x k1 k2 g b hb a ha)
      · obtain ⟨u, hu, u1, u2⟩ := g
        obtain ⟨v, hv, v1, v2⟩ := k
        have : x = y := uniq x hx y hy (.inr (by rw [u2, v2]))
        refine ⟨this, ?_⟩
        rw [u2] at ha
        rw [v2] at hb
        exact h3 a ha b hb hab

theorem setEnts_ext {N : Str → Prop} {s : St} (p : Nat) (es : List (Str × Ent)) (n' : Nat)
    (h : ∀ x ∈ s.secs, x.2.id = p → ¬ N x.1 → ∀ k a, mapFind x.2.ents k = some a → mapFind es k = some a) : Ext N s ⟨s.setEnts p es, n'⟩ := by
  intro x hx
  by_cases hp : x.2.id = p
  · refine ⟨(x.1, ⟨p, es⟩), ?_, rfl, hp.symm, h x hx hp⟩
    show _ ∈ s.setEnts p es
    rw [St.setEnts, List.mem_map]
    exact ⟨x, hx, by rw [if_pos hp]⟩
  · refine ⟨x, ?_, rfl, rfl, fun _ _ _ h => h⟩
    show _ ∈ s.setEnts p es
    rw [St.setEnts, List.mem_map]
    exact ⟨x, hx, by rw [if_neg hp]⟩

theorem mapFind_none {β : Type} {m : List (Str × β)} {k : Str} (h : mapFind m k = none) : ∀ y ∈ m, y.1 ≠ k := by
  intro y hy e
  rw [mapFind, Option.map_eq_none_iff, List.find?_eq_none] at h
  have := h y hy
  simp [e] at this

theorem appendSection_inv {N : Str → Prop} {s t : St} {n : Str} {p : Nat} (hi : Inv s) (h : appendSection s n = some (t, p)) :
    Inv t ∧ Ext N s t ∧ (∃ sec, (n, sec) ∈ t.secs ∧ sec.id = p) ∧ isName n = true ∧ s.next ≤ t.next := by
  rw [appendSection] at h
  cases hn : isName n with
  | false => rw [hn] at h; simp at h
  | true =>
    rw [hn] at h
    simp only [Bool.not_true, Bool.false_eq_true, if_false] at h
    cases hf : mapFind s.secs n with
    | some sec =>
      rw [hf] at h
      simp only [Option.some.injEq, Prod.mk.injEq] at h
      obtain ⟨h1, h2⟩ := h
      subst h1
      exact ⟨hi, Ext.rfl' _, ⟨sec, mapFind_mem hf, h2⟩, rfl, Nat.le_refl _⟩
    | none =>
      rw [hf] at h
      simp only [Option.some.injEq, Prod.mk.injEq] at h
      obtain ⟨h1, h2⟩ := h
      subst h1
      have hne := mapFind_none hf
      refine ⟨⟨?_, ?_, ?_, ?_, ?_⟩, ?_, ⟨⟨s.next, []⟩, (place_mem _ _ _).2 (.inl rfl), h2⟩, rfl, by simp⟩
      · intro x hx y hy e
        rcases (place_mem _ _ _).1 hx with hx | hx <;> rcases (place_mem _ _ _).1 hy with hy | hy
        · rw [hx, hy]
        · rw [hx] at e; exact absurd e.symm (hne y hy)
        · rw [hy] at e; exact absurd e (hne x hx)
        · exact hi.names x hx y hy e
      · intro x hx y hy e
        rcases (place_mem _ _ _).1 hx with hx | hx <;> rcases (place_mem _ _ _).1 hy with hy | hy
        · rw [hx, hy]
        · have := hi.lt y hy; rw [hx] at e; simp at e; omega
        · have := hi.lt x hx; rw [hy] at e; simp at e; omega
        · exact hi.ids x hx y hy e
      · intro x hx
        show x.2.id < s.next + 1
        rcases (place_mem _ _ _).1 hx with hx | hx
        · rw [hx]; simp
        · have := hi.lt x hx; omega
      · intro x hx a ha
        show a.2.id < s.next + 1
        rcases (place_mem _ _ _).1 hx with hx | hx
        · rw [hx] at ha; simp at ha
        · have := hi.elt x hx a ha; omega
      · intro x hx y hy a ha b hb e
        rcases (place_mem _ _ _).1 hx with hx | hx
        · rw [hx] at ha; simp at ha
        rcases (place_mem _ _ _).1 hy with hy | hy
        · rw [hy] at hb; simp at hb
        exact hi.eids x hx y hy a ha b hb e
      · intro x hx
        exact ⟨x, (place_mem _ _ _).2 (.inr hx), rfl, rfl, fun _ _ _ h => h⟩

theorem append_inv {N : Str → Prop} {s t : St} {p : Nat} {k v : Str} (hi : Inv s) (h : append s p k v = .ok t) : Inv t ∧ Ext N s t := by
  rw [append] at h
  cases hs : s.sec? p with
  | none => rw [hs] at h; simp at h
  | some sec =>
    rw [hs] at h
    simp only at h
    split at h
    · simp at h
    split at h
    · simp at h
    next hk =>
      simp only [Res.ok.injEq] at h
      subst h
      obtain ⟨hp, n, hm⟩ := sec?_mem hs
      have hfresh : ∀ y ∈ sec.ents, y.1 ≠ k := by
        intro y hy e
        apply hk
        rw [List.any_eq_true]
        exact ⟨y, hy, by simpa using e⟩
      constructor
      · apply setEnts_inv hi
        · omega
        · intro a ha
          rcases (place_mem _ _ _).1 ha with ha | ha
          · rw [ha]; simp
          · have := hi.elt _ hm a ha; omega
        · intro a ha
          rcases (place_mem _ _ _).1 ha with ha | ha
          · left; rw [ha]; simp
          · exact .inr ⟨_, hm, hp, ha⟩
        · intro a ha b hb e
          rcases (place_mem _ _ _).1 ha with ha | ha <;> rcases (place_mem _ _ _).1 hb with hb | hb
          · rw [ha, hb]
          · have := hi.elt _ hm b hb; rw [ha] at e; simp at e; omega
          · have := hi.elt _ hm a ha; rw [hb] at e; simp at e; omega
          · exact (hi.eids _ hm _ hm a ha b hb e).2
      · apply setEnts_ext
        intro x hx hxp _ k' a hf
        have : x = (n, sec) := hi.ids x hx _ hm (by rw [hxp, hp])
        rw [this] at hf
        rw [mapFind_place _ _ _ hfresh]
        have hne : k' ≠ k := fun e => hfresh _ (mapFind_mem hf) (by rw [e])
        rw [if_neg hne]
        exact hf

theorem copies_mem (sec : Section) (n : Nat) : (∀ a ∈ copies n sec, n ≤ a.2.id ∧ a.2.id < n + sec.length) ∧
    ∀ a ∈ copies n sec, ∀ b ∈ copies n sec, a.2.id = b.2.id → a = b := by
  induction sec generalizing n with
  | nil => simp [copies]
  | cons x sec ih =>
    obtain ⟨k, v⟩ := x
    obtain ⟨h1, h2⟩ := ih (n + 1)
    rw [copies]
    constructor
    · intro a ha
      rcases List.mem_cons.1 ha with ha | ha
      · rw [ha]; simp
      · have := h1 a ha; simp; omega
    · intro a ha b hb e
      rcases List.mem_cons.1 ha with ha | ha <;> rcases List.mem_cons.1 hb with hb | hb
      · rw [ha, hb]
      · have := h1 b hb; rw [ha] at e; simp at e; omega
      · have := h1 a ha; rw [hb] at e; simp at e; omega
      · exact h2 a ha b hb e

theorem replace_inv {s t : St} {n : Str} {sec : Section} (hi : Inv s) (h : replace s n sec = some t) : Inv t ∧ Ext (fun m => m = n) s t := by
  rw [replace] at h
  cases ha : appendSection s n with
  | none => rw [ha] at h; simp at h
  | some r =>
    obtain ⟨u, p⟩ := r
    rw [ha] at h
    simp only [Option.some.injEq] at h
    obtain ⟨h1, h2, ⟨sc, h3, h4⟩, _, _⟩ := appendSection_inv (N := fun m => m = n) hi ha
    obtain ⟨c1, c2⟩ := copies_mem sec u.next
    subst h
    constructor
    · exact setEnts_inv h1 _ _ _ (by omega) (fun a ha => (c1 a ha).2) (fun a ha => .inl (c1 a ha).1) c2
    · refine h2.trans (setEnts_ext _ _ _ ?_)
      intro x hx hxp hn
      have := h1.ids x hx _ h3 (by rw [hxp, h4])
      rw [this] at hn
      exact absurd rfl hn

theorem loadLines_inv {N : Str → Prop} (ls : List Str) : ∀ {s : St} {p : Nat} {b : Bool} {t : St}, Inv s → loadLines s p ls = .ok (b, t) → Inv t ∧ Ext N s t := by
  induction ls with
  | nil =>
    intro s p b t hi h
    simp only [loadLines, Res.ok.injEq, Prod.mk.injEq] at h
    rw [← h.2]
    exact ⟨hi, Ext.rfl' _⟩
  | cons l ls ih =>
    intro s p b t hi h
    have stop : Res.ok (true, s) = Res.ok (b, t) → Inv t ∧ Ext N s t := by
      intro h
      simp only [Res.ok.injEq, Prod.mk.injEq] at h
      rw [← h.2]
      exact ⟨hi, Ext.rfl' _⟩
    rw [loadLines] at h
    split at h
    · simp at h
    · exact stop h
    · exact ih hi h
    next n _ =>
      split at h
      · exact stop h
      next u q e =>
        obtain ⟨h1, h2, _⟩ := appendSection_inv (N := N) hi e
        obtain ⟨h3, h4⟩ := ih h1 h
        exact ⟨h3, h2.trans h4⟩
    next k v _ =>
      split at h
      · simp at h
      · exact stop h
      next u e =>
        obtain ⟨h1, h2⟩ := append_inv (N := N) hi e
        obtain ⟨h3, h4⟩ := ih h1 h
        exact ⟨h3, h2.trans h4⟩

theorem load_inv {N : Str → Prop} {s t : St} {text : Str} {b : Bool} (hi : Inv s) (h : load s text = .ok (b, t)) : Inv t ∧ Ext N s t := by
  rw [load] at h
  split at h
  · simp only [Res.ok.injEq, Prod.mk.injEq] at h
    rw [← h.2]
    exact ⟨hi, Ext.rfl' _⟩
  next u p e =>
    obtain ⟨h1, h2, _⟩ := appendSection_inv (N := N) hi e
    obtain ⟨h3, h4⟩ := loadLines_inv (N := N) _ h1 h
    exact ⟨h3, h2.trans h4⟩

/-- The names whose sections are replaced. -/
def Replaced (os : List Op) (n : Str) : Prop := ∃ sec, Op.replace n sec ∈ os

theorem step_inv {s t : St} {o : Op} (hi : Inv s) (h : step s o = .ok t) : Inv t ∧ Ext (Replaced [o]) s t := by
  cases o with
  | newSection name =>
    simp only [step, Res.ok.injEq] at h
    cases ha : appendSection s name with
    | none => rw [ha] at h; simp at h; rw [← h]; exact ⟨hi, Ext.rfl' _⟩
    | some r =>
      obtain ⟨u, p⟩ := r
      rw [ha] at h
      simp at h
      subst h
      obtain ⟨h1, h2, _⟩ := appendSection_inv (N := Replaced [.newSection name]) hi ha
      exact ⟨h1, h2⟩
  | append p k v =>
    simp only [step] at h
    split at h
    next u e => simp only [Res.ok.injEq] at h; subst h; exact append_inv hi e
    · simp only [Res.ok.injEq] at h; subst h; exact ⟨hi, Ext.rfl' _⟩
    · simp at h
  | replace name sec =>
    simp only [step, Res.ok.injEq] at h
    cases ha : replace s name sec with
    | none => rw [ha] at h; simp at h; rw [← h]; exact ⟨hi, Ext.rfl' _⟩
    | some u =>
      rw [ha] at h
      simp at h
      subst h
      obtain ⟨h1, h2⟩ := replace_inv hi ha
      exact ⟨h1, h2.mono fun n hn => ⟨sec, by rw [hn]; simp⟩⟩
  | load text =>
    rw [step, Res.bind_eq_ok] at h
    obtain ⟨⟨b, u⟩, e, h⟩ := h
    simp only [Res.pure_eq, Res.ok.injEq] at h
    subst h
    exact load_inv hi e

theorem run_inv (os : List Op) : ∀ {s t : St}, Inv s → run s os = .ok t → Inv t ∧ Ext (Replaced os) s t := by
  induction os with
  | nil =>
    intro s t hi h
    simp only [run, Res.ok.injEq] at h
    rw [← h]
    exact ⟨hi, Ext.rfl' _⟩
  | cons o os ih =>
    intro s t hi h
    rw [run, Res.bind_eq_ok] at h
    obtain ⟨u, e, h⟩ := h
    obtain ⟨h1, h2⟩ := step_inv hi e
    obtain ⟨h3, h4⟩ := ih h1 h
    refine ⟨h3, Ext.trans (h2.mono ?_) (h4.mono ?_)⟩
    · rintro n ⟨sec, hm⟩
      simp at hm
      exact ⟨sec, by rw [← hm]; simp⟩
    · rintro n ⟨sec, hm⟩
      exact ⟨sec, by simp [hm]⟩

/-! ## The same as the model without addresses -/

/-- The texts of a section. -/
def texts (sec : Sec) : Section := sec.ents.map fun a => (a.1, a.2.val)

/-- The `Config` without addresses. -/
def forget (s : St) : Conf := s.secs.map fun x => (x.1, texts x.2)

theorem place_map {β γ : Type} (f : β → γ) (m : List (Str × β)) (x : Str × β) :
    (place m x).map (fun y => (y.1, f y.2)) = place (m.map fun y => (y.1, f y.2)) (x.1, f x.2) := by
  induction m with
  | nil => simp [place]
  | cons y m ih =>
    simp only [place, List.map_cons]
    split
    · simp
    · simp [ih]

theorem mapFind_map {β γ : Type} (f : β → γ) (m : List (Str × β)) (k : Str) :
    mapFind (m.map fun y => (y.1, f y.2)) k = (mapFind m k).map f := by
  induction m with
  | nil => simp [mapFind]
  | cons y m ih =>
    simp only [mapFind, List.map_cons, List.find?_cons] at ih ⊢
    by_cases h : y.1 = k
    · simp [h]
    · simp only [h, decide_false]
      exact ih

theorem appendSection_forget (s : St) (n : Str) :
    Config.appendSection (forget s) n = match appendSection s n with | none => .throw | some (t, _) => .ok (forget t) := by
  rw [Config.appendSection, appendSection]
  cases hn : isName n with
  | false => simp
  | true =>
    simp only [Bool.not_true, Bool.false_eq_true, if_false]
    rw [mapInsert]
    have ha : ((forget s).any fun y => y.1 = n) = (mapFind s.secs n).isSome := by
      rw [Bool.eq_iff_iff, any_iff, forget, mapFind_map]
      simp
    simp only [ha]
    cases mapFind s.secs n with
    | some sec => simp
    | none =>
      simp only [Option.isSome_none, Bool.false_eq_true, if_false, forget]
      rw [place_map texts]
      rfl

theorem forget_setEnts {s : St} (hi : Inv s) {n : Str} {sec : Sec} (h : (n, sec) ∈ s.secs) (es : List (Str × Ent)) (n' : Nat) :
    forget ⟨s.setEnts sec.id es, n'⟩ = assign (forget s) n (es.map fun a => (a.1, a.2.val)) := by
  simp only [forget, assign, St.setEnts, List.map_map]
  apply List.map_congr_left
  intro x hx
  simp only [Function.comp_apply]
  by_cases hp : x.2.id = sec.id
  · have := hi.ids x hx _ h hp
    rw [if_pos hp, this, if_pos rfl]
    rfl
  · rw [if_neg hp, if_neg]
    intro e
    exact hp (by rw [hi.names x hx _ h e])

theorem append_forget {s : St} (hi : Inv s) {n : Str} {sec : Sec} (h : (n, sec) ∈ s.secs) (k v : Str) :
    appendTo (forget s) n k v = (append s sec.id k v).bind fun t => .ok (forget t) := by
  rw [appendTo, Config.querySection, forget, mapFind_map texts, mapFind_of_mem hi h, append, sec?_of_mem hi h]
  simp only [Option.map_some]
  rw [Section.append]
  cases hn : isName k with
  | false => simp; rfl
  | true =>
    simp only [Bool.not_true, Bool.false_eq_true, if_false]
    rw [mapInsert]
    have ha : ((texts sec).any fun y => y.1 = k) = sec.ents.any fun y => y.1 = k := by
      rw [texts, List.any_map]
      rfl
    simp only [ha]
    cases hk : sec.ents.any fun y => y.1 = k with
    | true => simp; rfl
    | false =>
      simp only [Bool.false_eq_true, if_false, Bool.not_true, Bool.not_false]
      show Res.ok _ = Res.ok _
      rw [forget_setEnts hi h]
      rw [place_map Ent.val]
      rfl

theorem bodyAct_eq (c : Conf) (sec line : Str) : loadBody c sec line = (bodyAct line).bind fun a => match a with
    | .skip => .ok (c, sec)
    | .sec n => (Config.appendSection c n).bind fun c => .ok (c, n)
    | .pair k v => (appendTo c sec k v).bind fun c => .ok (c, sec) := by
  rw [loadBody, bodyAct]
  cases at? line 0 with
  | ub => rfl
  | throw => rfl
  | ok x =>
    simp only [Res.ok_bind]
    split
    · rfl
    split
    · cases at? line (line.length - 1) with
      | ub => rfl
      | throw => rfl
      | ok y =>
        simp only [Res.ok_bind]
        split <;> rfl
    · cases split line with
      | ub => rfl
      | throw => rfl
      | ok r => rfl

theorem lineAct_eq (c : Conf) (sec line : Str) : loadLine c sec line = (lineAct line).bind fun a => match a with
    | .skip => .ok (c, sec)
    | .sec n => (Config.appendSection c n).bind fun c => .ok (c, n)
    | .pair k v => (appendTo c sec k v).bind fun c => .ok (c, sec) := by
  rw [loadLine, lineAct]
  split
  · rfl
  cases at? line (line.length - 1) with
  | ub => rfl
  | throw => rfl
  | ok x =>
    simp only [Res.ok_bind]
    split
    · split
      · rfl
      · exact bodyAct_eq _ _ _
    · exact bodyAct_eq _ _ _

theorem lineAct_ne_ub (line : Str) : lineAct line ≠ .ub := by
  intro h
  have e := lineAct_eq [([], [])] [] line
  rw [h] at e
  by_cases hl : ∃ i, Verif.Spec.Config.Line (Verif.Spec.Config.chomp line) i
  · obtain ⟨i, hl⟩ := hl
    rw [loadLine_line _ _ _ i hl] at e
    cases i with
    | skip => cases e
    | «section» n =>
      simp only [applyItem, Config.appendSection] at e
      revert e
      split <;> (intro e; cases e)
    | entry k v =>
      simp only [applyItem, appendTo, Config.querySection, mapFind, List.find?_cons, List.find?_nil, decide_true, Option.map_some, Section.append,
        mapInsert, List.any_nil, Bool.false_eq_true, if_false, Bool.not_true] at e
      revert e
      split <;> (intro e; cases e)
  · rw [loadLine_bad _ _ _ hl] at e
    cases e

theorem loadLines_forget (ls : List Str) : ∀ {s : St} {n : Str} {sec : Sec}, Inv s → (n, sec) ∈ s.secs →
    ∃ b t, loadLines s sec.id ls = .ok (b, t) ∧ Config.loadLines (forget s) n ls = if b then .throw else .ok (forget t) := by
  induction ls with
  | nil => intro s n sec _ _; exact ⟨false, s, rfl, rfl⟩
  | cons l ls ih =>
    intro s n sec hi hm
    rw [loadLines, Config.loadLines, lineAct_eq]
    cases hl : lineAct l with
    | ub => exact absurd hl (lineAct_ne_ub l)
    | throw => exact ⟨true, s, rfl, rfl⟩
    | ok a =>
      cases a with
      | skip => exact ih hi hm
      | sec m =>
        simp only
        have e := appendSection_forget s m
        cases ha : appendSection s m with
        | none =>
          rw [ha] at e
          refine ⟨true, s, rfl, ?_⟩
          simp only at e
          show Res.bind (Res.bind (Res.ok _) _) _ = _
          simp only [Res.bind, e]
          rfl
        | some r =>
          obtain ⟨t, p⟩ := r
          rw [ha] at e
          simp only at e
          obtain ⟨h1, _, ⟨sc, h3, h4⟩, _⟩ := appendSection_inv (N := fun _ => False) hi ha
          obtain ⟨b, u, g1, g2⟩ := ih h1 h3
          refine ⟨b, u, by rw [← g1, h4], ?_⟩
          rw [← g2]
          show Res.bind (Res.bind (Res.ok _) _) _ = _
          simp only [Res.bind, e]
      | pair k v =>
        simp only
        have e := append_forget hi hm k v
        cases ha : append s sec.id k v with
        | ub =>
          rw [append, sec?_of_mem hi hm] at ha
          simp only at ha
          split at ha
          · simp at ha
          split at ha <;> simp at ha
        | throw =>
          rw [ha] at e
          refine ⟨true, s, rfl, ?_⟩
          show Res.bind (Res.bind (Res.ok _) _) _ = _
          simp only [Res.bind] at e ⊢
          simp only [e]
          rfl
        | ok t =>
          rw [ha] at e
          obtain ⟨h1, h2⟩ := append_inv (N := fun _ => False) hi ha
          obtain ⟨y, y1, y2, y3, _⟩ := h2 _ hm
          have hy : (n, y.2) ∈ t.secs := by rw [← show y.1 = n from y2]; exact y1
          obtain ⟨b, u, g1, g2⟩ := ih h1 hy
          refine ⟨b, u, by rw [← g1, y3], ?_⟩
          rw [← g2]
          show Res.bind (Res.bind (Res.ok _) _) _ = _
          simp only [Res.bind] at e ⊢
          simp only [e]

theorem load_forget {s : St} (hi : Inv s) (text : Str) :
    ∃ b t, load s text = .ok (b, t) ∧ Config.load (forget s) text = if b then .throw else .ok (forget t) := by
  rw [load, Config.load]
  have e := appendSection_forget s []
  cases ha : appendSection s [] with
  | none => rw [ha] at e; rw [e]; exact ⟨true, s, rfl, rfl⟩
  | some r =>
    obtain ⟨t, p⟩ := r
    rw [ha] at e
    rw [e]
    obtain ⟨h1, _, ⟨sc, h3, h4⟩, _⟩ := appendSection_inv (N := fun _ => False) hi ha
    rw [← h4]
    exact loadLines_forget _ h1 h3

end Verif.ConfigPtr
