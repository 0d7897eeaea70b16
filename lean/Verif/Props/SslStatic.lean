import Verif.Model.SslStatic

/-!
# C161: OpenSSL is set up before and cleaned up after its use
-/
set_option linter.unusedSimpArgs false

namespace Verif.Props.SslStatic
open Verif.SslStatic

/-- An event of a connection. -/
def OfSocket (e : Ev) : Prop := ∃ k, e = .sslNew k ∨ e = .sslFree k

/-- An empty program state. -/
abbrev st0 : St := ⟨[], [], [], false⟩

/-- Before `ctx_` is constructed. -/
structure InvA (early : List Obj) (s : St) : Prop where
  dead : s.dead = false
  owns : s.owns = []
  done : ∃ l1 l2, (s.done = l1 ∧ s.ev = [] ∨ s.done = l1 ++ .engine :: l2 ∧ s.ev = [.init]) ∧ ∀ o ∈ l1 ++ l2, ∃ k, o = .holder k ∧ o ∈ early

theorem InvA.notEngine {early : List Obj} {l : List Obj} (h : ∀ o ∈ l, ∃ k, o = .holder k ∧ o ∈ early) : Obj.engine ∉ l ∧ Obj.ctx ∉ l := by
  constructor <;> intro g <;> obtain ⟨k, e, _⟩ := h _ g <;> cases e

theorem InvA.step {early : List Obj} {s : St} (I : InvA early s) (o : Obj) (ho : o ∈ early) (h1 : o ≠ .ctx) (h2 : ∀ k, o ≠ .client k) :
    InvA early (construct s o) := by
  obtain ⟨i1, i2, l1, l2, h, hh⟩ := I
  cases o with
  | ctx => exact absurd rfl h1
  | client k => exact absurd rfl (h2 k)
  | engine =>
    simp only [construct, i1, Bool.false_eq_true, if_false, getInstance]
    split
    · exact ⟨i1, i2, l1, l2, h, hh⟩
    · rename_i hn
      rcases h with ⟨h, he⟩ | ⟨h, he⟩
      · exact ⟨by first | exact i1 | rfl, i2, [], l1, .inr ⟨by simp [h], by simp [he]⟩, fun o ho => hh o (by simp at ho; simp [ho])⟩
      · exact absurd (by simp [h]) hn
  | holder k =>
    simp only [construct, i1, Bool.false_eq_true, if_false]
    refine ⟨by first | exact i1 | rfl, i2, .holder k :: l1, l2, ?_, ?_⟩
    · rcases h with ⟨h, he⟩ | ⟨h, he⟩
      · exact .inl ⟨by simp [h], he⟩
      · exact .inr ⟨by simp [h], he⟩
    · intro o hm
      rcases List.mem_cons.1 hm with rfl | hm
      · exact ⟨k, rfl, ho⟩
      · exact hh o hm

theorem foldA (early l : List Obj) (hl : ∀ o ∈ l, o ∈ early ∧ o ≠ .ctx ∧ ∀ k, o ≠ .client k) (s : St) (I : InvA early s) :
    InvA early (l.foldl construct s) := by
  induction l generalizing s with
  | nil => exact I
  | cons o l ih =>
    obtain ⟨h1, h2, h3⟩ := hl o List.mem_cons_self
    exact ih (fun x hx => hl x (List.mem_cons_of_mem _ hx)) _ (I.step o h1 h2 h3)

/-- After `ctx_` is constructed. -/
structure InvB (early : List Obj) (s : St) : Prop where
  dead : s.dead = false
  ev : ∃ l, s.ev = .init :: .ctxNew :: l ∧ ∀ e ∈ l, OfSocket e
  done : ∃ l0 l1 l2, s.done = l0 ++ .ctx :: (l1 ++ .engine :: l2) ∧ (∀ o ∈ l0, ∃ k, o = .holder k ∨ o = .client k) ∧
    ∀ o ∈ l1 ++ l2, ∃ k, o = .holder k ∧ o ∈ early

theorem InvB.start {early : List Obj} {s : St} (I : InvA early s) : InvB early (construct s .ctx) := by
  obtain ⟨i1, i2, l1, l2, h, hh⟩ := I
  simp only [construct, i1, Bool.false_eq_true, if_false, getInstance]
  rcases h with ⟨h, he⟩ | ⟨h, he⟩
  · have hn : Obj.engine ∉ s.done := by rw [h]; exact (InvA.notEngine (fun o ho => hh o (by simp [ho]))).1
    rw [if_neg hn]
    exact ⟨by first | exact i1 | rfl, ⟨[], by simp [he], by simp⟩, [], [], l1, by simp [h], by simp, fun o ho => hh o (by simp at ho; simp [ho])⟩
  · have hn : Obj.engine ∈ s.done := by simp [h]
    rw [if_pos hn]
    exact ⟨i1, ⟨[], by simp [he], by simp⟩, [], l1, l2, by simp [h], by simp, hh⟩

theorem InvB.step {early : List Obj} {s : St} (I : InvB early s) (o : Obj) (ho : o ≠ .ctx) : InvB early (construct s o) := by
  have I0 := I
  obtain ⟨i1, ⟨l, he, hl⟩, l0, l1, l2, h, h0, hh⟩ := I
  simp only [construct, i1, Bool.false_eq_true, if_false]
  cases o with
  | ctx => exact absurd rfl ho
  | engine =>
    simp only [getInstance]
    rw [if_pos (by simp [h])]
    exact I0
  | client k =>
    simp only
    rw [if_pos (by simp [h])]
    refine ⟨by first | exact i1 | rfl, ⟨l ++ [.sslNew k], by simp [he], ?_⟩, .client k :: l0, l1, l2, by simp [h], ?_, hh⟩
    · intro e hm
      rcases List.mem_append.1 hm with hm | hm
      · exact hl e hm
      · exact ⟨k, .inl (by simpa using hm)⟩
    · intro o hm
      rcases List.mem_cons.1 hm with rfl | hm
      · exact ⟨k, .inr rfl⟩
      · exact h0 o hm
  | holder k =>
    refine ⟨by first | exact i1 | rfl, ⟨l, he, hl⟩, .holder k :: l0, l1, l2, by simp [h], ?_, hh⟩
    intro o hm
    rcases List.mem_cons.1 hm with rfl | hm
    · exact ⟨k, .inl rfl⟩
    · exact h0 o hm

theorem foldB (early l : List Obj) (hl : Obj.ctx ∉ l) (s : St) (I : InvB early s) : InvB early (l.foldl construct s) := by
  induction l generalizing s with
  | nil => exact I
  | cons o l ih =>
    simp only [List.mem_cons, not_or] at hl
    exact ih hl.2 _ (I.step o (fun h => hl.1 h.symm))

theorem InvB.act {early : List Obj} {s : St} (I : InvB early s) (a : Act) : InvB early (act s a) := by
  have I0 := I
  obtain ⟨i1, ⟨l, he, hl⟩, hd⟩ := I
  cases a with
  | make k =>
    simp only [Verif.SslStatic.act]
    split
    · refine ⟨i1, ⟨l ++ [.sslNew k], by simp [he], ?_⟩, hd⟩
      intro e hm
      rcases List.mem_append.1 hm with hm | hm
      · exact hl e hm
      · exact ⟨k, .inl (by simpa using hm)⟩
    · exact I0
  | drop k =>
    simp only [Verif.SslStatic.act]
    split
    · refine ⟨i1, ⟨l ++ [.sslFree k], by simp [he], ?_⟩, hd⟩
      intro e hm
      rcases List.mem_append.1 hm with hm | hm
      · exact hl e hm
      · exact ⟨k, .inr (by simpa using hm)⟩
    · exact I0

theorem foldAct (early : List Obj) (l : List Act) (s : St) (I : InvB early s) : InvB early (l.foldl act s) := by
  induction l generalizing s with
  | nil => exact I
  | cons a l ih => exact ih _ (I.act a)

theorem freed (owns : List Nat) (l : List Obj) (h : ∀ o ∈ l, ∃ k, o = .holder k ∨ o = .client k) :
    ∀ e ∈ (l.map (destroyed owns)).flatten, ∃ k, e = .sslFree k ∧ (.client k ∈ l ∨ .holder k ∈ l ∧ k ∈ owns) := by
  intro e he
  simp only [List.mem_flatten, List.mem_map] at he
  obtain ⟨_, ⟨o, ho, rfl⟩, he⟩ := he
  obtain ⟨k, rfl | rfl⟩ := h o ho
  · simp only [destroyed] at he
    split at he
    · rename_i hk
      exact ⟨k, by simpa using he, .inr ⟨ho, hk⟩⟩
    · cases he
  · exact ⟨k, by simpa [destroyed] using he, .inl ho⟩

/-- C161: whatever static objects a program has, in whatever order they are constructed (`early` before `ctx_`, `late` after it), and whatever `main` does, if no
`ClientSocket` is constructed before `ctx_`: OpenSSL is initialised first, then the context is made, and in the end the context is freed and then OpenSSL cleaned up, each once;
every connection is made between the making and the freeing of the context, and freed there, except those that an object constructed before `ctx_` still owns in
the end. -/
theorem C161_order (early late : List Obj) (main : List Act) (h1 : ∀ o ∈ early, o ≠ .ctx ∧ ∀ k, o ≠ .client k) (h2 : Obj.ctx ∉ late) :
    ∃ use after1 after2, (program (early ++ .ctx :: late) main).ev = [.init, .ctxNew] ++ use ++ [.ctxFree] ++ after1 ++ [.cleanup] ++ after2 ∧
      (∀ e ∈ use, OfSocket e) ∧
      ∀ e ∈ after1 ++ after2, ∃ k, e = .sslFree k ∧ .holder k ∈ early ∧ k ∈ (program (early ++ .ctx :: late) main).owns := by
  have A := foldA early early (fun o ho => ⟨ho, (h1 o ho).1, (h1 o ho).2⟩) st0 ⟨rfl, rfl, [], [], .inl ⟨rfl, rfl⟩, by simp⟩
  have B := foldB early late h2 _ (InvB.start A)
  have C := foldAct early main _ B
  have hdead := B.dead
  have hp : program (early ++ .ctx :: late) main =
      { (main.foldl act (late.foldl construct (construct (early.foldl construct st0) .ctx))) with
        ev := (main.foldl act (late.foldl construct (construct (early.foldl construct st0) .ctx))).ev ++
          ((main.foldl act (late.foldl construct (construct (early.foldl construct st0) .ctx))).done.map
            (destroyed (main.foldl act (late.foldl construct (construct (early.foldl construct st0) .ctx))).owns)).flatten } := by
    simp only [program, List.foldl_append, List.foldl_cons, hdead, Bool.false_eq_true, if_false]
  rw [hp]
  generalize main.foldl act (late.foldl construct (construct (early.foldl construct st0) .ctx)) = s at C
  obtain ⟨i1, ⟨l, he, hl⟩, l0, l1, l2, h, h0, hh⟩ := C
  refine ⟨l ++ (l0.map (destroyed s.owns)).flatten, (l1.map (destroyed s.owns)).flatten, (l2.map (destroyed s.owns)).flatten, ?_, ?_, ?_⟩
  · simp [he, h, destroyed]
  · intro e hm
    rcases List.mem_append.1 hm with hm | hm
    · exact hl e hm
    · obtain ⟨k, e1, _⟩ := freed s.owns l0 h0 e hm
      exact ⟨k, .inr e1⟩
  · intro e hm
    have hm' : e ∈ ((l1 ++ l2).map (destroyed s.owns)).flatten := by simpa using hm
    obtain ⟨k, e1, e2⟩ := freed s.owns (l1 ++ l2) (fun o ho => by obtain ⟨k, g, _⟩ := hh o ho; exact ⟨k, .inl g⟩) e hm'
    rcases e2 with e2 | ⟨e2, e3⟩
    · obtain ⟨_, g, _⟩ := hh _ e2; cases g
    · obtain ⟨_, _, g⟩ := hh _ e2
      exact ⟨k, e1, g, e3⟩

theorem fold_dead (l : List Obj) (s : St) (h : s.dead = true) : l.foldl construct s = s := by
  induction l generalizing s with
  | nil => rfl
  | cons o l ih => simp only [List.foldl_cons, construct, h, if_true]; exact ih s h

/-- C161, finding: a static `ClientSocket` that is constructed before `ctx_` ends the program before `main`: its constructor throws, as the context is null. -/
theorem C161_finding_early (early rest : List Obj) (main : List Act) (k : Nat) (h1 : ∀ o ∈ early, o ≠ .ctx ∧ ∀ k, o ≠ .client k) :
    (program (early ++ .client k :: rest) main).dead = true := by
  have A := foldA early early (fun o ho => ⟨ho, (h1 o ho).1, (h1 o ho).2⟩) st0 ⟨rfl, rfl, [], [], .inl ⟨rfl, rfl⟩, by simp⟩
  have hc : construct (early.foldl construct st0) (.client k) = { (early.foldl construct st0) with dead := true } := by
    obtain ⟨i1, i2, l1, l2, h, hh⟩ := A
    have hn : Obj.ctx ∉ (early.foldl construct st0).done := by
      have := (InvA.notEngine hh).2
      rcases h with ⟨h, _⟩ | ⟨h, _⟩ <;> rw [h] <;> simp_all
    simp only [construct, i1, Bool.false_eq_true, if_false]
    rw [if_neg hn]
  simp only [program, List.foldl_append, List.foldl_cons, hc]
  rw [fold_dead _ _ rfl]
  simp

/-- C161, finding: a static object that is constructed before `ctx_` and destroys a connection in its destructor does so after OpenSSL was cleaned up. -/
theorem C161_finding_late (k : Nat) : (program [.holder k, .ctx] [.make k]).ev = [.init, .ctxNew, .sslNew k, .ctxFree, .cleanup, .sslFree k] := by
  simp [program, construct, getInstance, act, destroyed]

/-- Connections that are made and not freed are those of constructed clients and those owned by holders. -/
structure Bal (k : Nat) (s : St) : Prop where
  eq : s.ev.count (.sslNew k) = s.ev.count (.sslFree k) + s.done.count (.client k) + s.owns.count k
  one : s.owns.count k ≤ 1
  holder : k ∈ s.owns → .holder k ∈ s.done

theorem Bal.construct {k : Nat} {s : St} (B : Bal k s) (o : Obj) : Bal k (construct s o) := by
  have B0 := B
  obtain ⟨b1, b2, b3⟩ := B
  have hg : Bal k (getInstance s) := by
    simp only [getInstance]
    split
    · exact B0
    · exact ⟨by simpa [List.count_append, List.count_cons] using b1, b2, fun h => List.mem_cons_of_mem _ (b3 h)⟩
  simp only [Verif.SslStatic.construct]
  split
  · exact B0
  · cases o with
    | engine => exact hg
    | ctx =>
      obtain ⟨g1, g2, g3⟩ := hg
      exact ⟨by simpa [List.count_append, List.count_cons] using g1, g2, fun h => List.mem_cons_of_mem _ (g3 h)⟩
    | client j =>
      simp only
      split
      · refine ⟨?_, b2, fun h => List.mem_cons_of_mem _ (b3 h)⟩
        by_cases e : j = k
        · subst e; simp [List.count_append, b1]; omega
        · simp [List.count_append, List.count_cons, e, b1]
      · exact ⟨b1, b2, b3⟩
    | holder j => exact ⟨by simpa [List.count_cons] using b1, b2, fun h => List.mem_cons_of_mem _ (b3 h)⟩

theorem Bal.act {k : Nat} {s : St} (B : Bal k s) (a : Act) : Bal k (act s a) := by
  have B0 := B
  obtain ⟨b1, b2, b3⟩ := B
  cases a with
  | make j =>
    simp only [Verif.SslStatic.act]
    split
    · rename_i h
      by_cases e : j = k
      · subst e
        have h0 := List.count_eq_zero.2 h.2
        exact ⟨by simp [List.count_append]; omega, by simp; omega, fun _ => h.1⟩
      · refine ⟨by simp [List.count_append, List.count_cons, e, b1], by simpa [List.count_cons, e] using b2, fun hk => b3 ?_⟩
        rcases List.mem_cons.1 hk with hk | hk
        · exact absurd hk.symm e
        · exact hk
    · exact B0
  | drop j =>
    simp only [Verif.SslStatic.act]
    split
    · rename_i h
      by_cases e : j = k
      · subst e
        have h0 : 0 < s.owns.count j := List.count_pos_iff.2 h
        refine ⟨by simp [List.count_append, List.count_erase_self]; omega, by simp [List.count_erase_self]; omega, fun hk => b3 (List.mem_of_mem_erase hk)⟩
      · have h1 : (s.owns.erase j).count k = s.owns.count k := List.count_erase_of_ne (fun g => e g.symm)
        refine ⟨by simp [List.count_append, List.count_cons, e, h1, b1], by simpa [h1] using b2, fun hk => b3 (List.mem_of_mem_erase hk)⟩
    · exact B0

theorem holder_count (k : Nat) (l : List Obj) (s : St) : (l.foldl construct s).done.count (.holder k) ≤ s.done.count (.holder k) + l.count (.holder k) := by
  induction l generalizing s with
  | nil => simp
  | cons o l ih =>
    refine Nat.le_trans (ih _) ?_
    have hc : (construct s o).done.count (.holder k) ≤ s.done.count (.holder k) + [o].count (.holder k) := by
      have hg : (getInstance s).done.count (.holder k) = s.done.count (.holder k) := by
        simp only [getInstance]; split <;> simp [List.count_cons]
      simp only [construct]
      split
      · omega
      · cases o with
        | engine => simp only [hg]; omega
        | ctx => simp [List.count_cons, hg]
        | client j => simp only; split <;> simp [List.count_cons]
        | holder j => simp [List.count_cons]
    have : (o :: l).count (Obj.holder k) = [o].count (.holder k) + l.count (.holder k) := by
      rw [show o :: l = [o] ++ l from rfl, List.count_append]
    omega

theorem act_done (l : List Act) (s : St) : (l.foldl act s).done = s.done ∧ (l.foldl act s).dead = s.dead := by
  induction l generalizing s with
  | nil => exact ⟨rfl, rfl⟩
  | cons a l ih =>
    rw [List.foldl_cons, (ih _).1, (ih _).2]
    cases a <;> simp only [act] <;> split <;> exact ⟨rfl, rfl⟩

theorem count_freed (k : Nat) (owns : List Nat) (l : List Obj) : ((l.map (destroyed owns)).flatten).count (.sslFree k) =
    l.count (.client k) + if k ∈ owns then l.count (.holder k) else 0 := by
  induction l with
  | nil => simp
  | cons o l ih =>
    simp only [List.map_cons, List.flatten_cons, List.count_append, ih]
    cases o with
    | engine => simp [destroyed, List.count_cons]
    | ctx => simp [destroyed, List.count_cons]
    | client j =>
      by_cases e : j = k
      · subst e; simp [destroyed, List.count_cons]; omega
      · simp [destroyed, List.count_cons, e]
    | holder j =>
      by_cases e : j = k
      · subst e
        by_cases h : j ∈ owns
        · simp [destroyed, List.count_cons, h]; omega
        · simp [destroyed, List.count_cons, h]
      · simp only [destroyed]
        split <;> simp [List.count_cons, e]

theorem count_new (k : Nat) (owns : List Nat) (l : List Obj) : ((l.map (destroyed owns)).flatten).count (.sslNew k) = 0 := by
  rw [List.count_eq_zero]
  intro h
  simp only [List.mem_flatten, List.mem_map] at h
  obtain ⟨_, ⟨o, _, rfl⟩, he⟩ := h
  cases o <;> simp only [destroyed] at he
  · simp at he
  · simp at he
  · simp at he
  · split at he <;> simp at he

/-- C161: a program that comes to its end has freed every connection as often as it made one. -/
theorem C161_balanced (statics : List Obj) (hn : statics.Nodup) (main : List Act) (hd : (program statics main).dead = false) (k : Nat) :
    (program statics main).ev.count (.sslNew k) = (program statics main).ev.count (.sslFree k) := by
  have B0 : Bal k (statics.foldl construct st0) := by
    have : ∀ (l : List Obj) (s : St), Bal k s → Bal k (l.foldl construct s) := by
      intro l
      induction l with
      | nil => exact fun s h => h
      | cons o l ih => exact fun s h => ih _ (h.construct o)
    exact this _ _ ⟨rfl, by simp, by simp⟩
  have B1 : Bal k (main.foldl act (statics.foldl construct st0)) := by
    have : ∀ (l : List Act) (s : St), Bal k s → Bal k (l.foldl act s) := by
      intro l
      induction l with
      | nil => exact fun s h => h
      | cons o l ih => exact fun s h => ih _ (h.act o)
    exact this _ _ B0
  have hc := holder_count k statics st0
  have hs : statics.count (.holder k) ≤ 1 := List.nodup_iff_count.1 hn _
  have hd' : (statics.foldl construct st0).dead = false := by
    cases h : (statics.foldl construct st0).dead with
    | false => rfl
    | true => simp only [program, h, if_true] at hd; exact hd
  have hdone := (act_done main (statics.foldl construct st0)).1
  have hp : program statics main =
      { (main.foldl act (statics.foldl construct st0)) with
        ev := (main.foldl act (statics.foldl construct st0)).ev ++
          ((main.foldl act (statics.foldl construct st0)).done.map (destroyed (main.foldl act (statics.foldl construct st0)).owns)).flatten } := by
    simp only [program, hd', Bool.false_eq_true, if_false]
  rw [hp]
  simp only [List.count_append, count_freed, count_new]
  obtain ⟨b1, b2, b3⟩ := B1
  rw [b1]
  by_cases ho : k ∈ (main.foldl act (statics.foldl construct st0)).owns
  · have h1 := b3 ho
    have h2 : 0 < (main.foldl act (statics.foldl construct st0)).done.count (.holder k) := List.count_pos_iff.2 h1
    have h3 := List.count_pos_iff.2 ho
    rw [hdone] at h2 ⊢
    simp only [List.count_nil, Nat.zero_add] at hc
    rw [if_pos ho]
    omega
  · rw [if_neg ho, List.count_eq_zero.2 ho]
    omega

/-- The hypotheses of `C161_order` are met by a program with objects of all kinds. -/
example : (program ([.holder 1, .engine] ++ .ctx :: [.client 2, .holder 3]) [.make 3, .make 1, .drop 1]).ev =
    [.init, .ctxNew, .sslNew 2, .sslNew 3, .sslNew 1, .sslFree 1, .sslFree 3, .sslFree 2, .ctxFree, .cleanup] := by decide

#print axioms C161_order
#print axioms C161_balanced
#print axioms C161_finding_early
#print axioms C161_finding_late

end Verif.Props.SslStatic
