import Verif.Model.Monitor
import Verif.Spec.Monitor
set_option linter.unusedSimpArgs false

/-! Lemmas for C131. -/
namespace Verif.Monitor

open Verif.Spec.Monitor

/-- The three ways of a notification. -/
def Notified (a b : List Th) : Prop :=
  (b = a ∧ ∀ th ∈ a, th.pc ≠ .t2) ∨ b = a.map Th.wake ∨
    ∃ (j : Nat) (r : List Op), a[j]? = some ⟨.t2, r⟩ ∧ b = a.set j ⟨.t3, r⟩

/-- The steps, one by one. -/
inductive Step (s : St) (i : Nat) : St → Prop where
  | lockPut (x : Nat) (a l : Bool) (r : List Op) : s.ths[i]? = some ⟨.idle, .put x a l :: r⟩ → s.lock = none →
      Step s i ⟨s.ths.set i ⟨.p1, .put x a l :: r⟩, some i, s.queue, s.pushed, s.popped⟩
  | lockTake (r : List Op) : s.ths[i]? = some ⟨.idle, .take :: r⟩ → s.lock = none →
      Step s i ⟨s.ths.set i ⟨.t1, .take :: r⟩, some i, s.queue, s.pushed, s.popped⟩
  | push (x : Nat) (a l : Bool) (r : List Op) (pc : PC) : s.ths[i]? = some ⟨.p1, .put x a l :: r⟩ → (pc = .p2 a ∨ pc = .q2 a) →
      Step s i ⟨s.ths.set i ⟨pc, r⟩, s.lock, s.queue ++ [x], s.pushed ++ [(i, x)], s.popped⟩
  | note2 (a : Bool) (r : List Op) (b : List Th) : s.ths[i]? = some ⟨.p2 a, r⟩ → Notified (s.ths.set i ⟨.p3, r⟩) b →
      Step s i ⟨b, s.lock, s.queue, s.pushed, s.popped⟩
  | note3 (a : Bool) (r : List Op) (b : List Th) : s.ths[i]? = some ⟨.q3 a, r⟩ → Notified (s.ths.set i ⟨.idle, r⟩) b →
      Step s i ⟨b, s.lock, s.queue, s.pushed, s.popped⟩
  | unlock (r : List Op) (pc : PC) : s.ths[i]? = some ⟨pc, r⟩ → (pc = .p3 ∨ pc = .t4) →
      Step s i ⟨s.ths.set i ⟨.idle, r⟩, none, s.queue, s.pushed, s.popped⟩
  | unlockLate (a : Bool) (r : List Op) : s.ths[i]? = some ⟨.q2 a, r⟩ →
      Step s i ⟨s.ths.set i ⟨.q3 a, r⟩, none, s.queue, s.pushed, s.popped⟩
  | pop (x : Nat) (q : List Nat) (r : List Op) : s.ths[i]? = some ⟨.t1, .take :: r⟩ → s.queue = x :: q →
      Step s i ⟨s.ths.set i ⟨.t4, r⟩, s.lock, q, s.pushed, s.popped ++ [(i, x)]⟩
  | block (r : List Op) : s.ths[i]? = some ⟨.t1, .take :: r⟩ → s.queue = [] →
      Step s i ⟨s.ths.set i ⟨.t2, .take :: r⟩, none, s.queue, s.pushed, s.popped⟩
  | spurious (r : List Op) : s.ths[i]? = some ⟨.t2, r⟩ →
      Step s i ⟨s.ths.set i ⟨.t3, r⟩, s.lock, s.queue, s.pushed, s.popped⟩
  | relock (r : List Op) : s.ths[i]? = some ⟨.t3, r⟩ → s.lock = none →
      Step s i ⟨s.ths.set i ⟨.t1, r⟩, some i, s.queue, s.pushed, s.popped⟩

theorem notify_notified {s s' : St} {all : Bool} {j : Nat} (h : s.notify all j = some s') :
    Notified s.ths s'.ths ∧ s' = { s with ths := s'.ths } := by
  rw [St.notify] at h
  split at h
  · obtain rfl := Option.some.inj h
    exact ⟨Or.inr (Or.inl rfl), rfl⟩
  · rw [St.wakeOne] at h
    split at h
    · rename_i h1
      obtain rfl := Option.some.inj h
      refine ⟨Or.inl ⟨rfl, ?_⟩, rfl⟩
      simpa using h1
    · cases hj : s.ths[j]? with
      | none => rw [hj] at h; simp at h
      | some th =>
        rw [hj] at h
        dsimp only at h
        split at h
        · rename_i h2
          obtain rfl := Option.some.inj h
          obtain ⟨pc, r⟩ := th
          dsimp only at h2
          subst h2
          exact ⟨Or.inr (Or.inr ⟨j, r, hj, rfl⟩), rfl⟩
        · simp at h

theorem step_cases {s s' : St} {i j : Nat} (h : s.step i j = some s') : Step s i s' := by
  rw [St.step] at h
  cases hi : s.ths[i]? with
  | none => rw [hi] at h; simp at h
  | some th =>
    rw [hi] at h
    obtain ⟨pc, prog⟩ := th
    have acq : ∀ {pc' : PC}, s.acquire i ⟨pc, prog⟩ pc' = some s' →
        s.lock = none ∧ s' = ⟨s.ths.set i ⟨pc', prog⟩, some i, s.queue, s.pushed, s.popped⟩ := by
      intro pc' e
      rw [St.acquire] at e
      split at e
      · rename_i hl; exact ⟨hl, (Option.some.inj e).symm⟩
      · simp at e
    have nt : ∀ {pc' : PC} {all : Bool}, (s.goto i ⟨pc, prog⟩ pc').notify all j = some s' →
        ∃ b, Notified (s.ths.set i ⟨pc', prog⟩) b ∧ s' = ⟨b, s.lock, s.queue, s.pushed, s.popped⟩ := by
      intro pc' all e
      obtain ⟨h1, h2⟩ := notify_notified e
      exact ⟨s'.ths, h1, h2⟩
    dsimp only at h
    split at h
    · simp at h
    · obtain ⟨h1, rfl⟩ := acq h
      exact .lockPut _ _ _ _ hi h1
    · obtain ⟨h1, rfl⟩ := acq h
      exact .lockTake _ hi h1
    · obtain rfl := Option.some.inj h
      exact .push _ _ _ _ _ hi (by rename_i late _; cases late <;> simp)
    · obtain ⟨b, h1, rfl⟩ := nt h
      exact .note2 _ _ _ hi h1
    · obtain rfl := Option.some.inj h
      exact .unlock _ _ hi (Or.inl rfl)
    · obtain rfl := Option.some.inj h
      exact .unlockLate _ _ hi
    · obtain ⟨b, h1, rfl⟩ := nt h
      exact .note3 _ _ _ hi h1
    · split at h
      · rename_i hq
        obtain rfl := Option.some.inj h
        exact .block _ hi hq
      · rename_i hq
        obtain rfl := Option.some.inj h
        exact .pop _ _ _ hi hq
    · obtain rfl := Option.some.inj h
      exact .spurious _ hi
    · obtain ⟨h1, rfl⟩ := acq h
      exact .relock _ hi h1
    · obtain rfl := Option.some.inj h
      exact .unlock _ _ hi (Or.inr rfl)
    · simp at h

/-! ## Invariant -/

/-- Between `lock` and `unlock`. -/
def holds : PC → Bool
  | .p1 | .p2 _ | .p3 | .q2 _ | .t1 | .t4 => true
  | _ => false

/-- On the way to look at the queue, or about to notify. -/
def busy : PC → Bool
  | .t1 | .t3 | .p2 _ | .q2 _ | .q3 _ => true
  | _ => false

/-- A thread at this place has this kind of program. -/
def Fits (th : Th) : Prop :=
  (th.pc = .p1 → ∃ x a l r, th.prog = .put x a l :: r) ∧
  (th.pc = .t1 ∨ th.pc = .t2 ∨ th.pc = .t3 → ∃ r, th.prog = .take :: r)

/-- About the places of the threads and the lock. -/
structure Own (ths : List Th) (lock : Option Nat) : Prop where
  own : ∀ (i : Nat) (th : Th), ths[i]? = some th → (holds th.pc = true ↔ lock = some i)
  dom : ∀ i, lock = some i → i < ths.length
  fits : ∀ th ∈ ths, Fits th

/-- Nobody waits while more items are there than threads on the way. -/
def Cover (ths : List Th) (q : Nat) : Prop := (∃ th ∈ ths, th.pc = .t2) → q ≤ ths.countP (fun th => busy th.pc)

theorem mem_set {l : List Th} {i : Nat} {th x : Th} (h : x ∈ l.set i th) : x ∈ l ∨ x = th := by
  rcases List.mem_or_eq_of_mem_set h with h | h
  · exact Or.inl h
  · exact Or.inr h

theorem own_set {ths : List Th} {lock lock' : Option Nat} {i : Nat} {th th' : Th} (h : Own ths lock) (hi : ths[i]? = some th)
    (hf : Fits th') (hl : (holds th'.pc = true ↔ lock' = some i)) (hn : ∀ j, j ≠ i → (lock' = some j ↔ lock = some j)) :
    Own (ths.set i th') lock' := by
  have hlt := (List.getElem?_eq_some_iff.1 hi).1
  refine ⟨?_, ?_, ?_⟩
  · intro j x hj
    rw [List.getElem?_set] at hj
    by_cases hji : i = j
    · subst hji
      rw [if_pos rfl, if_pos hlt] at hj
      rw [← Option.some.inj hj]; exact hl
    · rw [if_neg hji] at hj
      rw [h.own j x hj, hn j (Ne.symm hji)]
  · intro j hj
    rw [List.length_set]
    by_cases hji : j = i
    · omega
    · exact h.dom j ((hn j hji).1 hj)
  · intro x hx
    rcases mem_set hx with hx | rfl
    · exact h.fits x hx
    · exact hf

theorem wake_holds (th : Th) : holds th.wake.pc = holds th.pc := by
  rw [Th.wake]; split
  · rename_i h; simp [h, holds]
  · rfl

theorem wake_fits {th : Th} (h : Fits th) : Fits th.wake := by
  rw [Th.wake]; split
  · rename_i hp
    exact ⟨by simp, fun _ => h.2 (Or.inr (Or.inl hp))⟩
  · exact h

theorem own_notified {a b : List Th} {lock : Option Nat} (h : Own a lock) (hb : Notified a b) : Own b lock := by
  rcases hb with ⟨rfl, -⟩ | rfl | ⟨j, r, hj, rfl⟩
  · exact h
  · refine ⟨?_, by simpa using h.dom, ?_⟩
    · intro i th hi
      rw [List.getElem?_map] at hi
      cases ha : a[i]? with
      | none => rw [ha] at hi; simp at hi
      | some x =>
        rw [ha] at hi
        simp only [Option.map_some, Option.some.injEq] at hi
        rw [← hi, wake_holds, h.own i x ha]
    · intro th hth
      obtain ⟨x, hx, rfl⟩ := List.mem_map.1 hth
      exact wake_fits (h.fits x hx)
  · have hf := h.fits _ (List.mem_of_getElem? hj)
    refine own_set h hj ⟨by simp, fun _ => hf.2 (Or.inr (Or.inl rfl))⟩ ?_ (fun _ _ => Iff.rfl)
    have := h.own j _ hj
    simpa [holds] using this

theorem countP_set_add (p : Th → Bool) : ∀ (l : List Th) (i : Nat) (th th' : Th), l[i]? = some th →
    (l.set i th').countP p + (p th).toNat = l.countP p + (p th').toNat := by
  intro l
  induction l with
  | nil => intro i th th' h; simp at h
  | cons x l ih =>
    intro i th th' h
    cases i with
    | zero =>
      simp only [List.getElem?_cons_zero, Option.some.injEq] at h
      subst h
      rw [List.set_cons_zero, List.countP_cons, List.countP_cons]
      cases p x <;> cases p th' <;> simp <;> omega
    | succ i =>
      rw [List.getElem?_cons_succ] at h
      have := ih i th th' h
      rw [List.set_cons_succ, List.countP_cons, List.countP_cons]
      omega

theorem cover_notified {a b : List Th} {q : Nat} (h : (∃ th ∈ a, th.pc = .t2) → q ≤ a.countP (fun th => busy th.pc) + 1)
    (hb : Notified a b) : Cover b q := by
  rcases hb with ⟨rfl, hn⟩ | rfl | ⟨j, r, hj, rfl⟩
  · rintro ⟨th, hth, ht⟩
    exact absurd ht (hn th hth)
  · rintro ⟨th, hth, ht⟩
    obtain ⟨x, -, rfl⟩ := List.mem_map.1 hth
    rw [Th.wake] at ht
    split at ht <;> simp_all
  · intro _
    have h1 := h ⟨_, List.mem_of_getElem? hj, rfl⟩
    have h2 : (a.set j ⟨.t3, r⟩).countP (fun th => busy th.pc) + 0 = a.countP (fun th => busy th.pc) + 1 :=
      countP_set_add (fun th => busy th.pc) a j ⟨.t2, r⟩ ⟨.t3, r⟩ hj
    omega

theorem cover_set {ths : List Th} {i : Nat} {th th' : Th} {q q' : Nat} (h : Cover ths q) (hi : ths[i]? = some th)
    (hw : th'.pc ≠ .t2) (hq : q' + (busy th.pc).toNat ≤ q + (busy th'.pc).toNat) : Cover (ths.set i th') q' := by
  rintro ⟨x, hx, ht⟩
  rcases mem_set hx with hx | rfl
  · have h1 := h ⟨x, hx, ht⟩
    have h2 := countP_set_add (fun th => busy th.pc) ths i th th' hi
    omega
  · exact absurd ht hw

/-! ## Programs -/

theorem sum_set_add {α : Type} (f : α → Nat) : ∀ (l : List α) (i : Nat) (a b : α), l[i]? = some a →
    ((l.set i b).map f).sum + f a = (l.map f).sum + f b := by
  intro l
  induction l with
  | nil => intro i a b h; simp at h
  | cons x l ih =>
    intro i a b h
    cases i with
    | zero =>
      simp only [List.getElem?_cons_zero, Option.some.injEq] at h
      subst h
      simp; omega
    | succ i =>
      rw [List.getElem?_cons_succ] at h
      have := ih i a b h
      simp only [List.set_cons_succ, List.map_cons, List.sum_cons]
      omega

/-- What is still to be done, as far as the queue is concerned. -/
def left (s : St) : List (List Op) := s.ths.map Th.prog

theorem notified_left {a b : List Th} (h : Notified a b) : b.map Th.prog = a.map Th.prog := by
  rcases h with ⟨rfl, -⟩ | rfl | ⟨j, r, hj, rfl⟩
  · rfl
  · rw [List.map_map]
    refine List.map_congr_left ?_
    intro th _
    simp only [Function.comp, Th.wake]
    split <;> rfl
  · rw [List.map_set]
    refine List.ext_getElem? fun k => ?_
    rw [List.getElem?_set]
    split
    · rename_i hk
      subst hk
      have := (List.getElem?_eq_some_iff.1 hj).1
      rw [if_pos (by simpa using this), List.getElem?_map, hj]
      rfl
    · rfl

theorem set_left {a : List Th} {i : Nat} {pc pc' : PC} {r : List Op} (h : a[i]? = some ⟨pc, r⟩) :
    (a.set i ⟨pc', r⟩).map Th.prog = a.map Th.prog := by
  rw [List.map_set]
  refine List.ext_getElem? fun k => ?_
  rw [List.getElem?_set]
  split
  · rename_i hk
    subst hk
    have := (List.getElem?_eq_some_iff.1 h).1
    rw [if_pos (by simpa using this), List.getElem?_map, h]
    rfl
  · rfl

/-- About the history of the queue. -/
structure Hist (progs : List (List Op)) (ps : List (List Op)) (queue : List Nat) (pushed popped : List (Nat × Nat)) : Prop where
  len : ps.length = progs.length
  fifo : pushed.map Prod.snd = popped.map Prod.snd ++ queue
  prod : ∀ (i : Nat) (p r : List Op), progs[i]? = some p → ps[i]? = some r →
    (pushed.filter (fun e => e.1 = i)).map Prod.snd ++ puts r = puts p
  cons : ∀ (i : Nat) (p r : List Op), progs[i]? = some p → ps[i]? = some r →
    (popped.filter (fun e => e.1 = i)).length + takes r = takes p
  puts : pushed.length + totalPuts ps = totalPuts progs
  takes : popped.length + totalTakes ps = totalTakes progs

/-- All. -/
structure Inv (progs : List (List Op)) (s : St) : Prop where
  own : Own s.ths s.lock
  cover : Cover s.ths s.queue.length
  hist : Hist progs (left s) s.queue s.pushed s.popped

theorem start_inv (progs : List (List Op)) : Inv progs (St.start progs) := by
  have hl : left (St.start progs) = progs := by
    simp [left, St.start, Function.comp_def]
  refine ⟨⟨?_, by simp [St.start], ?_⟩, ?_, ?_⟩
  · intro i th hi
    have := List.mem_of_getElem? hi
    simp only [St.start, List.mem_map] at this
    obtain ⟨p, -, rfl⟩ := this
    simp [holds, St.start]
  · intro th hth
    simp only [St.start, List.mem_map] at hth
    obtain ⟨p, -, rfl⟩ := hth
    exact ⟨by simp, by simp⟩
  · intro _; simp [St.start]
  · rw [hl]
    refine ⟨rfl, rfl, ?_, ?_, by simp [St.start], by simp [St.start]⟩
    · intro i p r h1 h2
      rw [h1] at h2
      simp [Option.some.inj h2, St.start]
    · intro i p r h1 h2
      rw [h1] at h2
      simp [Option.some.inj h2, St.start]

theorem step_inv {progs : List (List Op)} {s s' : St} {i j : Nat} (I : Inv progs s) (e : s.step i j = some s') :
    Inv progs s' := by
  obtain ⟨own, cover, hist⟩ := I
  have fits : ∀ {th : Th}, s.ths[i]? = some th → Fits th := fun h => own.fits _ (List.mem_of_getElem? h)
  have other : ∀ {th : Th}, s.ths[i]? = some th → holds th.pc = true → ∀ j, j ≠ i → ((none : Option Nat) = some j ↔ s.lock = some j) := by
    intro th h1 h2 j hj
    rw [(own.own i th h1).1 h2]
    simp [Ne.symm hj]
  have mine : s.lock = none → ∀ j, j ≠ i → (some i = some j ↔ s.lock = some j) := by
    intro h j hj
    simp [h, Ne.symm hj]
  cases step_cases e with
  | lockPut x a l r hi hl =>
    refine ⟨own_set own hi ⟨fun _ => ⟨x, a, l, r, rfl⟩, by simp⟩ (by simp [holds]) (mine hl), ?_, ?_⟩
    · exact cover_set cover hi (by simp) (by simp [busy])
    · rw [left]; simp only [set_left hi]; exact hist
  | lockTake r hi hl =>
    refine ⟨own_set own hi ⟨by simp, fun _ => ⟨r, rfl⟩⟩ (by simp [holds]) (mine hl), ?_, ?_⟩
    · exact cover_set cover hi (by simp) (by simp [busy])
    · rw [left]; simp only [set_left hi]; exact hist
  | push x a l r pc hi hpc =>
    have hlt := (List.getElem?_eq_some_iff.1 hi).1
    have hli : (left s)[i]? = some (.put x a l :: r) := by rw [left, List.getElem?_map, hi]; rfl
    refine ⟨own_set own hi ⟨by rcases hpc with rfl | rfl <;> simp, by rcases hpc with rfl | rfl <;> simp⟩ ?_ (fun _ _ => Iff.rfl),
      ?_, ?_⟩
    · have := (own.own i _ hi)
      rcases hpc with rfl | rfl <;> simpa [holds] using this
    · refine cover_set cover hi (by rcases hpc with rfl | rfl <;> simp) ?_
      rcases hpc with rfl | rfl <;> simp [busy]
    · have hset : left ⟨s.ths.set i ⟨pc, r⟩, s.lock, s.queue ++ [x], s.pushed ++ [(i, x)], s.popped⟩ = (left s).set i r := by
        rw [left, left, List.map_set]
      rw [hset]
      refine ⟨by simpa using hist.len, by simp [hist.fifo], ?_, ?_, ?_, ?_⟩
      · intro k p q h1 h2
        rw [List.getElem?_set] at h2
        by_cases hk : i = k
        · subst hk
          rw [if_pos rfl, if_pos (by simpa [left] using hlt)] at h2
          have := hist.prod i p _ h1 hli
          rw [Verif.Spec.Monitor.puts] at this
          simp only [List.filter_append, List.map_append, ← Option.some.inj h2, ← this]
          simp
        · rw [if_neg hk] at h2
          have := hist.prod k p q h1 h2
          simp only [List.filter_append, List.map_append]
          simpa [hk] using this
      · intro k p q h1 h2
        rw [List.getElem?_set] at h2
        by_cases hk : i = k
        · subst hk
          rw [if_pos rfl, if_pos (by simpa [left] using hlt)] at h2
          have := hist.cons i p _ h1 hli
          rw [Verif.Spec.Monitor.takes] at this
          rw [← Option.some.inj h2]; exact this
        · rw [if_neg hk] at h2
          exact hist.cons k p q h1 h2
      · have h1 := sum_set_add (fun p => (Verif.Spec.Monitor.puts p).length) (left s) i _ r hli
        have h2 := hist.puts
        simp only [Verif.Spec.Monitor.puts, List.length_cons] at h1
        simp only [totalPuts, List.length_append, List.length_singleton] at h2 ⊢
        omega
      · have h1 := sum_set_add Verif.Spec.Monitor.takes (left s) i _ r hli
        have h2 := hist.takes
        simp only [Verif.Spec.Monitor.takes] at h1
        simp only [totalTakes] at h2 ⊢
        omega
  | note2 a r b hi hb =>
    have ho : Own (s.ths.set i ⟨.p3, r⟩) s.lock :=
      own_set own hi ⟨by simp, by simp⟩ (by have := own.own i _ hi; simpa [holds] using this) (fun _ _ => Iff.rfl)
    refine ⟨own_notified ho hb, cover_notified ?_ hb, ?_⟩
    · rintro ⟨x, hx, ht⟩
      rcases mem_set hx with hx | rfl
      · have h1 := cover ⟨x, hx, ht⟩
        have h2 : (s.ths.set i ⟨.p3, r⟩).countP (fun th => busy th.pc) + 1 = s.ths.countP (fun th => busy th.pc) + 0 :=
          countP_set_add (fun th => busy th.pc) s.ths i _ ⟨.p3, r⟩ hi
        show s.queue.length ≤ _
        omega
      · simp at ht
    · rw [left]; simp only [notified_left hb, set_left hi]; exact hist
  | note3 a r b hi hb =>
    have ho : Own (s.ths.set i ⟨.idle, r⟩) s.lock :=
      own_set own hi ⟨by simp, by simp⟩ (by have := own.own i _ hi; simpa [holds] using this) (fun _ _ => Iff.rfl)
    refine ⟨own_notified ho hb, cover_notified ?_ hb, ?_⟩
    · rintro ⟨x, hx, ht⟩
      rcases mem_set hx with hx | rfl
      · have h1 := cover ⟨x, hx, ht⟩
        have h2 : (s.ths.set i ⟨.idle, r⟩).countP (fun th => busy th.pc) + 1 = s.ths.countP (fun th => busy th.pc) + 0 :=
          countP_set_add (fun th => busy th.pc) s.ths i _ ⟨.idle, r⟩ hi
        show s.queue.length ≤ _
        omega
      · simp at ht
    · rw [left]; simp only [notified_left hb, set_left hi]; exact hist
  | unlock r pc hi hpc =>
    refine ⟨own_set own hi ⟨by simp, by simp⟩ (by simp [holds]) (other hi (by rcases hpc with rfl | rfl <;> rfl)), ?_, ?_⟩
    · exact cover_set cover hi (by simp) (by rcases hpc with rfl | rfl <;> simp [busy])
    · rw [left]; simp only [set_left hi]; exact hist
  | unlockLate a r hi =>
    refine ⟨own_set own hi ⟨by simp, by simp⟩ (by simp [holds]) (other hi rfl), ?_, ?_⟩
    · exact cover_set cover hi (by simp) (by simp [busy])
    · rw [left]; simp only [set_left hi]; exact hist
  | pop x q r hi hq =>
    have hlt := (List.getElem?_eq_some_iff.1 hi).1
    have hli : (left s)[i]? = some (.take :: r) := by rw [left, List.getElem?_map, hi]; rfl
    refine ⟨own_set own hi ⟨by simp, by simp⟩ (by have := own.own i _ hi; simpa [holds] using this) (fun _ _ => Iff.rfl), ?_, ?_⟩
    · rw [hq] at cover
      exact cover_set cover hi (by simp) (by simp [busy])
    · have hset : left ⟨s.ths.set i ⟨.t4, r⟩, s.lock, q, s.pushed, s.popped ++ [(i, x)]⟩ = (left s).set i r := by
        rw [left, left, List.map_set]
      rw [hset]
      refine ⟨by simpa using hist.len, by simp [hist.fifo, hq], ?_, ?_, ?_, ?_⟩
      · intro k p q h1 h2
        rw [List.getElem?_set] at h2
        by_cases hk : i = k
        · subst hk
          rw [if_pos rfl, if_pos (by simpa [left] using hlt)] at h2
          have := hist.prod i p _ h1 hli
          rw [Verif.Spec.Monitor.puts] at this
          rw [← Option.some.inj h2]; exact this
        · rw [if_neg hk] at h2
          exact hist.prod k p q h1 h2
      · intro k p q h1 h2
        rw [List.getElem?_set] at h2
        by_cases hk : i = k
        · subst hk
          rw [if_pos rfl, if_pos (by simpa [left] using hlt)] at h2
          have := hist.cons i p _ h1 hli
          rw [Verif.Spec.Monitor.takes] at this
          rw [← Option.some.inj h2, ← this]
          simp; omega
        · rw [if_neg hk] at h2
          have := hist.cons k p q h1 h2
          simpa [hk] using this
      · have h1 := sum_set_add (fun p => (Verif.Spec.Monitor.puts p).length) (left s) i _ r hli
        have h2 := hist.puts
        simp only [Verif.Spec.Monitor.puts] at h1
        simp only [totalPuts] at h2 ⊢
        omega
      · have h1 := sum_set_add Verif.Spec.Monitor.takes (left s) i _ r hli
        have h2 := hist.takes
        simp only [Verif.Spec.Monitor.takes] at h1
        simp only [totalTakes, List.length_append, List.length_singleton] at h2 ⊢
        omega
  | block r hi hq =>
    refine ⟨own_set own hi ⟨by simp, fun _ => ⟨r, rfl⟩⟩ (by simp [holds]) (other hi rfl), ?_, ?_⟩
    · intro _; simp [hq]
    · rw [left]; simp only [set_left hi]; exact hist
  | spurious r hi =>
    refine ⟨own_set own hi ⟨by simp, fun _ => (fits hi).2 (Or.inr (Or.inl rfl))⟩
      (by have := own.own i _ hi; simpa [holds] using this) (fun _ _ => Iff.rfl), ?_, ?_⟩
    · exact cover_set cover hi (by simp) (by simp [busy])
    · rw [left]; simp only [set_left hi]; exact hist
  | relock r hi hl =>
    refine ⟨own_set own hi ⟨by simp, fun _ => (fits hi).2 (Or.inr (Or.inr rfl))⟩ (by simp [holds]) (mine hl), ?_, ?_⟩
    · exact cover_set cover hi (by simp) (by simp [busy])
    · rw [left]; simp only [set_left hi]; exact hist

theorem reach_inv {progs : List (List Op)} {s : St} (h : Reach progs s) : Inv progs s := by
  induction h with
  | start => exact start_inv progs
  | step i j _ e ih => exact step_inv ih e

/-- A thread that has the lock can always make a step. -/
theorem holder_moves {s : St} {i : Nat} {th : Th} (hi : s.ths[i]? = some th) (hf : Fits th) (hh : holds th.pc = true) :
    ∃ j s', s.step i j = some s' := by
  have nt : ∀ (t : St) (all : Bool), ∃ j t', t.notify all j = some t' := by
    intro t all
    cases all with
    | true => exact ⟨0, _, rfl⟩
    | false =>
      by_cases h : t.ths.all (fun th => th.pc ≠ .t2) = true
      · exact ⟨0, t, by rw [St.notify, if_neg (by simp), St.wakeOne, if_pos h]⟩
      · have h2 : ∃ th ∈ t.ths, th.pc = .t2 := by simpa using h
        obtain ⟨x, hx, hp⟩ := h2
        obtain ⟨j, hj, rfl⟩ := List.getElem_of_mem hx
        refine ⟨j, t.goto j t.ths[j] .t3, ?_⟩
        simp only [St.notify, Bool.false_eq_true, if_false, St.wakeOne]
        rw [if_neg h, List.getElem?_eq_getElem hj]
        simp [hp]
  obtain ⟨pc, prog⟩ := th
  unfold St.step
  rw [hi]
  cases pc <;> simp [holds] at hh
  · obtain ⟨x, a, l, r, hp⟩ := hf.1 rfl
    dsimp only at hp; subst hp
    exact ⟨0, _, rfl⟩
  · obtain ⟨j, t, e⟩ := nt (s.goto i ⟨.p2 _, prog⟩ .p3) _
    exact ⟨j, t, e⟩
  · exact ⟨0, _, rfl⟩
  · exact ⟨0, _, rfl⟩
  · obtain ⟨r, hp⟩ := hf.2 (Or.inl rfl)
    dsimp only at hp; subst hp
    cases hq : s.queue with
    | nil => exact ⟨0, _, rfl⟩
    | cons x q => exact ⟨0, _, rfl⟩
  · exact ⟨0, _, rfl⟩

end Verif.Monitor
