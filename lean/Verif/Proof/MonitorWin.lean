import Verif.Model.MonitorWin
import Verif.Proof.Monitor
import Verif.Proof.CondVar
set_option linter.unusedSimpArgs false

/-! Lemmas for C132. -/
namespace Verif.MonitorWin

open Verif.Monitor (Op Hist sum_set_add)
open Verif.Spec.Monitor
open Verif.CondVar (PC Act Move step_move)

/-- A step in the library, and the places of the program before and after. -/
inductive Pair (q : List Nat) : PC → Cl → PC → Cl → Prop where
  | lockPut (x : Nat) (a l : Bool) (r : List Op) : Pair q .idle ⟨.z, .put x a l :: r⟩ .own ⟨.p1, .put x a l :: r⟩
  | lockTake (r : List Op) : Pair q .idle ⟨.z, .take :: r⟩ .own ⟨.t1, .take :: r⟩
  | late (r : List Op) : Pair q .idle ⟨.q3, r⟩ (.n1 false) ⟨.z, r⟩
  | one (r : List Op) : Pair q .own ⟨.p2 false, r⟩ (.n1 true) ⟨.p3, r⟩
  | all (r : List Op) : Pair q .own ⟨.p2 true, r⟩ (.a1 true) ⟨.p3, r⟩
  | unlock (r : List Op) : Pair q .own ⟨.p3, r⟩ .idle ⟨.z, r⟩
  | unlockLate (r : List Op) : Pair q .own ⟨.q2, r⟩ .idle ⟨.q3, r⟩
  | wait (r : List Op) : q = [] → Pair q .own ⟨.t1, .take :: r⟩ .w1 ⟨.t1, .take :: r⟩
  | go (pc pc' : PC) (c : Cl) : pc ≠ .idle → pc ≠ .own → Pair q pc c pc' c

/-- The steps. -/
inductive Step (s : WSt) (i : Nat) : WSt → Prop where
  | cv (pc pc' : PC) (c c' : Cl) (v : CondVar.St) : s.cv.pcs[i]? = some pc → s.cl[i]? = some c → Move false s.cv i pc pc' v →
      Pair s.queue pc c pc' c' → Step s i { s with cv := v, cl := s.cl.set i c' }
  | push (x : Nat) (a l : Bool) (r : List Op) (ph : Ph) : s.cv.pcs[i]? = some .own → s.cl[i]? = some ⟨.p1, .put x a l :: r⟩ →
      (ph = .q2 ∨ ph = .p2 a) →
      Step s i { s with cl := s.cl.set i ⟨ph, r⟩, queue := s.queue ++ [x], pushed := s.pushed ++ [(i, x)] }
  | pop (x : Nat) (q : List Nat) (r : List Op) : s.cv.pcs[i]? = some .own → s.cl[i]? = some ⟨.t1, .take :: r⟩ → s.queue = x :: q →
      Step s i { s with cl := s.cl.set i ⟨.p3, r⟩, queue := q, popped := s.popped ++ [(i, x)] }

theorem call_some {s s' : WSt} {i : Nat} {a : Act} {c : Cl} (h : s.call i a c = some s') :
    ∃ v, CondVar.step false s.cv i a = some v ∧ s' = { s with cv := v, cl := s.cl.set i c } := by
  rw [WSt.call] at h
  obtain ⟨v, h1, h2⟩ := Option.map_eq_some_iff.1 h
  exact ⟨v, h1, h2.symm⟩

theorem step_cases {s s' : WSt} {i : Nat} (h : s.step i = some s') : Step s i s' := by
  rw [WSt.step] at h
  cases hp : s.cv.pcs[i]? with
  | none => rw [hp] at h; simp at h
  | some pc =>
    cases hc : s.cl[i]? with
    | none => rw [hp, hc] at h; simp at h
    | some c =>
      rw [hp, hc] at h
      dsimp only at h
      have hgo : pc ≠ .idle → pc ≠ .own → s.call i .go c = some s' → Step s i s' := by
        intro h1 h2 e
        obtain ⟨v, e1, rfl⟩ := call_some e
        obtain ⟨p, b, hp2, m⟩ := step_move e1
        rw [hp] at hp2
        obtain rfl := Option.some.inj hp2
        exact .cv _ _ _ _ _ hp hc m (.go _ _ _ h1 h2)
      obtain ⟨ph, prog⟩ := c
      cases pc with
      | idle =>
        dsimp only at h
        rw [WSt.outside] at h
        split at h
        · rename_i e1 e2
          dsimp only at e1 e2; subst e1 e2
          obtain ⟨v, e, rfl⟩ := call_some h
          unfold CondVar.step at e; rw [hp] at e
          dsimp only at e
          split at e
          · rename_i hm
            obtain rfl := Option.some.inj e
            exact .cv _ _ _ _ _ hp hc (.lock hm) (.lockPut _ _ _ _)
          · simp at e
        · rename_i e1 e2
          dsimp only at e1 e2; subst e1 e2
          obtain ⟨v, e, rfl⟩ := call_some h
          unfold CondVar.step at e; rw [hp] at e
          dsimp only at e
          split at e
          · rename_i hm
            obtain rfl := Option.some.inj e
            exact .cv _ _ _ _ _ hp hc (.lock hm) (.lockTake _)
          · simp at e
        · rename_i e1
          dsimp only at e1; subst e1
          obtain ⟨v, e, rfl⟩ := call_some h
          unfold CondVar.step at e; rw [hp] at e
          obtain rfl := Option.some.inj e
          exact .cv _ _ _ _ _ hp hc .one0 (.late _)
        · simp at h
      | own =>
        dsimp only at h
        rw [WSt.inside] at h
        split at h
        · rename_i x all late rest e1 e2
          dsimp only at e1 e2; subst e1 e2
          obtain rfl := Option.some.inj h
          refine .push _ _ _ _ _ hp hc ?_
          cases late <;> simp
        · rename_i all e1
          dsimp only at e1; subst e1
          obtain ⟨v, e, rfl⟩ := call_some h
          cases all with
          | true =>
            rw [if_pos rfl] at e; unfold CondVar.step at e; rw [hp] at e
            obtain rfl := Option.some.inj e
            exact .cv _ _ _ _ _ hp hc .all1 (.all _)
          | false =>
            rw [if_neg (by simp)] at e; unfold CondVar.step at e; rw [hp] at e
            obtain rfl := Option.some.inj e
            exact .cv _ _ _ _ _ hp hc .one1 (.one _)
        · rename_i e1
          dsimp only at e1; subst e1
          obtain ⟨v, e, rfl⟩ := call_some h
          unfold CondVar.step at e; rw [hp] at e
          obtain rfl := Option.some.inj e
          exact .cv _ _ _ _ _ hp hc .unlock (.unlock _)
        · rename_i e1
          dsimp only at e1; subst e1
          obtain ⟨v, e, rfl⟩ := call_some h
          unfold CondVar.step at e; rw [hp] at e
          obtain rfl := Option.some.inj e
          exact .cv _ _ _ _ _ hp hc .unlock (.unlockLate _)
        · rename_i rest e1 e2
          dsimp only at e1 e2; subst e1 e2
          split at h
          · rename_i hq
            obtain ⟨v, e, rfl⟩ := call_some h
            unfold CondVar.step at e; rw [hp] at e
            obtain rfl := Option.some.inj e
            exact .cv _ _ _ _ _ hp hc .wait (.wait _ hq)
          · rename_i x q hq
            obtain rfl := Option.some.inj h
            exact .pop _ _ _ hp hc hq
        · simp at h
      | w1 => exact hgo (by simp) (by simp) h
      | w2 => exact hgo (by simp) (by simp) h
      | w3 => exact hgo (by simp) (by simp) h
      | w4 => exact hgo (by simp) (by simp) h
      | w5 b => exact hgo (by simp) (by simp) h
      | w6 => exact hgo (by simp) (by simp) h
      | n1 b => exact hgo (by simp) (by simp) h
      | n2 b c => exact hgo (by simp) (by simp) h
      | a1 b => exact hgo (by simp) (by simp) h
      | a2 b => exact hgo (by simp) (by simp) h
      | a3 b => exact hgo (by simp) (by simp) h

/-! ## Both lists at once -/

/-- The threads with their two places. -/
def both (s : WSt) : List (PC × Cl) := s.cv.pcs.zip s.cl

theorem zip_set {α β : Type} (l : List α) (m : List β) (i : Nat) (a : α) (b : β) :
    (l.set i a).zip (m.set i b) = (l.zip m).set i (a, b) := by
  induction l generalizing m i with
  | nil => simp
  | cons x l ih =>
    cases m with
    | nil => simp
    | cons y m =>
      cases i with
      | zero => simp
      | succ i => simp [ih]

theorem zip_get {α β : Type} {l : List α} {m : List β} {i : Nat} {a : α} {b : β} (h1 : l[i]? = some a) (h2 : m[i]? = some b) :
    (l.zip m)[i]? = some (a, b) := List.getElem?_zip_eq_some.2 ⟨h1, h2⟩

theorem set_self {α : Type} {l : List α} {i : Nat} {a : α} (h : l[i]? = some a) : l.set i a = l := by
  refine List.ext_getElem? fun k => ?_
  rw [List.getElem?_set]
  split
  · rename_i hk
    subst hk
    rw [if_pos (List.getElem?_eq_some_iff.1 h).1, h]
  · rfl

/-- What the program may be at while the library is at a place. -/
def Fit : PC → Cl → Prop
  | .idle, c => c.ph = .z ∨ c.ph = .q3
  | .own, c => (c.ph = .p1 ∧ ∃ x a l r, c.prog = .put x a l :: r) ∨ (∃ a, c.ph = .p2 a) ∨ c.ph = .p3 ∨ c.ph = .q2 ∨
      (c.ph = .t1 ∧ ∃ r, c.prog = .take :: r)
  | .w1, c | .w2, c | .w3, c | .w4, c | .w5 _, c | .w6, c => c.ph = .t1 ∧ ∃ r, c.prog = .take :: r
  | .n1 h, c | .n2 h _, c | .a1 h, c | .a2 h, c | .a3 h, c => c.ph = if h then .p3 else .z

/-- On the way to look at the queue, or about to notify. -/
def busy : PC × Cl → Bool
  | (.idle, c) => c.ph = .q3
  | (.own, c) => match c.ph with
    | .t1 => true
    | .p2 _ => true
    | .q2 => true
    | _ => false
  | (.w4, _) => true
  | (.w5 _, _) => true
  | (.w6, _) => true
  | (.n1 _, _) => true
  | (.n2 _ b, _) => b
  | (.a1 _, _) => true
  | _ => false

theorem countP_set_add {α : Type} (p : α → Bool) : ∀ (l : List α) (i : Nat) (a b : α), l[i]? = some a →
    (l.set i b).countP p + (p a).toNat = l.countP p + (p b).toNat := by
  intro l
  induction l with
  | nil => intro i a b h; simp at h
  | cons x l ih =>
    intro i a b h
    cases i with
    | zero =>
      simp only [List.getElem?_cons_zero, Option.some.injEq] at h
      subst h
      rw [List.set_cons_zero, List.countP_cons, List.countP_cons]
      cases p x <;> cases p b <;> simp <;> omega
    | succ i =>
      rw [List.getElem?_cons_succ] at h
      have := ih i a b h
      rw [List.set_cons_succ, List.countP_cons, List.countP_cons]
      omega

/-- The invariant. -/
structure Inv (progs : List (List Op)) (s : WSt) : Prop where
  reach : CondVar.Reach false progs.length s.cv
  len : s.cl.length = progs.length
  fit : ∀ x ∈ both s, Fit x.1 x.2
  before : (∃ x ∈ both s, x.1 = .w1 ∨ x.1 = .w2) → s.queue = []
  cover : (∃ x ∈ both s, x.1 = .w3) → s.queue.length ≤ s.cv.sema + (both s).countP busy
  hist : Hist progs (s.cl.map Cl.prog) s.queue s.pushed s.popped

theorem start_inv (progs : List (List Op)) : Inv progs (WSt.start progs) := by
  have hb : ∀ x ∈ both (WSt.start progs), x.1 = .idle ∧ x.2.ph = .z := by
    rintro ⟨a, b⟩ hx
    have h1 := (List.of_mem_zip hx).1
    have h2 := (List.of_mem_zip hx).2
    simp only [WSt.start, CondVar.St.start] at h1 h2
    obtain ⟨p, -, rfl⟩ := List.mem_map.1 h2
    exact ⟨List.eq_of_mem_replicate h1, rfl⟩
  have hl : (WSt.start progs).cl.map Cl.prog = progs := by simp [WSt.start, Function.comp_def]
  refine ⟨.start, by simp [WSt.start], ?_, ?_, ?_, ?_⟩
  · intro x hx
    obtain ⟨h1, h2⟩ := hb x hx
    obtain ⟨a, b⟩ := x
    dsimp only at h1 h2 ⊢
    subst h1
    exact Or.inl h2
  · intro _; rfl
  · rintro ⟨x, hx, h⟩
    rw [(hb x hx).1] at h
    cases h
  · rw [hl]
    have := (Monitor.start_inv progs).hist
    have h2 : Monitor.left (Monitor.St.start progs) = progs := by simp [Monitor.left, Monitor.St.start, Function.comp_def]
    rw [h2] at this
    exact this

/-- Appending keeps the history right. -/
theorem hist_push {progs ps : List (List Op)} {q : List Nat} {pu po : List (Nat × Nat)} (h : Hist progs ps q pu po) {i x : Nat}
    {a l : Bool} {r : List Op} (hi : ps[i]? = some (.put x a l :: r)) :
    Hist progs (ps.set i r) (q ++ [x]) (pu ++ [(i, x)]) po := by
  have hlt := (List.getElem?_eq_some_iff.1 hi).1
  refine ⟨by simpa using h.len, by simp [h.fifo], ?_, ?_, ?_, ?_⟩
  · intro k p t h1 h2
    rw [List.getElem?_set] at h2
    by_cases hk : i = k
    · subst hk
      rw [if_pos rfl, if_pos hlt] at h2
      have := h.prod i p _ h1 hi
      rw [puts] at this
      simp only [List.filter_append, List.map_append, ← Option.some.inj h2, ← this]
      simp
    · rw [if_neg hk] at h2
      have := h.prod k p t h1 h2
      simp only [List.filter_append, List.map_append]
      simpa [hk] using this
  · intro k p t h1 h2
    rw [List.getElem?_set] at h2
    by_cases hk : i = k
    · subst hk
      rw [if_pos rfl, if_pos hlt] at h2
      have := h.cons i p _ h1 hi
      rw [takes] at this
      rw [← Option.some.inj h2]; exact this
    · rw [if_neg hk] at h2
      exact h.cons k p t h1 h2
  · have h1 := sum_set_add (fun p => (puts p).length) ps i _ r hi
    have h2 := h.puts
    simp only [puts, List.length_cons] at h1
    simp only [totalPuts, List.length_append, List.length_singleton] at h2 ⊢
    omega
  · have h1 := sum_set_add takes ps i _ r hi
    have h2 := h.takes
    simp only [takes] at h1
    simp only [totalTakes] at h2 ⊢
    omega

/-- Removing keeps the history right. -/
theorem hist_pop {progs ps : List (List Op)} {q : List Nat} {x : Nat} {pu po : List (Nat × Nat)} (h : Hist progs ps (x :: q) pu po)
    {i : Nat} {r : List Op} (hi : ps[i]? = some (.take :: r)) : Hist progs (ps.set i r) q pu (po ++ [(i, x)]) := by
  have hlt := (List.getElem?_eq_some_iff.1 hi).1
  refine ⟨by simpa using h.len, by simp [h.fifo], ?_, ?_, ?_, ?_⟩
  · intro k p t h1 h2
    rw [List.getElem?_set] at h2
    by_cases hk : i = k
    · subst hk
      rw [if_pos rfl, if_pos hlt] at h2
      have := h.prod i p _ h1 hi
      rw [puts] at this
      rw [← Option.some.inj h2]; exact this
    · rw [if_neg hk] at h2
      exact h.prod k p t h1 h2
  · intro k p t h1 h2
    rw [List.getElem?_set] at h2
    by_cases hk : i = k
    · subst hk
      rw [if_pos rfl, if_pos hlt] at h2
      have := h.cons i p _ h1 hi
      rw [takes] at this
      rw [← Option.some.inj h2, ← this]
      simp; omega
    · rw [if_neg hk] at h2
      have := h.cons k p t h1 h2
      simpa [hk] using this
  · have h1 := sum_set_add (fun p => (puts p).length) ps i _ r hi
    have h2 := h.puts
    simp only [puts] at h1
    simp only [totalPuts] at h2 ⊢
    omega
  · have h1 := sum_set_add takes ps i _ r hi
    have h2 := h.takes
    simp only [takes] at h1
    simp only [totalTakes, List.length_append, List.length_singleton] at h2 ⊢
    omega

theorem pair_prog {q : List Nat} {pc pc' : PC} {c c' : Cl} (h : Pair q pc c pc' c') : c'.prog = c.prog := by cases h <;> rfl

theorem progs_set {cl : List Cl} {i : Nat} {c c' : Cl} (h : cl[i]? = some c) (e : c'.prog = c.prog) :
    (cl.set i c').map Cl.prog = cl.map Cl.prog := by
  rw [List.map_set, e]
  exact set_self (by rw [List.getElem?_map, h]; rfl)

theorem fit_move {s : CondVar.St} {i : Nat} {v : CondVar.St} {q : List Nat} {pc pc' : PC} {c c' : Cl}
    (m : Move false s i pc pc' v) (p : Pair q pc c pc' c') (h : Fit pc c) : Fit pc' c' := by
  cases p with
  | lockPut x a l r => exact Or.inl ⟨rfl, x, a, l, r, rfl⟩
  | lockTake r => exact Or.inr (Or.inr (Or.inr (Or.inr ⟨rfl, r, rfl⟩)))
  | late r => rfl
  | one r => rfl
  | all r => rfl
  | unlock r => exact Or.inl rfl
  | unlockLate r => exact Or.inr rfl
  | wait r hq => exact ⟨rfl, r, rfl⟩
  | go _ _ _ h1 h2 =>
    cases m with
    | lock => exact absurd rfl h1
    | unlock => exact absurd rfl h2
    | wait => exact absurd rfl h2
    | one0 => exact absurd rfl h1
    | one1 => exact absurd rfl h2
    | all0 => exact absurd rfl h1
    | all1 => exact absurd rfl h2
    | enter => exact h
    | rel => exact h
    | take => exact h
    | leave => exact h
    | signal => exact h
    | skip => exact h
    | back => exact Or.inr (Or.inr (Or.inr (Or.inr h)))
    | look => exact h
    | post b => cases b with
      | true => exact Or.inr (Or.inr (Or.inl h))
      | false => exact Or.inl h
    | noPost b => cases b with
      | true => exact Or.inr (Or.inr (Or.inl h))
      | false => exact Or.inl h
    | cast => exact h
    | noCast b => cases b with
      | true => exact Or.inr (Or.inr (Or.inl h))
      | false => exact Or.inl h
    | got => exact h
    | fin b => cases b with
      | true => exact Or.inr (Or.inr (Or.inl h))
      | false => exact Or.inl h

theorem reach_move {n : Nat} {s v : CondVar.St} {i : Nat} {a : Act} (h : CondVar.Reach false n s) (e : CondVar.step false s i a = some v) :
    CondVar.Reach false n v := .step h e

theorem mem_set {α : Type} {l : List α} {i : Nat} {a x : α} (h : x ∈ l.set i a) : x ∈ l ∨ x = a := by
  rcases List.mem_or_eq_of_mem_set h with h | h
  · exact Or.inl h
  · exact Or.inr h

theorem not_waiting {l : List PC} {m : List Cl} (h : l.countP Verif.Spec.CondVar.waiting = 0) : ∀ x ∈ l.zip m, x.1 ≠ .w3 := by
  rintro ⟨a, b⟩ hx e
  rw [List.countP_eq_zero] at h
  have := h a (List.of_mem_zip hx).1
  dsimp only at e
  subst e
  simp [Verif.Spec.CondVar.waiting] at this

theorem countP_le_len (l : List PC) (p : PC → Bool) : l.countP p ≤ l.length := List.countP_le_length

theorem step_inv {progs : List (List Op)} (hn : progs.length ≤ 2 ^ 30) (ht : totalPuts progs ≤ 2 ^ 30) {s s' : WSt} {i : Nat}
    (I : Inv progs s) (e : s.step i = some s') (hreach : CondVar.Reach false progs.length s'.cv) : Inv progs s' := by
  obtain ⟨reach, len, fit, before, cover, hist⟩ := I
  have CI := CondVar.inv_reach hn reach
  have hql : s.queue.length ≤ 2 ^ 30 := by
    have h1 := hist.puts
    have h2 := congrArg List.length hist.fifo
    simp at h2
    omega
  have hwn : s.cv.waiterNum ≤ (2 ^ 30 : Nat) := by
    have h1 := CI.wn
    have h2 := countP_le_len s.cv.pcs Verif.Spec.CondVar.waiting
    have h3 := CI.len
    omega
  cases step_cases e with
  | cv pc pc' c c' v hp hc m p =>
    have hz := zip_get hp hc
    have hboth : both { s with cv := v, cl := s.cl.set i c' } = (both s).set i (pc', c') := by
      show v.pcs.zip (s.cl.set i c') = _
      rw [m.pcs, zip_set]; rfl
    have hcnt := countP_set_add busy (both s) i _ (pc', c') hz
    refine ⟨hreach, by simpa using len, ?_, ?_, ?_, ?_⟩
    · rw [hboth]
      intro x hx
      rcases mem_set hx with hx | rfl
      · exact fit x hx
      · exact fit_move m p (fit _ (List.mem_of_getElem? hz))
    · rw [hboth]
      rintro ⟨x, hx, hx1⟩
      rcases mem_set hx with hx | rfl
      · exact before ⟨x, hx, hx1⟩
      · show s.queue = []
        cases p with
        | lockPut | lockTake | late | one | all | unlock | unlockLate => simp at hx1
        | wait r hq => exact hq
        | go _ _ _ h1 h2 =>
          cases m with
          | wait => exact absurd rfl h2
          | enter => exact before ⟨_, List.mem_of_getElem? hz, Or.inl rfl⟩
          | post b => cases b <;> simp [CondVar.ret] at hx1
          | noPost b => cases b <;> simp [CondVar.ret] at hx1
          | noCast b => cases b <;> simp [CondVar.ret] at hx1
          | fin b => cases b <;> simp [CondVar.ret] at hx1
          | _ => simp at hx1
    · rw [hboth]
      rintro ⟨x, hx, hx1⟩
      show s.queue.length ≤ v.sema + _
      -- either somebody waited before, or it is this thread
      have hold : (∃ y ∈ both s, y.1 = .w3) ∨ (pc = .w2 ∧ pc' = .w3) := by
        rcases mem_set hx with hx | rfl
        · exact Or.inl ⟨x, hx, hx1⟩
        · right
          dsimp only at hx1
          refine ⟨?_, hx1⟩
          cases m with
          | rel => rfl
          | post b => cases b <;> simp [CondVar.ret] at hx1
          | noPost b => cases b <;> simp [CondVar.ret] at hx1
          | noCast b => cases b <;> simp [CondVar.ret] at hx1
          | fin b => cases b <;> simp [CondVar.ret] at hx1
          | _ => simp at hx1
      rcases hold with hold | ⟨rfl, rfl⟩
      · have hcov := cover hold
        have hw : 0 < s.cv.waiterNum := by
          rw [CI.wn]
          refine Classical.byContradiction fun h0 => ?_
          obtain ⟨y, hy, hy1⟩ := hold
          exact not_waiting (by omega) y hy hy1
        cases p with
        | lockPut | lockTake | late | one | all | unlock | unlockLate =>
          cases m <;> simp [busy] at hcnt ⊢ <;> omega
        | wait r hq => rw [hq]; simp
        | go _ _ _ h1 h2 =>
          have hf := fit _ (List.mem_of_getElem? hz)
          cases m with
          | lock => exact absurd rfl h1
          | unlock => exact absurd rfl h2
          | wait => exact absurd rfl h2
          | one0 => exact absurd rfl h1
          | one1 => exact absurd rfl h2
          | all0 => exact absurd rfl h1
          | all1 => exact absurd rfl h2
          | enter => simp [busy] at hcnt ⊢; omega
          | rel => simp [busy] at hcnt ⊢; omega
          | take hs => simp [busy] at hcnt ⊢; omega
          | leave => simp [busy] at hcnt ⊢; omega
          | signal => simp [busy] at hcnt ⊢; omega
          | skip => simp [busy] at hcnt ⊢; omega
          | back =>
            have : c.ph = .t1 := hf.1
            simp [busy, this] at hcnt ⊢; omega
          | look b => simp [busy, hw] at hcnt ⊢; omega
          | post b =>
            have hr : s.queue.length ≤ CondVar.releaseSema s.cv.sema 1 + ((both s).countP busy - 1) := by
              rw [CondVar.releaseSema, CondVar.semaMax]
              have hpos : 1 ≤ (both s).countP busy := List.countP_pos_iff.2 ⟨_, List.mem_of_getElem? hz, rfl⟩
              split <;> omega
            have hge : (both s).countP busy ≤ ((both s).set i (CondVar.ret b, c)).countP busy + 1 := by
              simp only [busy, Bool.toNat_true] at hcnt; omega
            show _ ≤ CondVar.releaseSema s.cv.sema 1 + _
            omega
          | noPost b =>
            have hge : (both s).countP busy ≤ ((both s).set i (CondVar.ret b, c)).countP busy := by
              simp only [busy, Bool.toNat_false] at hcnt; omega
            show _ ≤ s.cv.sema + _
            omega
          | cast b hw2 =>
            have hr : s.queue.length ≤ CondVar.releaseSema s.cv.sema s.cv.waiterNum.toNat + ((both s).countP busy - 1) := by
              rw [CondVar.releaseSema, CondVar.semaMax]
              have hpos : 1 ≤ (both s).countP busy := List.countP_pos_iff.2 ⟨_, List.mem_of_getElem? hz, rfl⟩
              split <;> omega
            have hge : (both s).countP busy ≤ ((both s).set i (.a2 b, c)).countP busy + 1 := by
              simp only [busy, Bool.toNat_true, Bool.toNat_false] at hcnt; omega
            show _ ≤ CondVar.releaseSema s.cv.sema s.cv.waiterNum.toNat + _
            omega
          | noCast b h0 => exact absurd hw h0
          | got => simp [busy] at hcnt ⊢; omega
          | fin b =>
            have hge : (both s).countP busy ≤ ((both s).set i (CondVar.ret b, c)).countP busy := by
              simp only [busy, Bool.toNat_false] at hcnt; omega
            show _ ≤ s.cv.sema + _
            omega
      · rw [before ⟨_, List.mem_of_getElem? hz, Or.inr rfl⟩]; simp
    · show Hist progs ((s.cl.set i c').map Cl.prog) s.queue s.pushed s.popped
      rw [progs_set hc (pair_prog p)]
      exact hist
  | push x a l r ph hp hc hph =>
    have hz := zip_get hp hc
    have hboth : both { s with cl := s.cl.set i ⟨ph, r⟩, queue := s.queue ++ [x], pushed := s.pushed ++ [(i, x)] } =
        (both s).set i (.own, ⟨ph, r⟩) := by
      show s.cv.pcs.zip (s.cl.set i _) = _
      rw [both, ← zip_set, set_self hp]
    have hcnt := countP_set_add busy (both s) i _ (.own, ⟨ph, r⟩) hz
    refine ⟨hreach, by simpa using len, ?_, ?_, ?_, ?_⟩
    · rw [hboth]
      intro y hy
      rcases mem_set hy with hy | rfl
      · exact fit y hy
      · rcases hph with rfl | rfl
        · exact Or.inr (Or.inr (Or.inr (Or.inl rfl)))
        · exact Or.inr (Or.inl ⟨a, rfl⟩)
    · rw [hboth]
      rintro ⟨y, hy, hy1⟩
      exfalso
      rcases mem_set hy with hy | rfl
      · obtain ⟨k, hk, hky⟩ := List.getElem_of_mem hy
        have hk2 : (both s)[k]? = some (y.1, y.2) := by rw [List.getElem?_eq_getElem hk, hky]
        have h1 := (List.getElem?_zip_eq_some.1 (show (s.cv.pcs.zip s.cl)[k]? = some (y.1, y.2) from hk2)).1
        have m1 := CI.holder hp rfl
        have m2 := CI.holder h1 (by rcases hy1 with h | h <;> rw [h] <;> rfl)
        rw [m1] at m2
        obtain rfl := Option.some.inj m2
        rw [hp] at h1
        have := Option.some.inj h1
        rw [← this] at hy1
        simp at hy1
      · simp at hy1
    · rw [hboth]
      rintro ⟨y, hy, hy1⟩
      rcases mem_set hy with hy | rfl
      · have := cover ⟨y, hy, hy1⟩
        show (s.queue ++ [x]).length ≤ s.cv.sema + _
        have hb : busy (.own, ⟨ph, r⟩) = true := by rcases hph with rfl | rfl <;> rfl
        have hb2 : busy (.own, ⟨.p1, .put x a l :: r⟩) = false := rfl
        rw [hb, hb2] at hcnt
        simp at hcnt ⊢
        omega
      · simp at hy1
    · show Hist progs ((s.cl.set i _).map Cl.prog) _ _ _
      rw [List.map_set]
      exact hist_push hist (by rw [List.getElem?_map, hc]; rfl)
  | pop x q r hp hc hq =>
    have hz := zip_get hp hc
    have hboth : both { s with cl := s.cl.set i ⟨.p3, r⟩, queue := q, popped := s.popped ++ [(i, x)] } =
        (both s).set i (.own, ⟨.p3, r⟩) := by
      show s.cv.pcs.zip (s.cl.set i _) = _
      rw [both, ← zip_set, set_self hp]
    have hcnt := countP_set_add busy (both s) i _ (.own, ⟨.p3, r⟩) hz
    refine ⟨hreach, by simpa using len, ?_, ?_, ?_, ?_⟩
    · rw [hboth]
      intro y hy
      rcases mem_set hy with hy | rfl
      · exact fit y hy
      · exact Or.inr (Or.inr (Or.inl rfl))
    · rw [hboth]
      rintro ⟨y, hy, hy1⟩
      rcases mem_set hy with hy | rfl
      · have := before ⟨y, hy, hy1⟩
        rw [hq] at this
        simp at this
      · simp at hy1
    · rw [hboth]
      rintro ⟨y, hy, hy1⟩
      rcases mem_set hy with hy | rfl
      · have := cover ⟨y, hy, hy1⟩
        rw [hq] at this
        show q.length ≤ s.cv.sema + _
        have hb2 : busy (.own, ⟨.t1, .take :: r⟩) = true := rfl
        have hb : busy (.own, ⟨.p3, r⟩) = false := rfl
        rw [hb, hb2] at hcnt
        simp at hcnt this
        omega
      · simp at hy1
    · show Hist progs ((s.cl.set i _).map Cl.prog) _ _ _
      rw [List.map_set]
      rw [hq] at hist
      exact hist_pop hist (by rw [List.getElem?_map, hc]; rfl)

theorem step_reach {n : Nat} {s s' : WSt} {i : Nat} (h : CondVar.Reach false n s.cv) (e : s.step i = some s') :
    CondVar.Reach false n s'.cv := by
  have call : ∀ {a : Act} {c : Cl}, s.call i a c = some s' → CondVar.Reach false n s'.cv := by
    intro a c e
    obtain ⟨v, e1, rfl⟩ := call_some e
    exact .step h e1
  rw [WSt.step] at e
  split at e
  · split at e
    · rw [WSt.outside] at e
      split at e
      · exact call e
      · exact call e
      · exact call e
      · simp at e
    · rw [WSt.inside] at e
      split at e
      · obtain rfl := Option.some.inj e; exact h
      · exact call e
      · exact call e
      · exact call e
      · split at e
        · exact call e
        · obtain rfl := Option.some.inj e; exact h
      · simp at e
    · exact call e
  · simp at e

theorem runs_inv {progs : List (List Op)} (hn : progs.length ≤ 2 ^ 30) (ht : totalPuts progs ≤ 2 ^ 30) {s : WSt} {n : Nat}
    (h : Runs (WSt.start progs) n s) : Inv progs s := by
  induction h with
  | nil => exact start_inv progs
  | step i _ e ih => exact step_inv hn ht ih e (step_reach ih.reach e)

end Verif.MonitorWin
