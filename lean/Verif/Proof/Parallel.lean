import Verif.Spec.Parallel
import Mathlib.Data.List.Basic
import Mathlib.Data.List.Perm.Basic
set_option linter.unusedSimpArgs false
/-! Lemmas for C49. -/
namespace Verif.Parallel
open Verif.Spec.Parallel

/-! ### The ranges -/

/-- Where range `j` begins. -/
def bnd (q r j : Nat) : Nat := j * q + min j r

theorem bnd_succ (q r j : Nat) : bnd q r (j + 1) = bnd q r j + q + (if j < r then 1 else 0) := by
  simp only [bnd, Nat.add_mul, Nat.one_mul]
  split <;> omega

theorem bnd_le (q r j : Nat) : bnd q r j ≤ bnd q r (j + 1) := by rw [bnd_succ]; omega

theorem bnd_mono (q r : Nat) {i j : Nat} (h : i ≤ j) : bnd q r i ≤ bnd q r j := by
  induction j with
  | zero => rw [show i = 0 by omega]; exact Nat.le_refl _
  | succ j ih =>
    by_cases hi : i = j + 1
    · rw [hi]; exact Nat.le_refl _
    · exact Nat.le_trans (ih (by omega)) (bnd_le q r j)

theorem bnd_total (n t : Nat) (ht : 0 < t) : bnd (n / t) (n % t) t = n := by
  have h := Nat.div_add_mod n t
  have h2 := Nat.mod_lt n ht
  rw [bnd, Nat.min_eq_right (by omega)]
  rw [Nat.mul_comm] at h
  rw [Nat.mul_comm t] at *
  exact h

theorem rangeLoop_eq (w n t : Nat) (ht : 0 < t) (hn : n < 2 ^ w) (fuel : Nat) : ∀ i, i + fuel = t →
    rangeLoop w (n / t) (n % t) t fuel i (bnd (n / t) (n % t) i) =
      (List.range' i fuel).map (fun j => (bnd (n / t) (n % t) j, bnd (n / t) (n % t) (j + 1))) := by
  induction fuel with
  | zero => intro i _; rfl
  | succ fuel ih =>
    intro i hi
    have hle : bnd (n / t) (n % t) (i + 1) ≤ n := by
      have := bnd_mono (n / t) (n % t) (show i + 1 ≤ t by omega)
      rwa [bnd_total n t ht] at this
    have hs := bnd_succ (n / t) (n % t) i
    rw [rangeLoop, if_pos (by omega), List.range'_succ, List.map_cons, ← ih (i + 1) (by omega)]
    have he : (if i < n % t then ((bnd (n / t) (n % t) i + n / t) % 2 ^ w + 1) % 2 ^ w else (bnd (n / t) (n % t) i + n / t) % 2 ^ w) =
        bnd (n / t) (n % t) (i + 1) := by
      generalize n / t = q at *
      generalize n % t = r at *
      generalize 2 ^ w = W at *
      have h0 : (bnd q r i + q) % W = bnd q r i + q := Nat.mod_eq_of_lt (by split at hs <;> omega)
      rw [h0]
      split at hs
      · rename_i h; rw [if_pos h, Nat.mod_eq_of_lt (by omega)]; omega
      · rename_i h; rw [if_neg h]; omega
    simp only [he]

theorem threads_pos {n T : Nat} (hn : n ≠ 0) (hT : T ≠ 0) : 0 < threads n T := by
  rw [threads]; split <;> omega

theorem threads_eq (n T : Nat) : threads n T = min T n := by
  rw [threads]; split <;> omega

theorem ranges_eq (w n T : Nat) (hn : n ≠ 0) (hT : T ≠ 0) (hw : n < 2 ^ w) :
    ranges w n T = (List.range (threads n T)).map
      (fun j => (bnd (n / threads n T) (n % threads n T) j, bnd (n / threads n T) (n % threads n T) (j + 1))) := by
  have := rangeLoop_eq w n (threads n T) (threads_pos hn hT) hw (threads n T) 0 (by omega)
  rw [ranges, List.range_eq_range', ← this]
  rw [show bnd (n / threads n T) (n % threads n T) 0 = 0 by simp [bnd]]

theorem flatMap_bnd (q r t : Nat) :
    (List.range t).flatMap (fun j => List.range' (bnd q r j) (bnd q r (j + 1) - bnd q r j)) = List.range (bnd q r t) := by
  induction t with
  | zero => simp [bnd]
  | succ t ih =>
    rw [List.range_succ, List.flatMap_append, ih, List.range_eq_range', List.range_eq_range']
    simp only [List.flatMap_cons, List.flatMap_nil, List.append_nil]
    have := bnd_le q r t
    rw [show bnd q r (t + 1) = bnd q r t + (bnd q r (t + 1) - bnd q r t) by omega]
    have h2 := List.range'_append (s := 0) (m := bnd q r t) (n := bnd q r (t + 1) - bnd q r t) (step := 1)
    simp only [Nat.one_mul, Nat.zero_add] at h2
    rw [← h2]
    congr 2
    omega

/-! ### The trace of one thread -/

/-- The thread of an event. -/
def Ev.who : Ev → Nat
  | .enter k _ => k
  | .leave k _ _ => k

/-- What thread `k` did. -/
def tr (k : Nat) (l : List Ev) : List Ev := l.filter (fun e => e.who == k)

/-- The calls with `m` indices from `b`, all returning `true`. -/
def full (k b m : Nat) : List Ev := (List.range' b m).flatMap (fun i => [.enter k i, .leave k i .yes])

theorem full_succ (k b m : Nat) : full k b (m + 1) = full k b m ++ [.enter k (b + m), .leave k (b + m) .yes] := by
  rw [full, List.range'_concat, List.flatMap_append]
  simp [full]

/-- What a thread with range `r` did, by where it is. -/
inductive Shape (k : Nat) (r : Nat × Nat) : TPc → String → List Ev → Prop where
  | none : Shape k r .none "" []
  | loop (m : Nat) : r.1 + m ≤ r.2 → Shape k r (.loop (r.1 + m)) "" (full k r.1 m)
  | call (m : Nat) : r.1 + m < r.2 → Shape k r (.call (r.1 + m)) "" (full k r.1 m ++ [.enter k (r.1 + m)])
  | done : Shape k r .done "" (full k r.1 (r.2 - r.1))
  | no (m : Nat) : r.1 + m < r.2 → Shape k r .done "" (full k r.1 m ++ [.enter k (r.1 + m), .leave k (r.1 + m) .no])
  | exn (m : Nat) (what : String) : r.1 + m < r.2 →
      Shape k r .done what (full k r.1 m ++ [.enter k (r.1 + m), .leave k (r.1 + m) (.exn what)])

/-- What the main thread knows. -/
def MainOk (L : Nat) (thr : Nat → TPc) (err : Nat → String) : MPc → Prop
  | .begin j => j ≤ L ∧ (∀ k, k < j → thr k ≠ .none) ∧ ∀ k, j ≤ k → thr k = .none
  | .join j => j ≤ L ∧ (∀ k, k < L → thr k ≠ .none) ∧ ∀ k, k < j → thr k = .done
  | .check j => j ≤ L ∧ (∀ k, k < L → thr k = .done) ∧ ∀ k, k < j → err k = ""
  | .returned => (∀ k, k < L → thr k = .done) ∧ ∀ k, k < L → err k = ""
  | .threw j what => j < L ∧ (∀ k, k < L → thr k = .done) ∧ err j = what ∧ what ≠ "" ∧ ∀ k, k < j → err k = ""
  | .destroy j => j ≤ L ∧ ∀ k, j ≤ k → thr k = .none ∨ thr k = .done
  | .destroyJoin j => j < L ∧ ∀ k, j < k → thr k = .none ∨ thr k = .done
  | .cantBegin => ∀ k, thr k = .none ∨ thr k = .done

structure Inv (rs : List (Nat × Nat)) (s : St) : Prop where
  shape : ∀ k r, rs[k]? = some r → Shape k r (s.thr k) (s.err k) (tr k s.trace)
  out : ∀ k, rs.length ≤ k → s.thr k = .none ∧ tr k s.trace = []
  main : MainOk rs.length s.thr s.err s.main

theorem upd_self {A : Type} (f : Nat → A) (k : Nat) (a : A) : upd f k a k = a := by simp [upd]
theorem upd_ne {A : Type} (f : Nat → A) {k j : Nat} (a : A) (h : j ≠ k) : upd f k a j = f j := by simp [upd, h]

theorem inv_init (rs : List (Nat × Nat)) : Inv rs St.init :=
  ⟨fun k r _ => .none, fun _ _ => ⟨rfl, rfl⟩, by simp [St.init, MainOk]⟩

theorem lt_of_some {rs : List (Nat × Nat)} {k : Nat} {r : Nat × Nat} (h : rs[k]? = some r) : k < rs.length := by
  obtain ⟨h, _⟩ := List.getElem?_eq_some_iff.1 h
  exact h

theorem some_of_lt {rs : List (Nat × Nat)} {k : Nat} (h : k < rs.length) : ∃ r, rs[k]? = some r := ⟨rs[k], List.getElem?_eq_getElem h⟩

/-- A running thread that does a step `thr k := p` (not `none`). -/
theorem main_keep {L : Nat} {s : St} {k : Nat} {p : TPc} (err' : Nat → String) (hm : MainOk L s.thr s.err s.main)
    (hrun : s.thr k ≠ .none ∧ s.thr k ≠ .done) (hp : p ≠ .none) (hk : k < L) (he : ∀ j, j ≠ k → err' j = s.err j) :
    MainOk L (upd s.thr k p) err' s.main := by
  have hdone : ∀ j, s.thr j = .done → upd s.thr k p j = .done := by
    intro j hj
    have : j ≠ k := by rintro rfl; exact hrun.2 hj
    rw [upd_ne _ _ this]; exact hj
  have hnone : ∀ j, s.thr j = .none → upd s.thr k p j = .none := by
    intro j hj
    have : j ≠ k := by rintro rfl; exact hrun.1 hj
    rw [upd_ne _ _ this]; exact hj
  have hnn : ∀ j, s.thr j ≠ .none → upd s.thr k p j ≠ .none := by
    intro j hj
    by_cases hjk : j = k
    · subst hjk; rw [upd_self]; exact hp
    · rw [upd_ne _ _ hjk]; exact hj
  cases hmain : s.main with
  | begin j => rw [hmain] at hm; exact ⟨hm.1, fun i hi => hnn i (hm.2.1 i hi), fun i hi => hnone i (hm.2.2 i hi)⟩
  | join j => rw [hmain] at hm; exact ⟨hm.1, fun i hi => hnn i (hm.2.1 i hi), fun i hi => hdone i (hm.2.2 i hi)⟩
  | check j => rw [hmain] at hm; exact absurd (hm.2.1 k hk) hrun.2
  | returned => rw [hmain] at hm; exact absurd (hm.1 k hk) hrun.2
  | threw j w => rw [hmain] at hm; exact absurd (hm.2.1 k hk) hrun.2
  | destroy j => rw [hmain] at hm; exact ⟨hm.1, fun i hi => (hm.2 i hi).imp (hnone i) (hdone i)⟩
  | destroyJoin j => rw [hmain] at hm; exact ⟨hm.1, fun i hi => (hm.2 i hi).imp (hnone i) (hdone i)⟩
  | cantBegin => rw [hmain] at hm; exact fun i => (hm i).imp (hnone i) (hdone i)

theorem tr_append_self (k : Nat) (l : List Ev) (e : Ev) (h : e.who = k) : tr k (l ++ [e]) = tr k l ++ [e] := by
  simp [tr, List.filter_append, h]

theorem tr_append_ne (k : Nat) (l : List Ev) (e : Ev) (h : e.who ≠ k) : tr k (l ++ [e]) = tr k l := by
  simp [tr, List.filter_append, h]

/-- A thread that is running is in range. -/
theorem run_lt {rs : List (Nat × Nat)} {s : St} (h : Inv rs s) {k : Nat} (hk : s.thr k ≠ .none) : k < rs.length := by
  apply Classical.byContradiction
  intro hc
  exact hk (h.out k (by omega)).1

/-- A step of thread `k` that adds the event `e`. -/
theorem inv_thread {rs : List (Nat × Nat)} {s : St} (h : Inv rs s) {k : Nat} (p : TPc) (err' : Nat → String) (e : Ev)
    (hrun : s.thr k ≠ .none ∧ s.thr k ≠ .done) (hp : p ≠ .none) (he : ∀ j, j ≠ k → err' j = s.err j) (hw : e.who = k)
    (hs : ∀ r, rs[k]? = some r → Shape k r p (err' k) (tr k s.trace ++ [e])) :
    Inv rs { s with thr := upd s.thr k p, err := err', trace := s.trace ++ [e] } := by
  refine ⟨fun j r hr => ?_, fun j hj => ?_, main_keep err' h.main hrun hp (run_lt h hrun.1) he⟩
  · by_cases hjk : j = k
    · subst hjk
      simp only [upd_self, tr_append_self j _ e hw]
      exact hs r hr
    · simp only [upd_ne _ _ hjk, he j hjk, tr_append_ne j _ e (by rw [hw]; exact fun h => hjk h.symm)]
      exact h.shape j r hr
  · have hjk : j ≠ k := by rintro rfl; exact hrun.1 (h.out j hj).1
    simp only [upd_ne _ _ hjk, tr_append_ne j _ e (by rw [hw]; exact fun h => hjk h.symm)]
    exact h.out j hj

theorem inv_step {rs : List (Nat × Nat)} (hrs : ∀ (k : Nat) (r : Nat × Nat), rs[k]? = some r → r.1 ≤ r.2) {s s' : St} (h : Inv rs s) (hs : Step rs s s') :
    Inv rs s' := by
  have hm := h.main
  cases hs with
  | @begin k r hb hr =>
    rw [hb] at hm
    obtain ⟨hj, h1, h2⟩ := hm
    have hk := lt_of_some hr
    have hkn : s.thr k = .none := h2 k (by omega)
    refine ⟨fun j r' hr' => ?_, fun j hj => ?_, hk, fun i hi => ?_, fun i hi => ?_⟩
    · by_cases hjk : j = k
      · subst hjk
        rw [hr] at hr'
        obtain rfl := Option.some.inj hr'
        have := h.shape j r hr
        rw [hkn] at this
        simp only [upd_self]
        generalize s.err j = er at *
        generalize tr j s.trace = l at *
        cases this
        exact Shape.loop (k := j) (r := r) 0 (by have := hrs j r hr; omega)
      · simp only [upd_ne _ _ hjk]; exact h.shape j r' hr'
    · have hjk : j ≠ k := by omega
      simp only [upd_ne _ _ hjk]; exact h.out j hj
    · by_cases hik : i = k
      · subst hik; simp [upd_self]
      · simp only [upd_ne _ _ hik]; exact h1 i (by omega)
    · simp only [upd_ne _ _ (show i ≠ k by omega)]; exact h2 i (by omega)
  | @beginFails k hb hk =>
    rw [hb] at hm
    exact ⟨h.shape, h.out, by simp, fun j hj => .inl (h.out j hj).1⟩
  | allBegun hb =>
    rw [hb] at hm
    exact ⟨h.shape, h.out, by omega, hm.2.1, by simp⟩
  | @join k hb hk hd =>
    rw [hb] at hm
    refine ⟨h.shape, h.out, hk, hm.2.1, fun i hi => ?_⟩
    by_cases hik : i = k
    · rw [hik]; exact hd
    · exact hm.2.2 i (by omega)
  | allJoined hb =>
    rw [hb] at hm
    exact ⟨h.shape, h.out, by omega, hm.2.2, by simp⟩
  | @checkNext k hb hk he =>
    rw [hb] at hm
    refine ⟨h.shape, h.out, hk, hm.2.1, fun i hi => ?_⟩
    by_cases hik : i = k
    · rw [hik]; exact he
    · exact hm.2.2 i (by omega)
  | @checkThrow k hb hk he =>
    rw [hb] at hm
    exact ⟨h.shape, h.out, hk, hm.2.1, rfl, he, hm.2.2⟩
  | «return» hb =>
    rw [hb] at hm
    exact ⟨h.shape, h.out, hm.2.1, hm.2.2⟩
  | @destroy k hb =>
    rw [hb] at hm
    exact ⟨h.shape, h.out, by have := hm.1; omega, fun j hj => hm.2 j (by omega)⟩
  | @destroyJoin k hb hd =>
    rw [hb] at hm
    refine ⟨h.shape, h.out, by have := hm.1; omega, fun j hj => ?_⟩
    by_cases hjk : j = k
    · rw [hjk]; exact hd
    · exact hm.2 j (by omega)
  | destroyed hb =>
    rw [hb] at hm
    exact ⟨h.shape, h.out, fun j => hm.2 j (by omega)⟩
  | @enter k i r ht hr hi =>
    refine inv_thread h (.call i) s.err _ (by simp [ht]) (by simp) (fun _ _ => rfl) rfl (fun r' hr' => ?_)
    rw [hr] at hr'
    obtain rfl := Option.some.inj hr'
    have := h.shape k r hr
    rw [ht] at this
    generalize s.err k = er at *
    generalize tr k s.trace = l at *
    cases this with
    | loop m hm => exact Shape.call m hi
  | @loopEnd k i r ht hr hi =>
    refine ⟨fun j r' hr' => ?_, fun j hj => ?_, main_keep s.err h.main (by simp [ht]) (by simp) (lt_of_some hr) (fun _ _ => rfl)⟩
    · by_cases hjk : j = k
      · subst hjk
        rw [hr] at hr'
        obtain rfl := Option.some.inj hr'
        have := h.shape j r hr
        rw [ht] at this
        simp only [upd_self]
        generalize s.err j = er at *
        generalize tr j s.trace = l at *
        cases this with
        | loop m hm =>
          rw [show m = r.2 - r.1 by omega]
          exact Shape.done
      · simp only [upd_ne _ _ hjk]; exact h.shape j r' hr'
    · have hjk : j ≠ k := by have := lt_of_some hr; omega
      simp only [upd_ne _ _ hjk]; exact h.out j hj
  | @yes k i ht =>
    refine inv_thread h (.loop (i + 1)) s.err _ (by simp [ht]) (by simp) (fun _ _ => rfl) rfl (fun r hr => ?_)
    have := h.shape k r hr
    rw [ht] at this
    generalize s.err k = er at *
    generalize tr k s.trace = l at *
    cases this with
    | call m hm =>
      have h2 := Shape.loop (k := k) (r := r) (m + 1) (by omega)
      rw [full_succ] at h2
      rw [List.append_assoc]
      exact h2
  | @no k i ht =>
    refine inv_thread h .done s.err _ (by simp [ht]) (by simp) (fun _ _ => rfl) rfl (fun r hr => ?_)
    have := h.shape k r hr
    rw [ht] at this
    generalize s.err k = er at *
    generalize tr k s.trace = l at *
    cases this with
    | call m hm =>
      rw [List.append_assoc]
      exact Shape.no m hm
  | @exn k i what ht =>
    refine inv_thread h .done (upd s.err k what) _ (by simp [ht]) (by simp) (fun j hj => upd_ne _ _ hj) rfl (fun r hr => ?_)
    have := h.shape k r hr
    rw [ht] at this
    rw [upd_self]
    generalize s.err k = er at *
    generalize tr k s.trace = l at *
    cases this with
    | call m hm =>
      rw [List.append_assoc]
      exact Shape.exn m what hm

theorem inv_steps {rs : List (Nat × Nat)} (hrs : ∀ (k : Nat) (r : Nat × Nat), rs[k]? = some r → r.1 ≤ r.2) {s s' : St} {n : Nat} (hs : Steps rs s n s') :
    Inv rs s → Inv rs s' := by
  induction hs with
  | nil => exact id
  | snoc _ h ih => exact fun hi => inv_step hrs (ih hi) h

/-! ### Projections -/

theorem callsOf_tr (k : Nat) (l : List Ev) : callsOf k l = callsOf k (tr k l) := by
  induction l with
  | nil => rfl
  | cons e l ih =>
    by_cases h : e.who = k
    · rw [tr, List.filter_cons_of_pos (by simp [h]), ← tr]
      cases e <;> simp_all [callsOf, calls, Ev.who]
    · rw [tr, List.filter_cons_of_neg (by simp [h]), ← tr, ← ih]
      cases e <;> simp_all [callsOf, calls, Ev.who]

theorem callsOf_append (k : Nat) (l l' : List Ev) : callsOf k (l ++ l') = callsOf k l ++ callsOf k l' := by
  simp [callsOf, calls, List.filterMap_append, List.filter_append]

theorem callsOf_full (k b m : Nat) : callsOf k (full k b m) = List.range' b m := by
  induction m with
  | zero => rfl
  | succ m ih =>
    rw [full_succ, callsOf_append, ih, List.range'_concat]
    simp [callsOf, calls]

theorem mem_tr {e : Ev} {l : List Ev} : e ∈ l ↔ e ∈ tr e.who l := by simp [tr]

theorem shape_calls {k : Nat} {r : Nat × Nat} {p : TPc} {er : String} {l : List Ev} (h : Shape k r p er l) (hr : r.1 ≤ r.2) :
    ∃ m, r.1 + m ≤ r.2 ∧ callsOf k l = List.range' r.1 m := by
  cases h with
  | none => exact ⟨0, by omega, rfl⟩
  | loop m hm => exact ⟨m, hm, callsOf_full k r.1 m⟩
  | call m hm => exact ⟨m + 1, by omega, by rw [callsOf_append, callsOf_full, List.range'_concat]; simp [callsOf, calls]⟩
  | done => exact ⟨r.2 - r.1, by omega, callsOf_full k _ _⟩
  | no m hm => exact ⟨m + 1, by omega, by rw [callsOf_append, callsOf_full, List.range'_concat]; simp [callsOf, calls]⟩
  | exn m w hm => exact ⟨m + 1, by omega, by rw [callsOf_append, callsOf_full, List.range'_concat]; simp [callsOf, calls]⟩

/-- A list of pairs is a rearrangement of its groups. -/
theorem perm_groups {A : Type} (l : List (Nat × A)) (t : Nat) (h : ∀ e ∈ l, e.1 < t) :
    l.Perm ((List.range t).flatMap (fun k => l.filter (fun e => e.1 == k))) := by
  have key : ∀ t, (l.filter (fun e => decide (e.1 < t))).Perm ((List.range t).flatMap (fun k => l.filter (fun e => e.1 == k))) := by
    intro t
    induction t with
    | zero => simp
    | succ t ih =>
      rw [List.range_succ, List.flatMap_append]
      simp only [List.flatMap_cons, List.flatMap_nil, List.append_nil]
      refine .trans ?_ (ih.append_right _)
      have h1 := List.filter_append_perm (fun e : Nat × A => decide (e.1 < t)) (l.filter (fun e => decide (e.1 < t + 1)))
      refine .trans h1.symm ?_
      rw [List.filter_filter, List.filter_filter]
      refine List.Perm.append ?_ ?_
      · apply List.Perm.of_eq
        apply List.filter_congr
        intro e _
        by_cases h : e.1 < t <;> simp [h]; omega
      · apply List.Perm.of_eq
        apply List.filter_congr
        intro e _
        rw [Bool.eq_iff_iff]
        simp
        omega
  have h0 : l.filter (fun e => decide (e.1 < t)) = l := List.filter_eq_self.2 (by simpa using h)
  have := key t
  rwa [h0] at this

/-! ### Termination -/

/-- The steps left to a thread with range `r`. -/
def trank (r : Nat × Nat) : TPc → Nat
  | .none => 2 * (r.2 - r.1) + 3
  | .loop i => 2 * (r.2 - i) + 2
  | .call i => 2 * (r.2 - i) + 1
  | .done => 0

/-- The steps left to the main thread. -/
def mrank (L : Nat) : MPc → Nat
  | .begin k => 4 * L + 8 - k
  | .join k => 3 * L + 7 - k
  | .check k => 2 * L + 6 - k
  | .destroy k => 2 * k + 2
  | .destroyJoin k => 2 * k + 3
  | .returned | .threw _ _ | .cantBegin => 0

/-- The steps left to the threads from number `k` on. -/
def tsum (thr : Nat → TPc) : Nat → List (Nat × Nat) → Nat
  | _, [] => 0
  | k, r :: rs => trank r (thr k) + tsum thr (k + 1) rs

theorem tsum_congr (thr thr' : Nat → TPc) (rs : List (Nat × Nat)) : ∀ k, (∀ j, k ≤ j → thr' j = thr j) → tsum thr' k rs = tsum thr k rs := by
  induction rs with
  | nil => intro k _; rfl
  | cons r rs ih => intro k h; rw [tsum, tsum, h k (by omega), ih (k + 1) (fun j hj => h j (by omega))]

theorem tsum_upd (thr : Nat → TPc) (p : TPc) (j : Nat) (rs : List (Nat × Nat)) : ∀ k r, rs[j]? = some r →
    tsum (upd thr (k + j) p) k rs + trank r (thr (k + j)) = tsum thr k rs + trank r p := by
  induction rs generalizing j with
  | nil => intro k r h; simp at h
  | cons a rs ih =>
    intro k r h
    cases j with
    | zero =>
      simp only [List.getElem?_cons_zero, Option.some.injEq] at h
      subst h
      rw [tsum, tsum, Nat.add_zero, upd_self, tsum_congr thr _ rs (k + 1) (fun j hj => upd_ne _ _ (by omega))]
      omega
    | succ j =>
      have := ih j (k + 1) r (by simpa using h)
      rw [tsum, tsum, upd_ne _ _ (by omega)]
      rw [show k + 1 + j = k + (j + 1) by omega] at this
      omega

/-- The steps left. -/
def rank (rs : List (Nat × Nat)) (s : St) : Nat := mrank rs.length s.main + tsum s.thr 0 rs

theorem rank_step {rs : List (Nat × Nat)} {s s' : St} (h : Inv rs s) (hs : Step rs s s') : rank rs s' < rank rs s := by
  have hm := h.main
  have hthr : ∀ (k : Nat) (p : TPc), s.thr k ≠ .none → (∀ r, rs[k]? = some r → trank r p < trank r (s.thr k)) →
      tsum (upd s.thr k p) 0 rs < tsum s.thr 0 rs := by
    intro k p hk hlt
    obtain ⟨r, hr⟩ := some_of_lt (run_lt h hk)
    have := tsum_upd s.thr p k rs 0 r hr
    rw [Nat.zero_add] at this
    have := hlt r hr
    omega
  cases hs with
  | @begin k r hb hr =>
    rw [hb] at hm
    have h1 := tsum_upd s.thr (.loop r.1) k rs 0 r hr
    rw [Nat.zero_add, hm.2.2 k (by omega)] at h1
    have := lt_of_some hr
    simp only [rank, mrank, hb, trank] at h1 ⊢
    omega
  | @beginFails k hb hk => rw [hb] at hm; simp only [rank, mrank, hb]; omega
  | allBegun hb => simp only [rank, mrank, hb]; omega
  | @join k hb hk hd => simp only [rank, mrank, hb]; omega
  | allJoined hb => simp only [rank, mrank, hb]; omega
  | @checkNext k hb hk he => simp only [rank, mrank, hb]; omega
  | @checkThrow k hb hk he => simp only [rank, mrank, hb]; omega
  | «return» hb => simp only [rank, mrank, hb]; omega
  | @destroy k hb => simp only [rank, mrank, hb]; omega
  | @destroyJoin k hb hd => simp only [rank, mrank, hb]; omega
  | destroyed hb => simp only [rank, mrank, hb]; omega
  | @enter k i r ht hr hi =>
    have := hthr k (.call i) (by simp [ht]) (fun r' hr' => by rw [ht]; simp only [trank]; omega)
    simp only [rank]; omega
  | @loopEnd k i r ht hr hi =>
    have := hthr k .done (by simp [ht]) (fun r' hr' => by rw [ht]; simp only [trank]; omega)
    simp only [rank]; omega
  | @yes k i ht =>
    have := hthr k (.loop (i + 1)) (by simp [ht]) (fun r' hr' => by
      have hsh := h.shape k r' hr'
      rw [ht] at hsh
      have hi : i < r'.2 := by
        generalize tr k s.trace = l at hsh
        generalize s.err k = er at hsh
        cases hsh with
        | call m hm => exact hm
      rw [ht]; simp only [trank]; omega)
    simp only [rank]; omega
  | @no k i ht =>
    have := hthr k .done (by simp [ht]) (fun r' hr' => by rw [ht]; simp only [trank]; omega)
    simp only [rank]; omega
  | @exn k i what ht =>
    have := hthr k .done (by simp [ht]) (fun r' hr' => by rw [ht]; simp only [trank]; omega)
    simp only [rank]; omega

theorem rank_steps {rs : List (Nat × Nat)} (hrs : ∀ (k : Nat) (r : Nat × Nat), rs[k]? = some r → r.1 ≤ r.2) {s s' : St} {n : Nat}
    (hs : Steps rs s n s') : Inv rs s → n + rank rs s' ≤ rank rs s := by
  induction hs with
  | nil => intro _; omega
  | snoc h1 h2 ih =>
    intro hi
    have h3 := ih hi
    have h4 := rank_step (inv_steps hrs h1 hi) h2
    omega

/-- The main thread has ended. -/
def MPc.final : MPc → Bool
  | .returned | .threw _ _ | .cantBegin => true
  | _ => false

theorem thread_step {rs : List (Nat × Nat)} {s : St} (h : Inv rs s) {k : Nat} (h1 : s.thr k ≠ .none) (h2 : s.thr k ≠ .done) :
    ∃ s', Step rs s s' := by
  obtain ⟨r, hr⟩ := some_of_lt (run_lt h h1)
  cases ht : s.thr k with
  | none => exact absurd ht h1
  | done => exact absurd ht h2
  | call i => exact ⟨_, .yes ht⟩
  | loop i =>
    by_cases hi : i < r.2
    · exact ⟨_, .enter ht hr hi⟩
    · exact ⟨_, .loopEnd ht hr (by omega)⟩

theorem progress {rs : List (Nat × Nat)} {s : St} (h : Inv rs s) (hf : s.main.final = false) : ∃ s', Step rs s s' := by
  have hm := h.main
  cases hmain : s.main with
  | begin k =>
    rw [hmain] at hm
    by_cases hk : k < rs.length
    · obtain ⟨r, hr⟩ := some_of_lt hk
      exact ⟨_, .begin hmain hr⟩
    · have : k = rs.length := by have := hm.1; omega
      subst this
      exact ⟨_, .allBegun hmain⟩
  | join k =>
    rw [hmain] at hm
    by_cases hk : k < rs.length
    · by_cases hd : s.thr k = .done
      · exact ⟨_, .join hmain hk hd⟩
      · exact thread_step h (hm.2.1 k hk) hd
    · have : k = rs.length := by have := hm.1; omega
      subst this
      exact ⟨_, .allJoined hmain⟩
  | check k =>
    rw [hmain] at hm
    by_cases hk : k < rs.length
    · by_cases he : s.err k = ""
      · exact ⟨_, .checkNext hmain hk he⟩
      · exact ⟨_, .checkThrow hmain hk he⟩
    · have : k = rs.length := by have := hm.1; omega
      subst this
      exact ⟨_, .return hmain⟩
  | destroy k =>
    cases k with
    | zero => exact ⟨_, .destroyed hmain⟩
    | succ k => exact ⟨_, .destroy hmain⟩
  | destroyJoin k =>
    by_cases hn : s.thr k = .none
    · exact ⟨_, .destroyJoin hmain (.inl hn)⟩
    · by_cases hd : s.thr k = .done
      · exact ⟨_, .destroyJoin hmain (.inr hd)⟩
      · exact thread_step h hn hd
  | returned => rw [hmain] at hf; simp [MPc.final] at hf
  | threw => rw [hmain] at hf; simp [MPc.final] at hf
  | cantBegin => rw [hmain] at hf; simp [MPc.final] at hf

theorem tsum_init (rs : List (Nat × Nat)) : ∀ k, tsum (fun _ => .none) k rs =
    2 * (rs.flatMap (fun r => List.range' r.1 (r.2 - r.1))).length + 3 * rs.length := by
  induction rs with
  | nil => intro k; rfl
  | cons r rs ih =>
    intro k
    rw [tsum, ih]
    simp only [trank, List.flatMap_cons, List.length_append, List.length_range', List.length_cons]
    omega

end Verif.Parallel
