import Verif.Model.FreqCopy
import Verif.Proof.Frequency
import Verif.Spec.Frequency
set_option linter.unusedSimpArgs false

/-! # C139: copies of a frequency table -/
namespace Verif.Props.FreqCopy
open Verif Verif.FreqCopy Verif.Frequency

/-- What holds of every program: an object has a map of its own. -/
structure WF (st : St) : Prop where
  old : ∀ i x, st.objs i = some x → x.map < st.next ∧ (st.heap x.map).isSome
  own : ∀ i j x y, st.objs i = some x → st.objs j = some y → x.map = y.map → i = j

/-- Object `i` is the table `f`: its map holds the entries of `f`, and its iterators are valid iterators of its own map to the elements of `f`. -/
def Holds (st : St) (i : Nat) (f : FG) : Prop :=
  ∃ x gen, st.objs i = some x ∧ st.heap x.map = some ⟨f.m, gen⟩ ∧ x.refs = f.idx2ref.map (fun k => (⟨x.map, gen, k⟩ : Ref)) ∧
    ∀ k ∈ f.idx2ref, (find f.m k).isSome

/-- Whether the operation is one on object `i` (being copied from does not count). -/
def writes (i : Nat) : Op → Prop
  | .create j | .append j _ _ | .ready j _ | .clear j | .destroy j => j = i
  | .copy _ j | .assign _ j => j = i
  | .move j k => j = i ∨ k = i

theorem upd_eq {α : Type} (f : Nat → α) (i : Nat) (x : α) : upd f i x i = x := by simp [upd]
theorem upd_ne {α : Type} (f : Nat → α) {i k : Nat} (x : α) (h : k ≠ i) : upd f i x k = f k := by simp [upd, h]

theorem mapOf_ok {st : St} {i : Nat} {p : Obj × MapObj} (h : mapOf st i = .ok p) : st.objs i = some p.1 ∧ st.heap p.1.map = some p.2 := by
  unfold mapOf at h
  cases hx : st.objs i with
  | none => rw [hx] at h; cases h
  | some x =>
    simp only [hx] at h
    cases ho : st.heap x.map with
    | none => rw [ho] at h; cases h
    | some o => rw [ho] at h; cases h; exact ⟨rfl, ho⟩

theorem mapOf_eq {st : St} {i : Nat} {x : Obj} {o : MapObj} (h1 : st.objs i = some x) (h2 : st.heap x.map = some o) : mapOf st i = .ok (x, o) := by
  simp [mapOf, h1, h2]

/-- Writing into the map of object `i`, with other iterators. -/
theorem wf_put {st : St} (w : WF st) {i : Nat} {x : Obj} (hx : st.objs i = some x) (o : MapObj) (refs : List Ref) :
    WF { st with heap := upd st.heap x.map (some o), objs := upd st.objs i (some ⟨x.map, refs⟩) } := by
  have key : ∀ k y, upd st.objs i (some ⟨x.map, refs⟩) k = some y → ∃ z, st.objs k = some z ∧ z.map = y.map := by
    intro k y h
    by_cases hk : k = i
    · subst hk; rw [upd_eq] at h; injection h with h; subst h; exact ⟨x, hx, rfl⟩
    · rw [upd_ne _ _ hk] at h; exact ⟨y, h, rfl⟩
  refine ⟨fun k y h => ?_, fun a b y z ha hb e => ?_⟩
  · obtain ⟨z, hz, hm⟩ := key k y h
    obtain ⟨q1, q2⟩ := w.old k z hz
    rw [hm] at q1 q2
    refine ⟨q1, ?_⟩
    show (upd st.heap x.map (some o) y.map).isSome
    by_cases hh : y.map = x.map
    · rw [hh, upd_eq]; rfl
    · rw [upd_ne _ _ hh]; exact q2
  · obtain ⟨y', hy, my⟩ := key a y ha
    obtain ⟨z', hz, mz⟩ := key b z hb
    exact w.own a b y' z' hy hz (by omega)

theorem objs_upd_self {st : St} {i : Nat} {x : Obj} (hx : st.objs i = some x) : upd st.objs i (some ⟨x.map, x.refs⟩) = st.objs := by
  funext k
  by_cases h : k = i
  · subst h; rw [upd_eq, hx]
  · rw [upd_ne _ _ h]

/-- A new object with a new map. -/
theorem wf_new {st : St} (w : WF st) {j : Nat} (hj : st.objs j = none) (o : MapObj) (refs : List Ref) :
    WF ⟨upd st.heap st.next (some o), upd st.objs j (some ⟨st.next, refs⟩), st.next + 1⟩ := by
  refine ⟨fun k y h => ?_, fun a b y z ha hb e => ?_⟩
  · by_cases hk : k = j
    · subst hk; simp only [upd_eq] at h; injection h with h; subst h
      exact ⟨Nat.lt_succ_self _, by simp [upd_eq]⟩
    · simp only [upd_ne _ _ hk] at h
      obtain ⟨q1, q2⟩ := w.old k y h
      exact ⟨by show y.map < st.next + 1; omega, by simp only [upd_ne _ _ (show y.map ≠ st.next by omega)]; exact q2⟩
  · by_cases h1 : a = j <;> by_cases h2 : b = j
    · rw [h1, h2]
    · subst h1; simp only [upd_eq, upd_ne _ _ h2] at ha hb
      injection ha with ha; subst ha
      have := (w.old b z hb).1
      simp only at e; omega
    · subst h2; simp only [upd_eq, upd_ne _ _ h1] at ha hb
      injection hb with hb; subst hb
      have := (w.old a y ha).1
      simp only at e; omega
    · simp only [upd_ne _ _ h1, upd_ne _ _ h2] at ha hb
      exact w.own a b y z ha hb e

theorem step_wf {iw : Nat} {st st' : St} (w : WF st) {op : Op} (h : step iw st op = .ok st') : WF st' := by
  cases op with
  | create i =>
    simp only [step, create] at h
    cases hi : st.objs i with
    | some x => rw [hi] at h; cases h
    | none => rw [hi] at h; cases h; exact wf_new w hi _ _
  | append i e re =>
    simp only [step, append, Res.bind_eq_ok, Res.pure_eq] at h
    obtain ⟨p, hp, h⟩ := h
    cases h
    have := wf_put w (mapOf_ok hp).1 ⟨bump iw e p.2.m, if (find p.2.m e).isNone && re then p.2.gen + 1 else p.2.gen⟩ p.1.refs
    rwa [objs_upd_self (mapOf_ok hp).1] at this
  | ready i order =>
    simp only [step, ready, Res.bind_eq_ok, Res.pure_eq] at h
    obtain ⟨p, hp, h⟩ := h
    cases h
    exact wf_put w (mapOf_ok hp).1 _ _
  | clear i =>
    simp only [step, clear, Res.bind_eq_ok, Res.pure_eq] at h
    obtain ⟨p, hp, h⟩ := h
    cases h
    exact wf_put w (mapOf_ok hp).1 _ _
  | destroy i =>
    simp only [step, destroy, Res.bind_eq_ok, Res.pure_eq] at h
    obtain ⟨p, hp, h⟩ := h
    cases h
    obtain ⟨hx, _⟩ := mapOf_ok hp
    refine ⟨fun k y h => ?_, fun a b y z ha hb e => ?_⟩
    · by_cases hk : k = i
      · subst hk; simp [upd_eq] at h
      · simp only [upd_ne _ _ hk] at h
        obtain ⟨q1, q2⟩ := w.old k y h
        refine ⟨q1, ?_⟩
        simp only
        rw [upd_ne _ _ (fun hh => hk (w.own k i y p.1 h hx hh))]; exact q2
    · by_cases h1 : a = i
      · subst h1; simp [upd_eq] at ha
      · by_cases h2 : b = i
        · subst h2; simp [upd_eq] at hb
        · simp only [upd_ne _ _ h1, upd_ne _ _ h2] at ha hb
          exact w.own a b y z ha hb e
  | copy i j =>
    simp only [step, copy, Res.bind_eq_ok] at h
    obtain ⟨p, hp, h⟩ := h
    cases hj : st.objs j with
    | some x => rw [hj] at h; cases h
    | none => rw [hj] at h; cases h; exact wf_new w hj _ _
  | assign i j =>
    simp only [step, assign, Res.bind_eq_ok] at h
    obtain ⟨p, hp, q, hq, h⟩ := h
    split at h
    · cases h; exact w
    · cases h
      exact wf_put w (mapOf_ok hq).1 _ _
  | move i j =>
    simp only [step, move, Res.bind_eq_ok] at h
    obtain ⟨p, hp, h⟩ := h
    obtain ⟨hx, hm⟩ := mapOf_ok hp
    cases hj : st.objs j with
    | some x => rw [hj] at h; cases h
    | none =>
      rw [hj] at h; cases h
      have hij : i ≠ j := fun e => by rw [e, hj] at hx; cases hx
      refine ⟨fun k y h => ?_, fun a b y z ha hb e => ?_⟩
      · by_cases hk : k = i
        · subst hk; simp only [upd_eq] at h; injection h with h; subst h
          exact ⟨Nat.lt_succ_self _, by simp [upd_eq]⟩
        · simp only [upd_ne _ _ hk] at h
          have : ∃ k', st.objs k' = some y := by
            by_cases hk2 : k = j
            · subst hk2; simp only [upd_eq] at h; exact ⟨i, by rw [hx]; exact h⟩
            · simp only [upd_ne _ _ hk2] at h; exact ⟨k, h⟩
          obtain ⟨k', hk'⟩ := this
          obtain ⟨q1, q2⟩ := w.old k' y hk'
          exact ⟨by show y.map < st.next + 1; omega, by simp only [upd_ne _ _ (show y.map ≠ st.next by omega)]; exact q2⟩
      · have key : ∀ k y, upd (upd st.objs j (some p.1)) i (some ⟨st.next, []⟩) k = some y →
            (k = i ∧ y.map = st.next) ∨ (k ≠ i ∧ ∃ k', st.objs k' = some y ∧ ((k = j ∧ k' = i) ∨ (k ≠ j ∧ k' = k))) := by
          intro k y h
          by_cases hk : k = i
          · subst hk; rw [upd_eq] at h; injection h with h; subst h; exact .inl ⟨rfl, rfl⟩
          · rw [upd_ne _ _ hk] at h
            by_cases hk2 : k = j
            · subst hk2; rw [upd_eq] at h; exact .inr ⟨hk, i, by rw [hx]; exact h, .inl ⟨rfl, rfl⟩⟩
            · rw [upd_ne _ _ hk2] at h; exact .inr ⟨hk, k, h, .inr ⟨hk2, rfl⟩⟩
        rcases key a y ha with ⟨a1, a2⟩ | ⟨a1, a', a2, a3⟩ <;> rcases key b z hb with ⟨b1, b2⟩ | ⟨b1, b', b2, b3⟩
        · omega
        · have := (w.old b' z b2).1; omega
        · have := (w.old a' y a2).1; omega
        · have := w.own a' b' y z a2 b2 e
          omega

theorem step_other {iw : Nat} {st st' : St} (w : WF st) {op : Op} (h : step iw st op = .ok st') {k : Nat} {x : Obj} (hx : st.objs k = some x)
    (hw : ¬ writes k op) : st'.objs k = some x ∧ st'.heap x.map = st.heap x.map := by
  have old := (w.old k x hx).1
  cases op with
  | create i =>
    simp only [step, create] at h
    cases hi : st.objs i with
    | some x => rw [hi] at h; cases h
    | none =>
      rw [hi] at h; cases h
      exact ⟨by simp only; rw [upd_ne _ _ (fun e => hw e.symm)]; exact hx, upd_ne _ _ (by omega)⟩
  | append i e re =>
    simp only [step, append, Res.bind_eq_ok, Res.pure_eq] at h
    obtain ⟨p, hp, h⟩ := h
    cases h
    exact ⟨hx, upd_ne _ _ fun e => hw (w.own _ _ _ _ hx (mapOf_ok hp).1 e).symm⟩
  | ready i order =>
    simp only [step, ready, Res.bind_eq_ok, Res.pure_eq] at h
    obtain ⟨p, hp, h⟩ := h
    cases h
    exact ⟨by simp only; rw [upd_ne _ _ (fun e => hw e.symm)]; exact hx, upd_ne _ _ fun e => hw (w.own _ _ _ _ hx (mapOf_ok hp).1 e).symm⟩
  | clear i =>
    simp only [step, clear, Res.bind_eq_ok, Res.pure_eq] at h
    obtain ⟨p, hp, h⟩ := h
    cases h
    exact ⟨by simp only; rw [upd_ne _ _ (fun e => hw e.symm)]; exact hx, upd_ne _ _ fun e => hw (w.own _ _ _ _ hx (mapOf_ok hp).1 e).symm⟩
  | destroy i =>
    simp only [step, destroy, Res.bind_eq_ok, Res.pure_eq] at h
    obtain ⟨p, hp, h⟩ := h
    cases h
    exact ⟨by simp only; rw [upd_ne _ _ (fun e => hw e.symm)]; exact hx, upd_ne _ _ fun e => hw (w.own _ _ _ _ hx (mapOf_ok hp).1 e).symm⟩
  | copy i j =>
    simp only [step, copy, Res.bind_eq_ok] at h
    obtain ⟨p, hp, h⟩ := h
    cases hj : st.objs j with
    | some y => rw [hj] at h; cases h
    | none =>
      rw [hj] at h; cases h
      exact ⟨by simp only; rw [upd_ne _ _ (fun e => hw e.symm)]; exact hx, upd_ne _ _ (by omega)⟩
  | assign i j =>
    simp only [step, assign, Res.bind_eq_ok] at h
    obtain ⟨p, hp, q, hq, h⟩ := h
    split at h
    · cases h; exact ⟨hx, rfl⟩
    · cases h
      exact ⟨by simp only; rw [upd_ne _ _ (fun e => hw e.symm)]; exact hx, upd_ne _ _ fun e => hw (w.own _ _ _ _ hx (mapOf_ok hq).1 e).symm⟩
  | move i j =>
    simp only [step, move, Res.bind_eq_ok] at h
    obtain ⟨p, hp, h⟩ := h
    cases hj : st.objs j with
    | some y => rw [hj] at h; cases h
    | none =>
      rw [hj] at h; cases h
      refine ⟨?_, upd_ne _ _ (by omega)⟩
      simp only
      rw [upd_ne _ _ (fun e => hw (.inl e.symm)), upd_ne _ _ (fun e => hw (.inr e.symm))]
      exact hx

theorem deref_own {heap : Nat → Option MapObj} {i gen : Nat} {m : List Ent} (h : heap i = some ⟨m, gen⟩) (k : Nat) :
    deref heap ⟨i, gen, k⟩ = match find m k with | none => .ub | some e => .ok e := by
  simp only [deref, h, if_true]
  cases find m k <;> rfl

theorem find_key {m : List Ent} {k : Nat} {e : Ent} (h : find m k = some e) : e.key = k := by
  have := List.find?_some h
  simpa using this

/-- C139.  An object that is the table `f` answers as `f` does (C32). -/
theorem C139_answers {st : St} {i : Nat} {f : FG} (h : Holds st i f) :
    (∀ idx, getElement st i idx = f.getElement idx) ∧ (∀ e, getIndex st i e = f.getIndex e) ∧ (∀ e, getFrequency st i e = .ok (f.getFrequency e)) ∧
      size st i = .ok f.size := by
  obtain ⟨x, gen, h1, h2, h3, h4⟩ := h
  refine ⟨fun idx => ?_, fun e => ?_, fun e => ?_, ?_⟩
  · simp only [getElement, h1, h3, List.getElem?_map, FG.getElement]
    cases hk : f.idx2ref[idx]? with
    | none => rfl
    | some k =>
      simp only [Option.map_some]
      rw [deref_own h2]
      have := h4 k (List.mem_of_getElem? hk)
      cases hf : find f.m k with
      | none => rw [hf] at this; cases this
      | some e => simp [find_key hf]
  · simp only [getIndex, mapOf_eq h1 h2, Res.ok_bind, FG.getIndex]
    cases find f.m e <;> rfl
  · simp only [getFrequency, mapOf_eq h1 h2, Res.ok_bind, FG.getFrequency, freqOf]
    cases find f.m e <;> rfl
  · simp [size, h1, h3, FG.size]

/-- C139.  Whatever a program does with other objects, also with copies made from this one, this table stays as it is. -/
theorem C139_frame (iw : Nat) (i : Nat) (f : FG) : ∀ (ops : List Op) (st st' : St), WF st → Holds st i f → (∀ op ∈ ops, ¬ writes i op) →
    run iw st ops = .ok st' → WF st' ∧ Holds st' i f := by
  intro ops
  induction ops with
  | nil => intro st st' w h _ e; cases e; exact ⟨w, h⟩
  | cons op ops ih =>
    intro st st' w h hw e
    rw [run, Res.bind_eq_ok] at e
    obtain ⟨u, hu, e⟩ := e
    obtain ⟨x, gen, h1, h2, h3, h4⟩ := h
    obtain ⟨o1, o2⟩ := step_other w hu h1 (hw op List.mem_cons_self)
    exact ih u st' (step_wf w hu) ⟨x, gen, o1, by rw [o2, h2], h3, h4⟩ (fun op h => hw op (List.mem_cons_of_mem _ h)) e

/-- C139.  In every program the objects have maps of their own: the theorems below apply to every state a program reaches. -/
theorem C139_programs (iw : Nat) : ∀ (ops : List Op) (st st' : St), WF st → run iw st ops = .ok st' → WF st' := by
  intro ops
  induction ops with
  | nil => intro st st' w e; cases e; exact w
  | cons op ops ih =>
    intro st st' w e
    rw [run, Res.bind_eq_ok] at e
    obtain ⟨u, hu, e⟩ := e
    exact ih u st' (step_wf w hu) e

/-- What is in the map of an object. -/
def Has (st : St) (i : Nat) (m : List Ent) : Prop := ∃ x gen, st.objs i = some x ∧ st.heap x.map = some ⟨m, gen⟩

theorem append_has {iw : Nat} {st : St} {i e : Nat} {re : Bool} {m : List Ent} (h : Has st i m) :
    ∃ st', step iw st (.append i e re) = .ok st' ∧ Has st' i (bump iw e m) := by
  obtain ⟨x, gen, h1, h2⟩ := h
  have hs : step iw st (.append i e re) = .ok { st with heap := upd st.heap x.map (some ⟨bump iw e m, if (find m e).isNone && re then gen + 1 else gen⟩) } := by
    simp only [step, append, mapOf_eq h1 h2, Res.ok_bind, Res.pure_eq]
  exact ⟨_, hs, x, _, h1, upd_eq _ _ _⟩

/-- C139.  `ready` makes an object the table of what is in its map, whatever its iterators were before: copies are repaired by it. -/
theorem C139_ready {iw : Nat} {st : St} {i : Nat} {m : List Ent} (h : Has st i m) (order : List Nat) (ho : order.Perm (m.map Ent.key)) :
    ∃ st', step iw st (.ready i order) = .ok st' ∧ Holds st' i (FG.ready iw ⟨m, []⟩ order) := by
  obtain ⟨x, gen, h1, h2⟩ := h
  refine ⟨_, by simp only [step, ready, mapOf_eq h1 h2, Res.ok_bind, Res.pure_eq]; rfl, ⟨x.map, order.map fun k => ⟨x.map, gen, k⟩⟩, gen,
    upd_eq _ _ _, upd_eq _ _ _, rfl, ?_⟩
  intro k hk
  have hk : k ∈ order := hk
  have hkeys : ∀ (es : List Nat) (n : Nat) (m : List Ent), (FG.readyLoop iw es n m).map Ent.key = m.map Ent.key := by
    have h0 : ∀ (m : List Ent) (e n : Nat), (setIdx e n m).map Ent.key = m.map Ent.key := by
      intro m e n
      induction m with
      | nil => rfl
      | cons y ys ih => rw [setIdx]; split <;> simp [*]
    intro es
    induction es with
    | nil => intro n m; rfl
    | cons e es ih => intro n m; rw [FG.readyLoop, ih, h0]
  cases hf : find (FG.ready iw ⟨m, []⟩ order).m k with
  | some e => rfl
  | none =>
    rw [find_none_iff] at hf
    simp only [FG.ready, hkeys] at hf
    exact absurd (ho.mem_iff.mp hk) hf

/-- A table built by `append` and `ready`. -/
def build (i : Nat) (l : List (Nat × Bool)) (order : List Nat) : List Op :=
  .create i :: (l.map fun p => .append i p.1 p.2) ++ [.ready i order]

theorem run_append (iw : Nat) (a : List Op) : ∀ (st : St) (b : List Op), run iw st (a ++ b) = run iw st a >>= fun s => run iw s b := by
  induction a with
  | nil => intro st b; rfl
  | cons op a ih =>
    intro st b
    simp only [List.cons_append, run]
    cases step iw st op <;> simp [ih]

theorem appends_has (iw i : Nat) : ∀ (l : List (Nat × Bool)) (st : St) (f : FG), Has st i f.m →
    ∃ st', run iw st (l.map fun p => .append i p.1 p.2) = .ok st' ∧ Has st' i (f.appendAll iw (l.map Prod.fst)).m := by
  intro l
  induction l with
  | nil => intro st f h; exact ⟨st, rfl, h⟩
  | cons p l ih =>
    intro st f h
    obtain ⟨u, hu, hh⟩ := append_has (iw := iw) (e := p.1) (re := p.2) h
    obtain ⟨v, hv, hw⟩ := ih u (f.append iw p.1) hh
    exact ⟨v, by simp only [List.map_cons, run, hu, Res.ok_bind, hv], hw⟩

/-- C139.  A table built by `append` and `ready` is that of C32, however the map rehashes in between. -/
theorem C139_build (iw : Nat) (st : St) (i : Nat) (hi : st.objs i = none) (l : List (Nat × Bool)) (order : List Nat)
    (ho : SortOutcomeG (FG.clear.appendAll iw (l.map Prod.fst)).m order) :
    ∃ st', run iw st (build i l order) = .ok st' ∧ Holds st' i (FG.init iw FG.clear (l.map Prod.fst) order) := by
  have h0 : Has ⟨upd st.heap st.next (some ⟨[], 0⟩), upd st.objs i (some ⟨st.next, []⟩), st.next + 1⟩ i FG.clear.m :=
    ⟨⟨st.next, []⟩, 0, upd_eq _ _ _, upd_eq _ _ _⟩
  obtain ⟨u, hu, hh⟩ := appends_has iw i l _ _ h0
  obtain ⟨v, hv, hw⟩ := C139_ready (iw := iw) hh order ho.perm
  refine ⟨v, ?_, hw⟩
  simp only [build, List.cons_append, run, step, create, hi, Res.ok_bind]
  rw [run_append, hu]
  simp only [Res.ok_bind, run, hv]

/-- C139.  Moving a table keeps it; the iterators go over to the new object.  (The old one is empty.) -/
theorem C139_move {iw : Nat} {st : St} (w : WF st) {i j : Nat} {f : FG} (h : Holds st i f) (hj : st.objs j = none) :
    ∃ st', step iw st (.move i j) = .ok st' ∧ Holds st' j f ∧ size st' i = .ok 0 := by
  obtain ⟨x, gen, h1, h2, h3, h4⟩ := h
  have hij : j ≠ i := fun e => by rw [e, h1] at hj; cases hj
  have := (w.old i x h1).1
  have hs : step iw st (.move i j) = .ok ⟨upd st.heap st.next (some ⟨[], 0⟩), upd (upd st.objs j (some x)) i (some ⟨st.next, []⟩), st.next + 1⟩ := by
    simp only [step, move, mapOf_eq h1 h2, Res.ok_bind, hj]
  refine ⟨_, hs, ⟨x, gen, ?_, ?_, h3, h4⟩, ?_⟩
  · show upd (upd st.objs j (some x)) i _ j = _
    rw [upd_ne _ _ hij, upd_eq]
  · show upd st.heap st.next _ x.map = _
    rw [upd_ne _ _ (by omega), h2]
  · simp [size, upd_eq]

/-- C139.  A copy answers as the table it was made from, as long as nothing else happens. -/
theorem C139_copy {iw : Nat} {st : St} (w : WF st) {i j : Nat} {f : FG} (h : Holds st i f) (hj : st.objs j = none) :
    ∃ st', step iw st (.copy i j) = .ok st' ∧ Holds st' i f ∧ Has st' j f.m ∧ (∀ idx, getElement st' j idx = f.getElement idx) ∧
      (∀ e, getIndex st' j e = f.getIndex e) ∧ (∀ e, getFrequency st' j e = .ok (f.getFrequency e)) ∧ size st' j = .ok f.size := by
  obtain ⟨x, gen, h1, h2, h3, h4⟩ := h
  have hst : step iw st (.copy i j) = .ok ⟨upd st.heap st.next (some ⟨f.m, 0⟩), upd st.objs j (some ⟨st.next, x.refs⟩), st.next + 1⟩ := by
    simp only [step, copy, mapOf_eq h1 h2, Res.ok_bind, hj]
  have hi : Holds ⟨upd st.heap st.next (some ⟨f.m, 0⟩), upd st.objs j (some ⟨st.next, x.refs⟩), st.next + 1⟩ i f := by
    have hr : run iw st [.copy i j] = .ok ⟨upd st.heap st.next (some ⟨f.m, 0⟩), upd st.objs j (some ⟨st.next, x.refs⟩), st.next + 1⟩ := by
      simp only [run, hst, Res.ok_bind]
    obtain ⟨_, q⟩ := C139_frame iw i f [.copy i j] st _ w ⟨x, gen, h1, h2, h3, h4⟩
      (by intro op hop; simp at hop; subst hop; intro e; have e : j = i := e; rw [e, h1] at hj; cases hj) hr
    exact q
  refine ⟨_, hst, hi, ⟨_, _, upd_eq _ _ _, upd_eq _ _ _⟩, fun idx => ?_, fun e => ?_, fun e => ?_, ?_⟩
  · rw [← (C139_answers hi).1 idx]
    have hij : i ≠ j := fun e => by rw [← e, h1] at hj; cases hj
    simp only [getElement, upd_ne _ _ hij, h1, upd_eq]
  · simp only [getIndex, mapOf, upd_eq, Res.ok_bind, FG.getIndex]
    cases find f.m e <;> rfl
  · simp only [getFrequency, mapOf, upd_eq, Res.ok_bind, FG.getFrequency, freqOf]
    cases find f.m e <;> rfl
  · simp [size, upd_eq, h3, FG.size]

theorem gone {st : St} {j idx : Nat} {y : Obj} {r : Ref} (hy : st.objs j = some y) (hr : y.refs[idx]? = some r) (hd : deref st.heap r = .ub) :
    getElement st j idx = .ub := by
  simp [getElement, hy, hr, hd]

/-- Finding for C139.  The iterators of a copy point into the map of the source.  When the source is destroyed or cleared, every `getElement` on the
copy is undefined, while the copy still gives frequencies, indices and its size.  `ready` on the copy repairs it. -/
theorem C139_finding_copy (iw : Nat) (st : St) (w : WF st) (i j : Nat) (f : FG) (h : Holds st i f) (hj : st.objs j = none) (op : Op)
    (hop : op = .destroy i ∨ op = .clear i) :
    ∃ st', run iw st [.copy i j, op] = .ok st' ∧ (∀ idx, idx < f.size → getElement st' j idx = .ub) ∧
      (∀ e, getIndex st' j e = f.getIndex e) ∧ (∀ e, getFrequency st' j e = .ok (f.getFrequency e)) ∧ size st' j = .ok f.size ∧
      (∀ order, order.Perm (f.m.map Ent.key) →
        ∃ st'', step iw st' (.ready j order) = .ok st'' ∧ Holds st'' j (FG.ready iw ⟨f.m, []⟩ order)) := by
  obtain ⟨x, gen, h1, h2, h3, h4⟩ := h
  have hij : i ≠ j := fun e => by rw [← e, h1] at hj; cases hj
  have old := (w.old i x h1).1
  have hst : step iw st (.copy i j) = .ok ⟨upd st.heap st.next (some ⟨f.m, 0⟩), upd st.objs j (some ⟨st.next, x.refs⟩), st.next + 1⟩ := by
    simp only [step, copy, mapOf_eq h1 h2, Res.ok_bind, hj]
  have g1 : (upd st.objs j (some (⟨st.next, x.refs⟩ : Obj))) i = some x := by rw [upd_ne _ _ hij, h1]
  have g2 : (upd st.heap st.next (some (⟨f.m, 0⟩ : MapObj))) x.map = some ⟨f.m, gen⟩ := by rw [upd_ne _ _ (by omega), h2]
  have hmap := mapOf_eq (st := ⟨upd st.heap st.next (some ⟨f.m, 0⟩), upd st.objs j (some ⟨st.next, x.refs⟩), st.next + 1⟩) g1 g2
  -- the state afterwards
  have fin : ∀ st' : St, st'.objs j = some ⟨st.next, x.refs⟩ → st'.heap st.next = some ⟨f.m, 0⟩ →
      (∀ k, deref st'.heap ⟨x.map, gen, k⟩ = .ub) → (∀ idx, idx < f.size → getElement st' j idx = .ub) ∧
      (∀ e, getIndex st' j e = f.getIndex e) ∧ (∀ e, getFrequency st' j e = .ok (f.getFrequency e)) ∧ size st' j = .ok f.size ∧
      (∀ order, order.Perm (f.m.map Ent.key) →
        ∃ st'', step iw st' (.ready j order) = .ok st'' ∧ Holds st'' j (FG.ready iw ⟨f.m, []⟩ order)) := by
    intro st' e1 e2 e3
    refine ⟨fun idx hidx => ?_, fun e => ?_, fun e => ?_, ?_, fun order ho => C139_ready ⟨_, _, e1, e2⟩ order ho⟩
    · have hk : f.idx2ref[idx]? = some (f.idx2ref[idx]'hidx) := List.getElem?_eq_getElem hidx
      refine gone e1 (r := ⟨x.map, gen, f.idx2ref[idx]'hidx⟩) ?_ (e3 _)
      simp only [h3, List.getElem?_map, hk, Option.map_some]
    · simp only [getIndex, mapOf_eq e1 e2, Res.ok_bind, FG.getIndex]
      cases find f.m e <;> rfl
    · simp only [getFrequency, mapOf_eq e1 e2, Res.ok_bind, FG.getFrequency, freqOf]
      cases find f.m e <;> rfl
    · simp [size, e1, h3, FG.size]
  rcases hop with rfl | rfl
  · refine ⟨_, by simp only [run, hst, Res.ok_bind]; simp only [step, destroy, hmap, Res.ok_bind, Res.pure_eq]; rfl, fin _ ?_ ?_ ?_⟩
    · show upd _ i none j = _
      rw [upd_ne _ _ (Ne.symm hij), upd_eq]
    · show upd _ x.map none st.next = _
      rw [upd_ne _ _ (by omega), upd_eq]
    · intro k; simp [deref, upd_eq]
  · refine ⟨_, by simp only [run, hst, Res.ok_bind]; simp only [step, clear, hmap, Res.ok_bind, Res.pure_eq]; rfl, fin _ ?_ ?_ ?_⟩
    · show upd _ i _ j = _
      rw [upd_ne _ _ (Ne.symm hij), upd_eq]
    · show upd _ x.map _ st.next = _
      rw [upd_ne _ _ (by omega), upd_eq]
    · intro k; simp [deref, upd_eq]

/-- Finding for C139.  Assigning to a table gives it the iterators of the source as well: its answers depend on the source from then on. -/
theorem C139_finding_assign (iw : Nat) (st : St) (w : WF st) (i j : Nat) (f g : FG) (h : Holds st i f) (hg : Holds st j g) (hij : i ≠ j) :
    ∃ st', run iw st [.assign i j, .destroy i] = .ok st' ∧ (∀ idx, idx < f.size → getElement st' j idx = .ub) ∧
      (∀ e, getIndex st' j e = f.getIndex e) := by
  obtain ⟨x, gen, h1, h2, h3, h4⟩ := h
  obtain ⟨y, gen', g1, g2, g3, g4⟩ := hg
  have hxy : x.map ≠ y.map := fun e => hij (w.own _ _ _ _ h1 g1 e)
  have hst : step iw st (.assign i j) = .ok { st with heap := upd st.heap y.map (some ⟨f.m, gen' + 1⟩), objs := upd st.objs j (some ⟨y.map, x.refs⟩) } := by
    simp only [step, assign, mapOf_eq h1 h2, mapOf_eq g1 g2, Res.ok_bind, if_neg hij, Res.pure_eq]
  have k1 : (upd st.objs j (some (⟨y.map, x.refs⟩ : Obj))) i = some x := by rw [upd_ne _ _ hij, h1]
  have k2 : (upd st.heap y.map (some (⟨f.m, gen' + 1⟩ : MapObj))) x.map = some ⟨f.m, gen⟩ := by rw [upd_ne _ _ hxy, h2]
  have hmap := mapOf_eq (st := { st with heap := upd st.heap y.map (some ⟨f.m, gen' + 1⟩), objs := upd st.objs j (some ⟨y.map, x.refs⟩) }) k1 k2
  refine ⟨_, by simp only [run, hst, Res.ok_bind]; simp only [step, destroy, hmap, Res.ok_bind, Res.pure_eq]; rfl, fun idx hidx => ?_, fun e => ?_⟩
  · have hk : f.idx2ref[idx]? = some (f.idx2ref[idx]'hidx) := List.getElem?_eq_getElem hidx
    refine gone (y := ⟨y.map, x.refs⟩) (r := ⟨x.map, gen, f.idx2ref[idx]'hidx⟩) ?_ ?_ ?_
    · show upd _ i none j = _
      rw [upd_ne _ _ (Ne.symm hij), upd_eq]
    · simp only [h3, List.getElem?_map, hk, Option.map_some]
    · simp [deref, upd_eq]
  · have e1 : upd (upd st.objs j (some (⟨y.map, x.refs⟩ : Obj))) i none j = some ⟨y.map, x.refs⟩ := by rw [upd_ne _ _ (Ne.symm hij), upd_eq]
    have e2 : upd (upd st.heap y.map (some (⟨f.m, gen' + 1⟩ : MapObj))) x.map none y.map = some ⟨f.m, gen' + 1⟩ := by
      rw [upd_ne _ _ (Ne.symm hxy), upd_eq]
    simp only [getIndex, mapOf, e1, e2, Res.ok_bind, FG.getIndex]
    cases find f.m e <;> rfl

/-- Finding for C139.  After `append` of a new element that makes the map rehash, `getElement` is undefined until `ready` is called. -/
theorem C139_finding_append (iw : Nat) (st : St) (i : Nat) (f : FG) (h : Holds st i f) (e : Nat) (he : find f.m e = none) :
    ∃ st', step iw st (.append i e true) = .ok st' ∧ ∀ idx, idx < f.size → getElement st' i idx = .ub := by
  obtain ⟨x, gen, h1, h2, h3, h4⟩ := h
  refine ⟨_, by simp only [step, append, mapOf_eq h1 h2, Res.ok_bind, Res.pure_eq]; rfl, fun idx hidx => ?_⟩
  have hk : f.idx2ref[idx]? = some (f.idx2ref[idx]'hidx) := List.getElem?_eq_getElem hidx
  refine gone h1 (r := ⟨x.map, gen, f.idx2ref[idx]'hidx⟩) (by simp only [h3, List.getElem?_map, hk, Option.map_some]) ?_
  simp [deref, upd_eq, he]

/-! ## Cases -/

def empty : St := ⟨fun _ => none, fun _ => none, 0⟩
theorem empty_wf : WF empty := ⟨fun _ _ h => (by cases h), fun _ _ _ _ h => (by cases h)⟩

example : ∀ ops st, run 64 empty ops = .ok st → WF st := fun ops st => C139_programs 64 ops empty st empty_wf

/-- A table of 7, 7, 9 as object 0. -/
def one : List Op := build 0 [(7, true), (7, false), (9, true)] [7, 9]

example : ∃ st, run 64 empty one = .ok st ∧ getElement st 0 0 = .ok 7 ∧ getElement st 0 1 = .ok 9 ∧ getIndex st 0 9 = .ok 1 ∧
    getElement st 0 2 = .throw := ⟨_, rfl, rfl, rfl, rfl, rfl⟩
example : ∃ st, run 64 empty (one ++ [.copy 0 1]) = .ok st ∧ getElement st 1 0 = .ok 7 ∧ getIndex st 1 9 = .ok 1 := ⟨_, rfl, rfl, rfl⟩
example : ∃ st, run 64 empty (one ++ [.copy 0 1, .destroy 0]) = .ok st ∧ getElement st 1 0 = .ub ∧ getIndex st 1 9 = .ok 1 := ⟨_, rfl, rfl, rfl⟩
example : ∃ st, run 64 empty (one ++ [.copy 0 1, .destroy 0, .ready 1 [7, 9]]) = .ok st ∧ getElement st 1 0 = .ok 7 := ⟨_, rfl, rfl⟩
example : ∃ st, run 64 empty (one ++ [.move 0 1, .destroy 0]) = .ok st ∧ getElement st 1 0 = .ok 7 := ⟨_, rfl, rfl⟩
example : ∃ st, run 64 empty (one ++ [.append 0 8 true]) = .ok st ∧ getElement st 0 0 = .ub := ⟨_, rfl, rfl⟩

#print axioms C139_answers
#print axioms C139_frame
#print axioms C139_programs
#print axioms C139_ready
#print axioms C139_build
#print axioms C139_move
#print axioms C139_copy
#print axioms C139_finding_copy
#print axioms C139_finding_assign
#print axioms C139_finding_append

end Verif.Props.FreqCopy
