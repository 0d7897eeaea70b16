import Verif.Model.SparseIO
import Verif.Spec.SparseIO
import Verif.Proof.Serializer
import Verif.Props.Sparse
set_option linter.unusedSimpArgs false

/-!
# C98: sparse vectors that are saved, loaded and filled from maps
-/
namespace Verif.Props.SparseIO
open Verif.Sparse Verif.Spec.Sparse Verif.Props.Sparse Verif.Serializer Verif.Spec.Serializer Verif.Stream

/-! ## Saving -/

/-- The bytes of one pair. -/
def pairBytes (t : Ty) (e : Nat × Val t) : List UInt8 := saveSize e.1 ++ save t e.2

theorem saveLoop_eq {P : Type} [PosTbl P] (t : Ty) (fuel : Nat) : ∀ (s : SVec P (Val t)) (c : PosTbl.Curr P),
    SVec.saveLoop t fuel s c = (SVec.iterLoop fuel s c).bind (fun l => .ok (l.map (pairBytes t)).flatten) := by
  induction fuel with
  | zero => intro s c; rfl
  | succ n ih =>
    intro s c
    rw [SVec.saveLoop, SVec.iterLoop]
    split
    · rfl
    · cases s.pos c <;> try rfl
      cases s.val c <;> try rfl
      cases s.next c <;> try rfl
      simp only [Res.ok_bind, ih]
      rename_i p x c'
      cases SVec.iterLoop n s c' <;> simp [Res.bind, pairBytes]

/-- Every entry was accepted after the ones before it. -/
def Accepted {T : Type} (accepts : List Nat → Nat → Prop) (l : List (Nat × T)) : Prop :=
  ∀ a x b, l = a ++ x :: b → accepts (a.map Prod.fst) x.1 ∧ x.1 < 2 ^ 64

theorem accepted_snoc {T : Type} {accepts : List Nat → Nat → Prop} {l : List (Nat × T)} (h : Accepted accepts l) (e : Nat × T)
    (ha : accepts (l.map Prod.fst) e.1) (he : e.1 < 2 ^ 64) : Accepted accepts (l ++ [e]) := by
  intro a x b hx
  rcases List.eq_nil_or_concat b with rfl | ⟨b', y, rfl⟩
  · obtain ⟨rfl, h2⟩ := List.append_inj' hx rfl
    simp only [List.cons.injEq, and_true] at h2
    subst h2
    exact ⟨ha, he⟩
  · rw [List.concat_eq_append, ← List.cons_append, ← List.append_assoc] at hx
    obtain ⟨h1, h2⟩ := List.append_inj' hx rfl
    exact h a x b' h1

theorem step_accepted {T : Type} {accepts : List Nat → Nat → Prop} [∀ ps p, Decidable (accepts ps p)] (l : List (Nat × T))
    (op : Op T) (hf : ∀ p x, op = .push p x → p < 2 ^ 64) (h : Accepted accepts l) : Accepted accepts (step accepts l op).2 := by
  cases op with
  | push p x =>
    simp only [step]
    split
    · exact accepted_snoc h _ ‹_› (hf p x rfl)
    · exact h
  | iterate => exact h
  | clear => intro a x b hx; simp [step] at hx

theorem run_accepted {T : Type} {accepts : List Nat → Nat → Prop} [∀ ps p, Decidable (accepts ps p)] (ops : List (Op T)) :
    ∀ (l : List (Nat × T)), Fits ops → Accepted accepts l → Accepted accepts (run accepts l ops).2 := by
  induction ops with
  | nil => intro l _ h; exact h
  | cons op ops ih =>
    intro l hf h
    exact ih _ (fun p x hm => hf p x (by simp [hm])) (step_accepted l op (fun p x e => hf p x (by simp [e])) h)

theorem built_accepted {P T : Type} [Table P] {s : SVec P T} {l : List (Nat × T)} (h : Built (Lawful.accepts P) s l) :
    Accepted (Lawful.accepts P) l := by
  obtain ⟨ops, es, hf, -, -, rfl⟩ := h
  exact run_accepted ops [] hf (fun a x b e => by simp at e)

/-! ## Pushing a list of pairs -/

/-- The operations that push the pairs. -/
def pushes {T : Type} (l : List (Nat × T)) : List (Op T) := l.map (fun e => .push e.1 e.2)

theorem pushes_fits {T : Type} (l : List (Nat × T)) (h : ∀ e ∈ l, e.1 < 2 ^ 64) : Fits (pushes l) := by
  intro p x hm
  simp only [pushes, List.mem_map, Op.push.injEq] at hm
  obtain ⟨e, he, rfl, rfl⟩ := hm
  exact h e he

theorem run_pushes {T : Type} {accepts : List Nat → Nat → Prop} [∀ ps p, Decidable (accepts ps p)] (l : List (Nat × T)) :
    ∀ acc, Accepted accepts (acc ++ l) → run accepts acc (pushes l) = (List.replicate l.length .pushed, acc ++ l) := by
  induction l with
  | nil => intro acc _; simp [pushes, run]
  | cons e l ih =>
    intro acc h
    have ha := (h acc e l rfl).1
    have h2 := ih (acc ++ [e]) (by simpa using h)
    simp only [pushes] at h2
    simp only [pushes, List.map_cons, run, step, ha, if_true, h2]
    simp [List.replicate_succ]

/-- The loop of `load` reads back what the pushes of the pairs made. -/
theorem loadLoop_good {P : Type} [PosTbl P] (ord same : (t : Ty) → Val t → Val t → Bool) (t : Ty) (l : List (Nat × Val t)) :
    ∀ (s s' : SVec P (Val t)), (∀ e ∈ l, e.1 < 2 ^ 64 ∧ Valid ord same t e.2) →
      drive s (pushes l) = .ok (List.replicate l.length .pushed, s') →
      Good (SVec.loadLoop ord same t l.length s) (l.map (pairBytes t)).flatten s' := by
  induction l with
  | nil =>
    intro s s' _ h
    simp only [pushes, List.map_nil, drive, Res.ok.injEq, Prod.mk.injEq] at h
    obtain ⟨-, rfl⟩ := h
    exact Good.pure s
  | cons e l ih =>
    intro s s' hv h
    simp only [pushes, List.map_cons, drive, drive1] at h
    cases hp : s.pushBack e.1 e.2 with
    | throw => simp [hp] at h
    | ub => simp [hp] at h
    | ok r =>
      obtain ⟨b, s1⟩ := r
      simp only [hp, Res.ok_bind, Res.pure_eq] at h
      cases hd : drive s1 (pushes l) with
      | throw => simp only [pushes] at hd; simp [hd] at h
      | ub => simp only [pushes] at hd; simp [hd] at h
      | ok r2 =>
        obtain ⟨es, s2⟩ := r2
        have hd' := hd
        simp only [pushes] at hd
        simp only [hd, Res.ok_bind, Res.pure_eq, Res.ok.injEq, Prod.mk.injEq, List.length_cons, List.replicate_succ,
          List.cons.injEq] at h
        obtain ⟨⟨hb, rfl⟩, rfl⟩ := h
        have hb' : b = false := by cases b <;> simp_all
        subst hb'
        have g1 := loadSize_good e.1 (hv e (by simp)).1
        have g2 := load_good ord same t (Serializer.default t) e.2 (hv e (by simp)).2
        rw [loaded_default ord same t e.2 (hv e (by simp)).2] at g2
        have one : Good (SVec.loadOne ord same t s) (pairBytes t e) s1 := by
          have g3 : Good (fun src => (do
              let (x, src) ← load ord same t (Serializer.default t) src
              let (thrown, s) ← s.pushBack e.1 x
              if thrown then .throw else return (s, src) : Res (SVec P (Val t) × Src))) (save t e.2) s1 := by
            have := Good.bind (l2 := fun x src => (do
              let (thrown, s) ← s.pushBack e.1 x
              if thrown then .throw else return (s, src) : Res (SVec P (Val t) × Src))) (b2 := []) (v2 := s1) g2
              ⟨fun src rest hr => ⟨src, by simp [hp], by simpa using hr⟩,
                fun src h1 h2 => by rw [List.prefix_nil] at h1; exact absurd h1 h2⟩
            simpa using this
          exact Good.bind (l2 := fun p src => (do
              let (x, src) ← load ord same t (Serializer.default t) src
              let (thrown, s) ← s.pushBack p x
              if thrown then .throw else return (s, src) : Res (SVec P (Val t) × Src))) g1 g3
        exact Good.bind one (ih s1 _ (fun x hx => hv x (by simp [hx])) hd')

variable {P : Type} [Table P] (ord same : (t : Ty) → Val t → Val t → Bool)

/-- C98: `save` of any vector, also one that is iterated, pushed to after failures, ..., writes bytes from which `load` makes a
vector with the same pairs: from a stream of any fragmentation, whatever the destination held, consuming exactly these bytes;
from any proper beginning of the bytes `load` throws.  The saved vector keeps its pairs. -/
theorem C98_roundtrip (t : Ty) (s : SVec P (Val t)) (l : List (Nat × Val t)) (h : Built (Lawful.accepts P) s l)
    (hv : ∀ e ∈ l, Valid ord same t e.2) (cap : Nat) (hc : l.length ≤ cap) :
    ∃ (bytes : List UInt8) (s1 : SVec P (Val t)), s.save t = .ok (bytes, s1) ∧ (∃ s1', s1.iterate = .ok (l, s1')) ∧
      ∃ s2 : SVec P (Val t), Built (Lawful.accepts P) s2 l ∧
        (∀ (dst : SVec P (Val t)) src rest, src.rest = bytes ++ rest →
          ∃ src', SVec.load ord same cap t dst src = .ok (s2, src') ∧ src'.rest = rest) ∧
        (∀ (dst : SVec P (Val t)) src, src.rest <+: bytes → src.rest ≠ bytes → SVec.load ord same cap t dst src = .throw) := by
  obtain ⟨r, o, n⟩ := built_rep h
  have acc := built_accepted h
  have pos : ∀ e ∈ l, e.1 < 2 ^ 64 := by
    intro e he
    obtain ⟨a, b, hab⟩ := List.append_of_mem he
    exact (acc a e b hab).2
  obtain ⟨s1, c1, b1, y1, v1, a1⟩ := begin_ok r n
  have hs1 : SVec.iterLoop (s1.vec.length + 1) s1 c1 = .ok l := by
    have := iterLoop_ok y1 (s1.vec.length + 1) 0 c1 a1 (by rw [y1.rep.2]; simp)
    simpa using this
  have hlen : s.vec.length = l.length := by rw [r.2]; simp
  obtain ⟨s1', e1', -⟩ := iterate_ok y1.rep n
  have hsave : s.save t = .ok (saveSize l.length ++ (l.map (pairBytes t)).flatten, s1) := by
    rw [SVec.save, b1]
    simp only [Res.ok_bind, saveLoop_eq, hs1, hlen]
    rfl
  have hrun : run (Lawful.accepts P) [] (pushes l) = (List.replicate l.length .pushed, l) := by
    simpa using run_pushes l [] (by simpa using acc)
  obtain ⟨s2, e2, -⟩ := drive_ok (P := P) (pushes l) SVec.empty [] ⟨Lawful.empty_ok, rfl⟩ (pushes_fits l pos) .nil
    (by simpa [pushes] using n)
  rw [hrun] at e2
  have good : ∀ dst, Good (SVec.load ord same cap t dst) (saveSize l.length ++ (l.map (pairBytes t)).flatten) s2 := by
    intro dst
    refine sized_good (f := fun size src => if size > cap then .throw
      else SVec.loadLoop ord same t size SVec.empty src) (by omega) ?_
    simp only [show ¬ l.length > cap by omega, if_false]
    exact loadLoop_good ord same t l _ _ (fun e he => ⟨pos e he, hv e he⟩) e2
  exact ⟨_, s1, hsave, ⟨s1', e1'⟩, s2, ⟨pushes l, _, pushes_fits l pos, by simpa [pushes] using n, e2, by rw [hrun]⟩,
    fun dst src rest hr => (good dst).ok src rest hr, fun dst src h1 h2 => (good dst).short src h1 h2⟩

/-- C98: the loaded vector equals the saved one (`operator==`). -/
theorem C98_roundtrip_eq (t : Ty) [DecidableEq (Val t)] (s : SVec P (Val t)) (l : List (Nat × Val t))
    (h : Built (Lawful.accepts P) s l) (hv : ∀ e ∈ l, Valid ord same t e.2) (cap : Nat) (hc : l.length ≤ cap)
    (bytes : List UInt8) (s1 : SVec P (Val t)) (hs : s.save t = .ok (bytes, s1)) (dst : SVec P (Val t)) (src : Src)
    (hr : src.rest = bytes) :
    ∃ s2 src', SVec.load ord same cap t dst src = .ok (s2, src') ∧ s2.eq s = .ok true := by
  obtain ⟨bytes', s1', e, -, s2, b2, hl, -⟩ := C98_roundtrip ord same t s l h hv cap hc
  rw [e] at hs
  simp only [Res.ok.injEq, Prod.mk.injEq] at hs
  obtain ⟨rfl, rfl⟩ := hs
  obtain ⟨src', e2, -⟩ := hl dst src [] (by simpa using hr)
  exact ⟨s2, src', e2, by rw [C51_eq s2 s l l b2 h]; simp⟩

/-! ## Foreign bytes -/

theorem loadLoop_built (t : Ty) (num : Nat) : ∀ (s : SVec P (Val t)) (l : List (Nat × Val t)) (src : Src), VRep s l →
    SVec.loadLoop ord same t num s src ≠ .ub ∧
    ∀ s' src', SVec.loadLoop ord same t num s src = .ok (s', src') → ∃ m : List (Nat × Val t), m.length = num ∧
      drive s (pushes m) = .ok (List.replicate num .pushed, s') ∧ (∀ e ∈ m, e.1 < 2 ^ 64) ∧
      run (Lawful.accepts P) l (pushes m) = (List.replicate num .pushed, l ++ m) := by
  induction num with
  | zero =>
    intro s l src h
    refine ⟨by simp [SVec.loadLoop], fun s' src' e => ?_⟩
    simp only [SVec.loadLoop, Res.ok.injEq, Prod.mk.injEq] at e
    obtain ⟨rfl, -⟩ := e
    exact ⟨[], rfl, by simp [pushes, drive], by simp, by simp [pushes, run]⟩
  | succ n ih =>
    intro s l src h
    rw [SVec.loadLoop, SVec.loadOne]
    cases hz : loadSize src with
    | ub => exact absurd hz (loadSize_safe src)
    | throw => exact ⟨by simp, fun s' src' e => by simp at e⟩
    | ok r =>
      obtain ⟨p, src1⟩ := r
      simp only [Res.ok_bind]
      have hp : p < 2 ^ 64 := by
        rw [loadSize] at hz
        cases hq : loadVariableInt 64 src with
        | ok q =>
          rw [hq] at hz
          simp only [Res.ok_bind, Res.pure_eq, Res.ok.injEq, Prod.mk.injEq] at hz
          rw [← hz.1]; exact q.1.isLt
        | throw => rw [hq] at hz; simp at hz
        | ub => rw [hq] at hz; simp at hz
      cases hx : load ord same t (Serializer.default t) src1 with
      | ub => exact absurd hx (load_safe ord same t _ src1)
      | throw => exact ⟨by simp, fun s' src' e => by simp at e⟩
      | ok r2 =>
        obtain ⟨x, src2⟩ := r2
        simp only [Res.ok_bind]
        obtain ⟨b, s1, e1, hb⟩ := push_ok h p x hp
        simp only [e1, Res.ok_bind]
        obtain ⟨h1, rfl, h3⟩ | ⟨h1, rfl, h3⟩ := hb
        · simp only [Bool.false_eq_true, if_false, Res.pure_eq, Res.ok_bind]
          obtain ⟨i1, i2⟩ := ih s1 (l ++ [(p, x)]) src2 h3
          refine ⟨i1, fun s' src' e => ?_⟩
          obtain ⟨m, m1, m2, m3, m4⟩ := i2 s' src' e
          refine ⟨(p, x) :: m, by simp [m1], ?_, ?_, ?_⟩
          · simp only [pushes] at m2
            simp only [pushes, List.map_cons, drive, drive1, e1, Res.ok_bind, Res.pure_eq, m2]
            simp [List.replicate_succ]
          · intro e he
            rcases List.mem_cons.1 he with rfl | he
            · exact hp
            · exact m3 e he
          · simp only [pushes] at m4
            simp only [pushes, List.map_cons, run, step, h1, if_true, m4]
            simp [List.replicate_succ]
        · exact ⟨by simp, fun s' src' e => by simp at e⟩

/-- C98: `load` of any bytes at all throws or gives a proper vector, one that `push_back` could have made: its positions
ascend.  It never leaves the defined part of the language. -/
theorem C98_any_bytes (t : Ty) (cap : Nat) (dst : SVec P (Val t)) (src : Src) :
    SVec.load ord same cap t dst src ≠ .ub ∧
    ∀ s' src', SVec.load ord same cap t dst src = .ok (s', src') → s'.vec.length < 2 ^ 30 - 1 →
      ∃ l, Built (Lawful.accepts P) s' l ∧ Ascending l ∧ l.length = s'.vec.length ∧ ∃ s'', s'.iterate = .ok (l, s'') := by
  rw [SVec.load]
  cases hz : loadSize src with
  | ub => exact absurd hz (loadSize_safe src)
  | throw => exact ⟨by simp, fun s' src' e => by simp at e⟩
  | ok r =>
    obtain ⟨n, src1⟩ := r
    simp only [Res.ok_bind]
    split
    · exact ⟨by simp, fun s' src' e => by simp at e⟩
    · obtain ⟨i1, i2⟩ := loadLoop_built ord same t n (SVec.empty : SVec P (Val t)) [] src1 ⟨Lawful.empty_ok, rfl⟩
      refine ⟨i1, fun s' src' e hlen => ?_⟩
      obtain ⟨m, m1, m2, m3, m4⟩ := i2 s' src' e
      have hv : s'.vec.length = m.length := by
        have key : ∀ (m : List (Nat × Val t)) (s s' : SVec P (Val t)) (k : Nat),
            drive s (pushes m) = .ok (List.replicate k .pushed, s') → s'.vec.length = s.vec.length + m.length := by
          intro m
          induction m with
          | nil => intro s s' k h; simp [pushes, drive] at h; simp [h.2]
          | cons a m ih =>
            intro s s' k h
            simp only [pushes, List.map_cons, drive, drive1] at h
            cases hp : s.pushBack a.1 a.2 with
            | throw => simp [hp] at h
            | ub => simp [hp] at h
            | ok r =>
              obtain ⟨b, s1⟩ := r
              simp only [hp, Res.ok_bind, Res.pure_eq] at h
              cases hd : drive s1 (pushes m) with
              | throw => simp only [pushes] at hd; simp [hd] at h
              | ub => simp only [pushes] at hd; simp [hd] at h
              | ok r2 =>
                obtain ⟨es, s2⟩ := r2
                have hd' := hd
                simp only [pushes] at hd
                simp only [hd, Res.ok_bind, Res.pure_eq, Res.ok.injEq, Prod.mk.injEq] at h
                obtain ⟨h1, rfl⟩ := h
                cases k with
                | zero => simp at h1
                | succ k =>
                  rw [List.replicate_succ, List.cons.injEq] at h1
                  obtain ⟨hb, rfl⟩ := h1
                  have hb' : b = false := by cases b <;> simp_all
                  subst hb'
                  have := ih s1 _ k hd'
                  rw [this]
                  rw [SVec.pushBack] at hp
                  cases hq : PosTbl.set s.posTbl a.1 with
                  | throw => rw [hq] at hp; simp at hp
                  | ub => rw [hq] at hp; simp at hp
                  | ok q =>
                    obtain ⟨th, t'⟩ := q
                    rw [hq] at hp
                    simp only [Res.ok_bind] at hp
                    cases th
                    · simp at hp
                      rw [← hp]; simp; omega
                    · simp at hp
        have := key m SVec.empty s' n m2
        simpa [SVec.empty] using this
      have hbuilt : Built (Lawful.accepts P) s' m :=
        ⟨pushes m, _, pushes_fits m m3, by simp [pushes]; omega, m2, by rw [m4]; simp⟩
      obtain ⟨r', o', n'⟩ := built_rep hbuilt
      obtain ⟨s'', e'', -⟩ := iterate_ok r' n'
      exact ⟨m, hbuilt, o', hv.symm, s'', e''⟩

/-! ## `set` -/

theorem setLoop_ok {T : Type} (m : List (Nat × T)) : ∀ (s : SVec P T) (l : List (Nat × T)), VRep s l → (∀ e ∈ m, e.1 < 2 ^ 64) →
    ∃ s', SVec.setLoop m s = .ok ((pushAll (Lawful.accepts P) l m).1, s') ∧ VRep s' (pushAll (Lawful.accepts P) l m).2 := by
  induction m with
  | nil => intro s l h _; exact ⟨s, rfl, h⟩
  | cons e m ih =>
    intro s l h hm
    obtain ⟨b, s1, e1, hb⟩ := push_ok h e.1 e.2 (hm e (by simp))
    rw [SVec.setLoop, e1, pushAll]
    obtain ⟨h1, rfl, h3⟩ | ⟨h1, rfl, h3⟩ := hb
    · simp only [Res.ok_bind, h1, if_true, Bool.false_eq_true, if_false]
      exact ih s1 _ h3 (fun x hx => hm x (by simp [hx]))
    · exact ⟨s1, by simp [h1], by simpa [h1] using h3⟩

theorem pushAll_length {T : Type} (accepts : List Nat → Nat → Prop) [∀ ps p, Decidable (accepts ps p)] (m : List (Nat × T)) :
    ∀ l, (pushAll accepts l m).2.length ≤ l.length + m.length := by
  induction m with
  | nil => intro l; simp [pushAll]
  | cons e m ih =>
    intro l
    rw [pushAll]
    split
    · have := ih (l ++ [e]); simp at this ⊢; omega
    · simp

/-- C98: `set(m)` pushes the pairs of the map after those of the vector, up to the first one that is refused; it throws exactly
if one is. -/
theorem C98_set {T : Type} (s : SVec P T) (l m : List (Nat × T)) (h : Built (Lawful.accepts P) s l)
    (hm : ∀ e ∈ m, e.1 < 2 ^ 64) (cap : Nat) (hc : m.length ≤ cap) (hn : l.length + m.length < 2 ^ 30 - 1) :
    ∃ s' s'', s.setMap cap m = .ok ((pushAll (Lawful.accepts P) l m).1, s') ∧
      s'.iterate = .ok ((pushAll (Lawful.accepts P) l m).2, s'') := by
  obtain ⟨r, -, -⟩ := built_rep h
  obtain ⟨s', e1, r1⟩ := setLoop_ok (P := P) m s l r hm
  have := pushAll_length (Lawful.accepts P) m l
  obtain ⟨s'', e2, -⟩ := iterate_ok r1 (by omega)
  exact ⟨s', s'', by rw [SVec.setMap, if_neg (by omega)]; exact e1, e2⟩

/-- C98: a new vector with plain positions takes every map whose keys are below `2^32`. -/
theorem C98_set_new {T : Type} (m : List (Nat × T)) (hm : ∀ e ∈ m, e.1 < 2 ^ 32) (ha : Ascending m) (cap : Nat)
    (hc : m.length ≤ cap) (hn : m.length < 2 ^ 30 - 1) :
    ∃ s' s'', (SVec.empty : SVec PTbl T).setMap cap m = .ok (false, s') ∧ s'.iterate = .ok (m, s'') := by
  have key : ∀ (m l : List (Nat × T)), (∀ e ∈ m, e.1 < 2 ^ 32) → Ascending (l ++ m) →
      pushAll (Lawful.accepts PTbl) l m = (false, l ++ m) := by
    intro m
    induction m with
    | nil => intro l _ _; simp [pushAll]
    | cons e m ih =>
      intro l hm ha
      have hacc : Lawful.accepts PTbl (l.map Prod.fst) e.1 := by
        refine ⟨fun q hq => ?_, hm e (by simp)⟩
        have hq' := List.mem_of_getLast? hq
        obtain ⟨x, hx, rfl⟩ := List.mem_map.1 hq'
        exact (List.pairwise_append.1 ha).2.2 x hx e (by simp)
      rw [pushAll, if_pos hacc, ih _ (fun x hx => hm x (by simp [hx])) (by simpa using ha)]
      simp
  have hb : Built (Lawful.accepts PTbl) (SVec.empty : SVec PTbl T) [] := ⟨[], [], by intro p x h; simp at h, by simp, rfl, rfl⟩
  obtain ⟨s', s'', e1, e2⟩ := C98_set (P := PTbl) (SVec.empty) [] m hb (fun e he => by have := hm e he; omega) cap hc
    (by simpa using hn)
  rw [key m [] hm (by simpa using ha)] at e1 e2
  exact ⟨s', s'', e1, by simpa using e2⟩

/-- C98 finding: `set` does not replace the content.  A second `set`, or `set` of any map that begins at or below the last
position, throws and leaves the vector as it was. -/
theorem C98_finding_set_appends {T : Type} (s : SVec P T) (l : List (Nat × T)) (q : Nat × T) (e : Nat × T) (m : List (Nat × T))
    (h : Built (Lawful.accepts P) s (l ++ [q])) (hq : e.1 ≤ q.1) (he : e.1 < 2 ^ 64) (cap : Nat) (hc : m.length + 1 ≤ cap) :
    ∃ s' s'', s.setMap cap (e :: m) = .ok (true, s') ∧ s'.iterate = .ok (l ++ [q], s'') := by
  obtain ⟨r, -, n⟩ := built_rep h
  obtain ⟨b, s1, e1, hb⟩ := push_ok r e.1 e.2 he
  have hno : ¬ Lawful.accepts P ((l ++ [q]).map Prod.fst) e.1 := by
    intro ha
    have := Lawful.accepts_larger ha q.1 (by simp)
    omega
  obtain ⟨h1, -⟩ | ⟨-, rfl, h3⟩ := hb
  · exact absurd h1 hno
  · obtain ⟨s'', e2, -⟩ := iterate_ok h3 n
    refine ⟨s1, s'', ?_, e2⟩
    rw [SVec.setMap, if_neg (by simp; omega), SVec.setLoop, e1]
    rfl

/-- C98: a map with more elements than the vector can hold is refused with an exception, and the vector is as before. -/
theorem C98_set_too_large {T : Type} (s : SVec P T) (m : List (Nat × T)) (cap : Nat) (h : cap < m.length) :
    s.setMap cap m = .ok (true, s) := by
  rw [SVec.setMap, if_pos h]

/-! ## `norm` -/

/-- C98: `norm()` is the inner product of the vector with itself, in every arithmetic (also floating point). -/
theorem C98_norm {T R : Type} [Zero R] [Add R] [Mul R] (inj : T → R) (s : SVec P T) : s.norm inj = innerProductSelf inj s := by
  have key : ∀ (fuel : Nat) (s : SVec P T) (c : PosTbl.Curr P) (r : R),
      SVec.normLoop inj fuel s c r = selfLoop inj fuel s c r := by
    intro fuel
    induction fuel with
    | zero => intros; rfl
    | succ n ih =>
      intro s c r
      rw [SVec.normLoop, selfLoop]
      split
      · rfl
      · cases hv : s.val c <;> simp only [Res.ok_bind, Res.throw_bind, Res.ub_bind, ih]
  rw [SVec.norm, innerProductSelf]
  cases s.begin <;> simp only [Res.ok_bind, Res.throw_bind, Res.ub_bind, key]

/-! ## Cases that meet the hypotheses -/

/-- A vector with compressed positions that was iterated, refused a position and was pushed to again. -/
example : ∃ s : SVec CTbl (Val .str), Built (Lawful.accepts CTbl) s [(5, [97]), (20000, [98, 99])] ∧
    (∀ e ∈ ([(5, [97]), (20000, [98, 99])] : List (Nat × Val .str)), Valid (fun _ _ _ => true) (fun _ _ _ => true) .str e.2) := by
  have hf : Fits [Op.push 5 [97], .iterate, .push 5 [1], .push 20000 ([98, 99] : Val .str)] := by
    intro p x h
    simp only [List.mem_cons, List.not_mem_nil, or_false, Op.push.injEq, reduceCtorEq, false_or] at h
    obtain ⟨rfl, -⟩ | ⟨rfl, -⟩ | ⟨rfl, -⟩ := h <;> decide
  obtain ⟨s, e, -⟩ := drive_ok (P := CTbl) _ SVec.empty [] ⟨Lawful.empty_ok, rfl⟩ hf .nil (by decide)
  refine ⟨s, ⟨_, _, hf, by decide, e, ?_⟩, ?_⟩
  · decide +kernel
  · intro e he
    simp only [List.mem_cons, List.not_mem_nil, or_false] at he
    rcases he with rfl | rfl <;> simp [Valid]

/-- The bytes of a vector and what `load` makes of them. -/
example : (do
      let (_, s) ← (SVec.empty : SVec CTbl (Val (.int false))).pushBack 3 7#32
      let (_, s) ← s.pushBack 300 200#32
      let (b, _) ← s.save (.int false)
      let (s2, _) ← SVec.load (fun _ _ _ => true) (fun _ _ _ => true) 100 (.int false) s ⟨b, fun _ => 1, 0⟩
      let (l, _) ← s2.iterate
      return (b, l) : Res (List UInt8 × List (Nat × BitVec 32))) =
    .ok ([2, 3, 7, 0x81, 0x2c, 1, 0x80, 200], [(3, 7#32), (300, 200#32)]) := by decide +kernel

/-- Bytes with descending positions are refused. -/
example : (SVec.load (fun _ _ _ => true) (fun _ _ _ => true) 100 (.int false) (SVec.empty : SVec PTbl (Val (.int false)))
    ⟨[2, 3, 7, 3, 7], fun _ => 9, 0⟩).bind (fun p => .ok p.1.vec) = .throw := by decide +kernel

#print axioms C98_roundtrip
#print axioms C98_roundtrip_eq
#print axioms C98_any_bytes
#print axioms C98_set
#print axioms C98_set_new
#print axioms C98_set_too_large
#print axioms C98_finding_set_appends
#print axioms C98_norm

end Verif.Props.SparseIO
