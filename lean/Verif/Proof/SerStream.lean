import Verif.Spec.SerStream
import Verif.Proof.Serializer
set_option linter.unusedSimpArgs false

/-! Lemmas for C118. -/
namespace Verif.SerStream
open Verif.Serializer (Ty Val width default savePod saveSize chunks setInsert mapInsert umapInsert recoverableS recoverableU)
open Verif.Spec.Serializer Verif.Spec.Stream Verif.Spec.SerStream
open Verif.Stream (Src splice_splice splice_length splice_nil)

variable {σ : Type} {I : In σ} {Rest : σ → List UInt8 → Prop}

theorem loop_ok (hs : Serves I Rest) (fuel : Nat) : ∀ (buf : List UInt8) (p size : Nat) (s : σ) (l : List UInt8), Rest s l → size < fuel →
    p + size ≤ buf.length → size ≤ l.length →
    ∃ s', readLoop I fuel buf p size s = .ok (true, splice buf p (l.take size), s') ∧ Rest s' (l.drop size) := by
  induction fuel with
  | zero => intro buf p size s l _ h; omega
  | succ fuel ih =>
    intro buf p size s l hr hf hb hl
    rw [readLoop]
    by_cases h0 : size > 0
    · rw [if_pos h0]
      obtain ⟨n, s1, n0, n1, n2, e, hr1⟩ | ⟨h, _⟩ := hs.some (buf := buf) (off := p) hr (by rintro rfl; simp at hl; omega) h0 hb
      · rw [e, Res.ok_bind]
        simp only
        rw [if_neg (by omega), if_neg (by omega)]
        have hlen : (l.take n).length = n := by simp; omega
        obtain ⟨s', e1, e2⟩ := ih (splice buf p (l.take n)) (p + n) (size - n) s1 (l.drop n) hr1 (by omega)
          (by rw [splice_length _ _ _ (by omega)]; omega) (by simp; omega)
        refine ⟨s', ?_, ?_⟩
        · rw [e1]
          have := splice_splice buf (l.take n) ((l.drop n).take (size - n)) p (by rw [hlen, List.length_take, List.length_drop]; omega)
          rw [hlen] at this
          rw [this]
          have e3 : l.take size = l.take n ++ (l.drop n).take (size - n) := by
            rw [← List.take_add]; congr 1; omega
          rw [e3]
        · rw [List.drop_drop] at e2
          rwa [show n + (size - n) = size by omega] at e2
      · omega
    · obtain rfl : size = 0 := by omega
      exact ⟨s, by simp [splice_nil], by simpa using hr⟩

theorem loop_short (hs : Serves I Rest) (he : Ends I Rest) (fuel : Nat) : ∀ (buf : List UInt8) (p size : Nat) (s : σ) (l : List UInt8),
    Rest s l → size < fuel → p + size ≤ buf.length → l.length < size →
    readLoop I fuel buf p size s = .throw ∨ ∃ buf' s', readLoop I fuel buf p size s = .ok (false, buf', s') := by
  induction fuel with
  | zero => intro buf p size s l _ h; omega
  | succ fuel ih =>
    intro buf p size s l hr hf hb hl
    rw [readLoop, if_pos (by omega)]
    by_cases hnil : l = []
    · subst hnil
      obtain ⟨buf', s', e⟩ | e := he.none (buf := buf) (off := p) (size := size) hr (by omega) hb
      · rw [e]; exact .inr ⟨buf', s', rfl⟩
      · rw [e]; exact .inl rfl
    · obtain ⟨n, s1, n0, n1, n2, e, hr1⟩ | ⟨_, e⟩ := hs.some (buf := buf) (off := p) (size := size) hr hnil (by omega) hb
      · rw [e, Res.ok_bind]
        simp only
        rw [if_neg (by omega), if_neg (by omega)]
        exact ih _ _ _ _ _ hr1 (by omega) (by rw [splice_length _ _ _ (by simp; omega)]; omega) (by simp; omega)
      · rw [e]; exact .inl rfl

theorem range_ok (hs : Serves I Rest) (n : Nat) (s : σ) (l : List UInt8) (hr : Rest s l) (h : n ≤ l.length) :
    ∃ s', loadRange I n s = .ok (l.take n, s') ∧ Rest s' (l.drop n) := by
  obtain ⟨s', e1, e2⟩ := loop_ok hs (n + 1) (List.replicate n 0) 0 n s l hr (by omega) (by simp) h
  refine ⟨s', ?_, e2⟩
  rw [loadRange, read, e1]
  have hlen : (l.take n).length = n := by simp; omega
  simp [splice, hlen]

theorem range_short (hs : Serves I Rest) (he : Ends I Rest) (n : Nat) (s : σ) (l : List UInt8) (hr : Rest s l) (h : l.length < n) :
    loadRange I n s = .throw := by
  rw [loadRange, read]
  obtain e | ⟨b, s', e⟩ := loop_short hs he (n + 1) (List.replicate n 0) 0 n s l hr (by omega) (by simp) h
  · rw [e]; rfl
  · rw [e]; rfl

/-- `g` on the class does what `f` does on a stream of unknown fragmentation with the same content. -/
def Sim (Rest : σ → List UInt8 → Prop) (E : Prop) {α : Type} (f : Src → Res (α × Src)) (g : σ → Res (α × σ)) : Prop :=
  ∀ src s, Rest s src.rest →
    (∀ a src', f src = .ok (a, src') → ∃ s', g s = .ok (a, s') ∧ Rest s' src'.rest) ∧ (E → f src = .throw → g s = .throw)

variable {E : Prop}

theorem Sim.pure {α : Type} (v : α) : Sim Rest E (fun s => .ok (v, s)) (fun s => .ok (v, s)) := by
  intro src s hr
  refine ⟨?_, ?_⟩
  · intro a src' h
    cases h
    exact ⟨s, rfl, hr⟩
  · intro _ h
    cases h

theorem Sim.throw {α : Type} : Sim (α := α) Rest E (fun _ => .throw) (fun _ => .throw) := by
  intro src s hr
  exact ⟨fun _ _ h => (by cases h), fun _ _ => rfl⟩

theorem Sim.bind {α β : Type} {f : Src → Res (α × Src)} {g : σ → Res (α × σ)} {f2 : α → Src → Res (β × Src)}
    {g2 : α → σ → Res (β × σ)} (h1 : Sim Rest E f g) (h2 : ∀ a, Sim Rest E (f2 a) (g2 a)) :
    Sim Rest E (fun s => do let (a, s) ← f s; f2 a s) (fun s => do let (a, s) ← g s; g2 a s) := by
  intro src s hr
  obtain ⟨a1, a2⟩ := h1 src s hr
  cases hf : f src with
  | ok p =>
    obtain ⟨a, src1⟩ := p
    obtain ⟨s1, e1, r1⟩ := a1 a src1 hf
    simp only [hf, e1, Res.ok_bind]
    exact h2 a src1 s1 r1
  | throw =>
    refine ⟨fun _ _ h => ?_, fun e _ => ?_⟩
    · simp only [hf, Res.throw_bind] at h
      cases h
    · simp only [a2 e hf, Res.throw_bind]
  | ub =>
    refine ⟨fun _ _ h => ?_, fun _ h => ?_⟩ <;> (simp only [hf, Res.ub_bind] at h; cases h)

theorem Sim.map {α β : Type} {f : Src → Res (α × Src)} {g : σ → Res (α × σ)} (k : α → β) (h1 : Sim Rest E f g) :
    Sim Rest E (fun s => do let (a, s) ← f s; return (k a, s)) (fun s => do let (a, s) ← g s; return (k a, s)) :=
  Sim.bind h1 fun a => Sim.pure (k a)

theorem sim_range (hs : Serves I Rest) (n : Nat) : Sim Rest (Ends I Rest) (Serializer.loadRange n) (loadRange I n) := by
  intro src s hr
  by_cases hl : n ≤ src.rest.length
  · obtain ⟨s', e1, e2⟩ := range_ok hs n s _ hr hl
    obtain ⟨src', f1, f2, _⟩ := Stream.read_ok (List.replicate n 0) n src (by simp) hl
    rw [Serializer.loadRange, f1]
    refine ⟨fun a src2 h => ?_, fun _ h => by cases h⟩
    cases h
    refine ⟨s', ?_, by rw [f2]; exact e2⟩
    rw [e1]
    simp
  · refine ⟨fun a src2 h => ?_, fun he _ => range_short hs he n s _ hr (by omega)⟩
    rw [Serializer.loadRange, Stream.read_throw _ _ _ (by simp) (by omega)] at h
    cases h

theorem sim_pod (hs : Serves I Rest) (n : Nat) : Sim Rest (Ends I Rest) (Serializer.loadPod n) (loadPod I n) :=
  (sim_range hs n).map fun c => BitVec.ofNat (8 * n) (Endian.memLoad c)

theorem sim_body (hs : Serves I Rest) (w h : Nat) : Sim Rest (Ends I Rest) (Serializer.loadBody w h) (loadBody I w h) := by
  have hu : ∀ n, Sim Rest (Ends I Rest) (fun s => do let (v, s) ← Serializer.loadPod n s; return (v.setWidth w, s))
      (fun s => do let (v, s) ← loadPod I n s; return (v.setWidth w, s)) := fun n => (sim_pod hs n).map _
  have hi : ∀ n, Sim Rest (Ends I Rest) (fun s => do let (v, s) ← Serializer.loadPod n s; return (v.signExtend w, s))
      (fun s => do let (v, s) ← loadPod I n s; return (v.signExtend w, s)) := fun n => (sim_pod hs n).map _
  intro src s
  rw [Serializer.loadBody, loadBody, body]
  by_cases h0 : h = 0x80
  · simp only [h0, if_true]; exact hu 1 src s
  by_cases h1 : h = 0x81
  · simp only [h1, if_true]; exact hu 2 src s
  by_cases h2 : h = 0x82
  · simp only [h2, if_true]; exact hu 4 src s
  by_cases h3 : h = 0x83
  · by_cases hw : w = 32
    · simp only [h3, if_true, hw]; exact Sim.throw src s
    · simp only [h3, if_true, hw, if_false]; exact hu 8 src s
  by_cases h4 : h = 0x84
  · simp only [h4, if_true]; exact hi 1 src s
  by_cases h5 : h = 0x85
  · simp only [h5, if_true]; exact hi 2 src s
  by_cases h6 : h = 0x86
  · simp only [h6, if_true]; exact hi 4 src s
  by_cases h7 : h = 0x87
  · by_cases hw : w = 32
    · simp only [h7, if_true, hw]; exact Sim.throw src s
    · simp only [h7, if_true, hw, if_false]; exact hi 8 src s
  simp only [h0, h1, h2, h3, h4, h5, h6, h7, if_false]
  exact Sim.pure _ src s

theorem sim_int (hs : Serves I Rest) (w : Nat) : Sim Rest (Ends I Rest) (Serializer.loadVariableInt w) (loadVariableInt I w) :=
  Sim.bind (f2 := fun (h : BitVec (8 * 1)) s => Serializer.loadBody w h.toNat s) (g2 := fun (h : BitVec (8 * 1)) s => loadBody I w h.toNat s)
    (sim_pod hs 1) fun h => sim_body hs w h.toNat

theorem sim_size (hs : Serves I Rest) : Sim Rest (Ends I Rest) Serializer.loadSize (loadSize I) := (sim_int hs 64).map BitVec.toNat

theorem sim_elems (hs : Serves I Rest) (n size : Nat) : Sim Rest (Ends I Rest) (Serializer.loadElems n size) (loadElems I n size) := by
  intro src s
  rw [Serializer.loadElems, loadElems]
  by_cases h : size > 0
  · simp only [h, if_true]; exact sim_range hs (size * n) src s
  · simp only [h, if_false]; exact Sim.pure [] src s

theorem sim_podVec (hs : Serves I Rest) (n : Nat) : Sim Rest (Ends I Rest) (Serializer.loadPodVec n) (loadPodVec I n) := by
  refine Sim.bind (f2 := fun size s => if size * n ≥ 2 ^ 63 then .throw else do
      let (c, s) ← Serializer.loadElems n size s
      return (chunks n size c, s)) (g2 := fun size s => if size * n ≥ 2 ^ 63 then .throw else do
      let (c, s) ← loadElems I n size s
      return (chunks n size c, s)) (sim_size hs) fun size => ?_
  by_cases h : size * n ≥ 2 ^ 63
  · simp only [h, if_true]; exact Sim.throw
  · simp only [h, if_false]; exact (sim_elems hs n size).map _

theorem sim_str (hs : Serves I Rest) : Sim Rest (Ends I Rest) Serializer.loadStr (loadStr I) := by
  refine Sim.bind (f2 := fun size s => if size ≥ 2 ^ 63 then .throw else Serializer.loadElems 1 size s)
    (g2 := fun size s => if size ≥ 2 ^ 63 then .throw else loadElems I 1 size s) (sim_size hs) fun size => ?_
  by_cases h : size ≥ 2 ^ 63
  · simp only [h, if_true]; exact Sim.throw
  · simp only [h, if_false]; exact sim_elems hs 1 size

theorem sim_many {α β : Type} {f : Src → Res (α × Src)} {g : σ → Res (α × σ)} (h : Sim Rest E f g) (add : β → α → β) (num : Nat) :
    ∀ x, Sim Rest E (Serializer.loadMany f add num x) (loadMany g add num x) := by
  induction num with
  | zero => intro x; exact Sim.pure x
  | succ num ih =>
    intro x
    exact Sim.bind (f2 := fun t s => Serializer.loadMany f add num (add x t) s) (g2 := fun t s => loadMany g add num (add x t) s) h fun t => ih _

theorem sim_pair {α β : Type} {f1 : Src → Res (α × Src)} {g1 : σ → Res (α × σ)} {f2 : Src → Res (β × Src)} {g2 : σ → Res (β × σ)}
    (h1 : Sim Rest E f1 g1) (h2 : Sim Rest E f2 g2) : Sim Rest E (Serializer.loadPair f1 f2) (loadPair g1 g2) :=
  Sim.bind (f2 := fun a s => do let (b, s) ← f2 s; return ((a, b), s)) (g2 := fun a s => do let (b, s) ← g2 s; return ((a, b), s)) h1
    fun a => h2.map (fun b => (a, b))

variable (ord same : (t : Ty) → Val t → Val t → Bool)

theorem sim_load (hs : Serves I Rest) : ∀ (t : Ty) (old : Val t), Sim Rest (Ends I Rest) (Serializer.load ord same t old) (load ord same I t old)
  | .pod n, old => sim_pod hs n
  | .int l, old => sim_int hs (width l)
  | .str, old => sim_str hs
  | .podVec n, old => sim_podVec hs n
  | .seq t, old =>
    Sim.bind (f2 := fun size s => Serializer.loadMany (Serializer.load ord same t (default t)) (fun x e => x ++ [e]) size [] s)
      (g2 := fun size s => loadMany (load ord same I t (default t)) (fun x e => x ++ [e]) size [] s) (sim_size hs)
      fun size => sim_many (sim_load hs t _) _ size []
  | .set k, old =>
    Sim.bind (f2 := fun size s => Serializer.loadMany (Serializer.load ord same k (default k)) (setInsert (ord k)) size old s)
      (g2 := fun size s => loadMany (load ord same I k (default k)) (setInsert (ord k)) size old s) (sim_size hs)
      fun size => sim_many (sim_load hs k _) _ size old
  | .map k v, old =>
    Sim.bind (f2 := fun size s => Serializer.loadMany (Serializer.loadPair (Serializer.load ord same k (default k)) (Serializer.load ord same v (default v)))
        (mapInsert (ord k)) size old s)
      (g2 := fun size s => loadMany (loadPair (load ord same I k (default k)) (load ord same I v (default v))) (mapInsert (ord k)) size old s) (sim_size hs)
      fun size => sim_many (sim_pair (sim_load hs k _) (sim_load hs v _)) _ size old
  | .umap k v, old =>
    Sim.bind (f2 := fun size s => Serializer.loadMany (Serializer.loadPair (Serializer.load ord same k (default k)) (Serializer.load ord same v (default v)))
        (umapInsert (same k)) size old s)
      (g2 := fun size s => loadMany (loadPair (load ord same I k (default k)) (load ord same I v (default v))) (umapInsert (same k)) size old s) (sim_size hs)
      fun size => sim_many (sim_pair (sim_load hs k _) (sim_load hs v _)) _ size old

/-- A stream of unknown fragmentation with the given content. -/
def src (l : List UInt8) : Src := ⟨l, fun _ => 0, 0⟩

theorem load_good (hs : Serves I Rest) (t : Ty) (old x : Val t) (hx : Valid ord same t x) (hc : Clears t ∨ old = default t) :
    (∀ s rest, Rest s (Serializer.save t x ++ rest) → ∃ s', load ord same I t old s = .ok (x, s') ∧ Rest s' rest) ∧
    (Ends I Rest → ∀ s p, Rest s p → p <+: Serializer.save t x → p ≠ Serializer.save t x → load ord same I t old s = .throw) := by
  have hg := Serializer.load_good ord same t old x hx
  have hv : Serializer.loaded ord same t old x = x := by
    rcases hc with hc | rfl
    · cases t <;> first | rfl | exact absurd hc (by simp [Clears])
    · exact Serializer.loaded_default ord same t x hx
  rw [hv] at hg
  refine ⟨fun s rest h => ?_, fun he s p h1 h2 h3 => ?_⟩
  · obtain ⟨s', e1, e2⟩ := hg.ok (src (Serializer.save t x ++ rest)) rest rfl
    obtain ⟨s2, e3, e4⟩ := (sim_load ord same hs t old (src (Serializer.save t x ++ rest)) s h).1 _ _ e1
    exact ⟨s2, e3, by rw [← e2]; exact e4⟩
  · exact (sim_load ord same hs t old (src p) s h1).2 he (hg.short (src p) h2 h3)

theorem object_ok (hs : Serves I Rest) {old x : Object} (h : Ready ord same old x) : ∀ s rest, Rest s (bytes x ++ rest) →
    ∃ s', loadObject ord same I old s = .ok (x, s') ∧ Rest s' rest := by
  induction h with
  | nil => intro s rest h; exact ⟨s, rfl, h⟩
  | cons t o x os xs valid clear h ih =>
    intro s rest hr
    rw [bytes, List.flatMap_cons, List.append_assoc] at hr
    obtain ⟨s1, e1, r1⟩ := (load_good ord same hs t o x valid clear).1 s _ hr
    obtain ⟨s2, e2, r2⟩ := ih s1 rest r1
    refine ⟨s2, ?_, r2⟩
    rw [loadObject, e1, Res.ok_bind]
    simp only
    rw [e2]
    rfl

theorem object_short (hs : Serves I Rest) (he : Ends I Rest) {old x : Object} (h : Ready ord same old x) : ∀ s p, Rest s p → p <+: bytes x →
    p ≠ bytes x → loadObject ord same I old s = .throw := by
  induction h with
  | nil =>
    intro s p _ h1 h2
    exact absurd (List.prefix_nil.mp h1) h2
  | cons t o x os xs valid clear h ih =>
    intro s p hr hp hne
    rw [bytes, List.flatMap_cons] at hp hne
    rcases Serializer.prefix_cases hp with ⟨h1, h2⟩ | ⟨q, rfl, hq⟩
    · rw [loadObject, (load_good ord same hs t o x valid clear).2 he s p hr h1 h2]
      rfl
    · obtain ⟨s1, e1, r1⟩ := (load_good ord same hs t o x valid clear).1 s _ hr
      rw [loadObject, e1, Res.ok_bind]
      simp only
      rw [ih s1 q r1 hq (by rintro rfl; exact hne rfl)]
      rfl

/-! ## Output -/

theorem intPieces_flatten {w : Nat} (x : BitVec w) : (intPieces x).flatten = Serializer.saveVariableInt x := by
  unfold intPieces Serializer.saveVariableInt
  by_cases h : recoverableS 8 x = true
  · have key : ∀ (c : Prop) [Decidable c] (a b : List UInt8), ((if c then [a] else []) ++ [b]).flatten = (if c then a else []) ++ b := by
      intro c _ a b
      split <;> simp
    simp only [h, if_true]
    exact key _ _ _
  · simp only [h, if_false, Bool.false_eq_true]
    repeat' split
    all_goals simp

theorem pieces_flatten : ∀ (t : Ty) (x : Val t), (pieces t x).flatten = Serializer.save t x
  | .pod n, x => by simp [pieces, Serializer.save]
  | .int l, x => intPieces_flatten x
  | .str, x => by
    simp only [pieces, Serializer.save, Serializer.saveStr, List.flatten_append, sizePieces, intPieces_flatten, saveSize]
    congr 1
    split
    · simp
    · rename_i h
      simp only [ne_eq, Decidable.not_not] at h
      rw [h]; rfl
  | .podVec n, x => by
    simp only [pieces, Serializer.save, Serializer.savePodVec, List.flatten_append, sizePieces, intPieces_flatten, saveSize]
    congr 1
    split
    · simp
    · rename_i h
      simp only [ne_eq, Decidable.not_not] at h
      rw [h]; rfl
  | .seq t, x => by
    simp only [pieces, Serializer.save, List.flatten_append, sizePieces, intPieces_flatten, saveSize, List.flatten_flatten, List.map_map]
    congr 3
    funext y
    exact pieces_flatten t y
  | .set t, x => by
    simp only [pieces, Serializer.save, List.flatten_append, sizePieces, intPieces_flatten, saveSize, List.flatten_flatten, List.map_map]
    congr 3
    funext y
    exact pieces_flatten t y
  | .map k v, x => by
    simp only [pieces, Serializer.save, List.flatten_append, sizePieces, intPieces_flatten, saveSize, List.flatten_flatten, List.map_map]
    congr 3
    funext y
    simp [pieces_flatten k, pieces_flatten v]
  | .umap k v, x => by
    simp only [pieces, Serializer.save, List.flatten_append, sizePieces, intPieces_flatten, saveSize, List.flatten_flatten, List.map_map]
    congr 3
    funext y
    simp [pieces_flatten k, pieces_flatten v]

variable {O : Out σ}

theorem writeAll_append (O : Out σ) (a b : List (List UInt8)) (s : σ) : writeAll O (a ++ b) s = (writeAll O a s).bind (writeAll O b) := by
  induction a generalizing s with
  | nil => rfl
  | cons w ws ih =>
    rw [List.cons_append, writeAll, writeAll]
    cases O.write w s with
    | ok s1 => simp only [Res.ok_bind]; exact ih s1
    | throw => rfl
    | ub => rfl

theorem saveObject_eq (O : Out σ) (x : Object) : ∀ s, saveObject O x s = writeAll O (calls x) s := by
  induction x with
  | nil => intro s; rfl
  | cons f fs ih =>
    intro s
    obtain ⟨t, v⟩ := f
    rw [calls, List.flatMap_cons, writeAll_append, saveObject, save]
    cases writeAll O (pieces t v) s with
    | ok s1 => exact ih s1
    | throw => rfl
    | ub => rfl

theorem calls_flatten (x : Object) : (calls x).flatten = bytes x := by
  induction x with
  | nil => rfl
  | cons f fs ih =>
    rw [calls, List.flatMap_cons, List.flatten_append, bytes, List.flatMap_cons, pieces_flatten]
    rw [calls] at ih
    rw [ih, bytes]

theorem writeAll_takes {Got : σ → List UInt8 → Prop} {Fit : List UInt8 → List UInt8 → Prop} (ht : Takes O Got Fit) (ws : List (List UInt8)) :
    ∀ s l, Got s l → AllFit Fit l ws → ∃ s', writeAll O ws s = .ok s' ∧ Got s' (l ++ ws.flatten) := by
  induction ws with
  | nil => intro s l h _; exact ⟨s, rfl, by simpa using h⟩
  | cons w ws ih =>
    intro s l h hf
    obtain ⟨s1, e1, g1⟩ := ht.all h (by simpa using hf [] w ws rfl)
    obtain ⟨s2, e2, g2⟩ := ih s1 (l ++ w) g1 (by
      intro ws1 v ws2 e
      have := hf (w :: ws1) v ws2 (by rw [e]; rfl)
      simpa using this)
    refine ⟨s2, ?_, by simpa using g2⟩
    rw [writeAll, e1]
    exact e2

end Verif.SerStream
