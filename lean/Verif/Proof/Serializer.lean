import Verif.Spec.Serializer
import Verif.Proof.Stream
set_option linter.unusedSimpArgs false

/-! Lemmas for C19, C20 and C21. -/
namespace Verif.Serializer
open Verif.Stream Verif.Endian Verif.Spec.Serializer

theorem prefix_cases {α : Type} {p a b : List α} (h : p <+: a ++ b) : (p <+: a ∧ p ≠ a) ∨ ∃ q, p = a ++ q ∧ q <+: b := by
  by_cases hl : p.length < a.length
  · left
    exact ⟨List.prefix_of_prefix_length_le h (List.prefix_append a b) (by omega), by rintro rfl; omega⟩
  · right
    obtain ⟨q, rfl⟩ := List.prefix_of_prefix_length_le (List.prefix_append a b) h (by omega)
    exact ⟨q, rfl, by simpa using h⟩

/-- The decoder `ld` reads `v` from `bytes` in front of anything, and throws on every strict prefix. -/
structure Good {α : Type} (ld : Src → Res (α × Src)) (bytes : List UInt8) (v : α) : Prop where
  ok : ∀ s rest, s.rest = bytes ++ rest → ∃ s', ld s = .ok (v, s') ∧ s'.rest = rest
  short : ∀ s, s.rest <+: bytes → s.rest ≠ bytes → ld s = .throw

theorem Good.pure {α : Type} (v : α) : Good (fun s => .ok (v, s)) [] v where
  ok s rest h := ⟨s, rfl, by simpa using h⟩
  short s h1 h2 := by
    rw [List.prefix_nil] at h1; exact absurd h1 h2

theorem Good.bind {α β : Type} {l1 : Src → Res (α × Src)} {l2 : α → Src → Res (β × Src)} {b1 b2 : List UInt8} {v1 : α} {v2 : β}
    (h1 : Good l1 b1 v1) (h2 : Good (l2 v1) b2 v2) :
    Good (fun s => do let (a, s) ← l1 s; l2 a s) (b1 ++ b2) v2 where
  ok s rest h := by
    rw [List.append_assoc] at h
    obtain ⟨s1, e1, e2⟩ := h1.ok s _ h
    obtain ⟨s2, e3, e4⟩ := h2.ok s1 rest e2
    exact ⟨s2, by simp only [e1, Res.ok_bind, e3], e4⟩
  short s hp hne := by
    rcases prefix_cases hp with h | ⟨q, h, h'⟩
    · simp only [h1.short s h.1 h.2, Res.throw_bind]
    · obtain ⟨s1, e1, e2⟩ := h1.ok s q h
      simp only [e1, Res.ok_bind]
      apply h2.short s1
      · rw [e2]; exact h'
      · rw [e2]; rintro rfl; exact hne h

theorem Good.map {α β : Type} {l1 : Src → Res (α × Src)} {b1 : List UInt8} {v1 : α} (f : α → β) (h1 : Good l1 b1 v1) :
    Good (fun s => do let (a, s) ← l1 s; return (f a, s)) b1 (f v1) := by
  have := Good.bind (l2 := fun a s => .ok (f a, s)) h1 (Good.pure (f v1))
  simpa using this

theorem Good.congr {α : Type} {l1 l2 : Src → Res (α × Src)} {b : List UInt8} {v : α} (h : Good l1 b v) (e : ∀ s, l2 s = l1 s) :
    Good l2 b v := by
  have : l2 = l1 := funext e
  rw [this]; exact h

/-- A decoder that never leaves the defined part of the language. -/
def Safe {α : Type} (ld : Src → Res (α × Src)) : Prop := ∀ s, ld s ≠ .ub

theorem Safe.bind {α β : Type} {l1 : Src → Res (α × Src)} {l2 : α → Src → Res (β × Src)} (h1 : Safe l1) (h2 : ∀ a, Safe (l2 a)) :
    Safe (fun s => do let (a, s) ← l1 s; l2 a s) := by
  intro s
  cases h : l1 s with
  | ok p => simpa [h] using h2 p.1 p.2
  | throw => simp [h]
  | ub => exact absurd h (h1 s)

theorem Safe.map {α β : Type} {l1 : Src → Res (α × Src)} (f : α → β) (h1 : Safe l1) :
    Safe (fun s => do let (a, s) ← l1 s; return (f a, s)) :=
  Safe.bind (l2 := fun a s => .ok (f a, s)) h1 (fun a s => by simp)

/-! ## PODs and integers -/

theorem loadRange_good (bs : List UInt8) : Good (loadRange bs.length) bs bs where
  ok s rest h := by
    obtain ⟨s', e1, e2, e3⟩ := read_ok (List.replicate bs.length 0) bs.length s (by simp) (by simp [h])
    refine ⟨s', ?_, by rw [e2, h]; simp⟩
    rw [loadRange, e1, h]; simp
  short s hp hne := by
    rw [loadRange, read_throw _ _ _ (by simp)]
    have := hp.length_le
    rcases Nat.lt_or_ge s.rest.length bs.length with h | h
    · exact h
    · exact absurd (hp.eq_of_length (by omega)) hne

theorem loadRange_safe (n : Nat) : Safe (loadRange n) := by
  intro s
  by_cases h : n ≤ s.rest.length
  · obtain ⟨s', e1, _⟩ := read_ok (List.replicate n 0) n s (by simp) h
    rw [loadRange, e1]; simp
  · rw [loadRange, read_throw _ _ _ (by simp) (by omega)]; simp

theorem ofNat_memLoad (n x : Nat) : BitVec.ofNat (8 * n) (memLoad (memBytes n x)) = BitVec.ofNat (8 * n) x := by
  rw [memLoad_memBytes]
  apply BitVec.eq_of_toNat_eq
  rw [BitVec.toNat_ofNat, BitVec.toNat_ofNat, show (256 : Nat) ^ n = 2 ^ (8 * n) by rw [Nat.pow_mul]]
  exact Nat.mod_mod _ _

theorem loadPod_good (n x : Nat) : Good (loadPod n) (savePod n x) (BitVec.ofNat (8 * n) x) := by
  have h := loadRange_good (memBytes n x)
  rw [memBytes_length] at h
  have := h.map (fun c => BitVec.ofNat (8 * n) (memLoad c))
  rw [ofNat_memLoad] at this
  exact this

theorem loadPod_safe (n : Nat) : Safe (loadPod n) :=
  (loadRange_safe n).map (fun c => BitVec.ofNat (8 * n) (memLoad c))

theorem byte_good (w h : Nat) {b : List UInt8} {v : BitVec w} (hh : h < 256) (hg : Good (loadBody w h) b v) :
    Good (loadVariableInt w) (savePod 1 h ++ b) v := by
  have h1 := loadPod_good 1 h
  have e : (BitVec.ofNat (8 * 1) h).toNat = h := by simp; omega
  exact Good.bind (l2 := fun (h : BitVec (8 * 1)) s => loadBody w h.toNat s) h1 (by rw [e]; exact hg)

theorem variable_good (w : Nat) (hw : w = 32 ∨ w = 64) (x : BitVec w) :
    Good (loadVariableInt w) (saveVariableInt x) x := by
  rw [saveVariableInt]
  have pod : ∀ (n : Nat) (y : BitVec (8 * n)), Good (loadPod n) (savePod n y.toNat) y := by
    intro n y
    have := loadPod_good n y.toNat
    simpa using this
  by_cases c1 : recoverableS 8 x = true
  · rw [if_pos c1]
    rw [recoverableS, decide_eq_true_eq] at c1
    have hlt := (x.setWidth 8).isLt
    by_cases c2 : ((x.setWidth 8).toNat + 2 ^ 32 - 0x80) % 2 ^ 32 ≤ 7
    · simp only [if_pos c2]
      apply byte_good _ _ (by omega)
      have := (pod 1 (x.setWidth 8)).map (fun v => v.signExtend w)
      rw [show BitVec.signExtend w (x.setWidth 8) = x from c1] at this
      exact this
    · simp only [if_neg c2, List.nil_append]
      have := byte_good w (x.setWidth 8).toNat (b := []) (v := x) hlt ?_
      · simpa using this
      · have h80 : (x.setWidth 8).toNat < 0x80 ∨ 0x87 < (x.setWidth 8).toNat := by omega
        have := Good.pure x
        apply this.congr
        intro s
        rw [loadBody]
        rw [if_neg (by omega), if_neg (by omega), if_neg (by omega), if_neg (by omega), if_neg (by omega), if_neg (by omega),
          if_neg (by omega), if_neg (by omega)]
        simp only [BitVec.ofNat_toNat, BitVec.setWidth_eq, c1]
  rw [if_neg c1]
  by_cases c2 : recoverableU 8 x = true
  · rw [if_pos c2]
    rw [recoverableU, decide_eq_true_eq] at c2
    apply byte_good _ _ (by omega)
    have := (pod 1 (x.setWidth 8)).map (fun v => v.setWidth w)
    rw [show BitVec.setWidth w (x.setWidth 8) = x from c2] at this
    exact this
  rw [if_neg c2]
  by_cases c3 : (recoverableU 16 x || recoverableS 16 x) = true
  · rw [if_pos c3]
    by_cases c4 : recoverableU 16 x = true
    · rw [if_pos c4]
      rw [recoverableU, decide_eq_true_eq] at c4
      apply byte_good _ _ (by omega)
      have := (pod 2 (x.setWidth 16)).map (fun v => v.setWidth w)
      rw [show BitVec.setWidth w (x.setWidth 16) = x from c4] at this
      exact this
    · rw [if_neg c4]
      have c5 : recoverableS 16 x = true := by simpa [c4] using c3
      rw [recoverableS, decide_eq_true_eq] at c5
      apply byte_good _ _ (by omega)
      have := (pod 2 (x.setWidth 16)).map (fun v => v.signExtend w)
      rw [show BitVec.signExtend w (x.setWidth 16) = x from c5] at this
      exact this
  rw [if_neg c3]
  by_cases c4 : (recoverableU 32 x || recoverableS 32 x) = true
  · rw [if_pos c4]
    by_cases c5 : recoverableU 32 x = true
    · rw [if_pos c5]
      rw [recoverableU, decide_eq_true_eq] at c5
      apply byte_good _ _ (by omega)
      have := (pod 4 (x.setWidth 32)).map (fun v => v.setWidth w)
      rw [show BitVec.setWidth w (x.setWidth 32) = x from c5] at this
      exact this
    · rw [if_neg c5]
      have c6 : recoverableS 32 x = true := by simpa [c5] using c4
      rw [recoverableS, decide_eq_true_eq] at c6
      apply byte_good _ _ (by omega)
      have := (pod 4 (x.setWidth 32)).map (fun v => v.signExtend w)
      rw [show BitVec.signExtend w (x.setWidth 32) = x from c6] at this
      exact this
  rw [if_neg c4]
  rcases hw with rfl | rfl
  · exfalso
    apply c4
    simp [recoverableU]
  · apply byte_good _ _ (by omega)
    have := (pod 8 (x.setWidth 64)).map (fun v => v.setWidth 64)
    rw [show BitVec.setWidth 64 (x.setWidth 64) = x by simp] at this
    exact this

theorem variable_safe (w : Nat) : Safe (loadVariableInt w) := by
  apply Safe.bind (l2 := fun (h : BitVec (8 * 1)) s => loadBody w h.toNat s) (loadPod_safe 1)
  intro h s
  have p : ∀ n (f : BitVec (8 * n) → BitVec w), (do let (v, s) ← loadPod n s; return (f v, s) : Res (BitVec w × Src)) ≠ .ub :=
    fun n f => (loadPod_safe n).map f s
  show loadBody w h.toNat s ≠ .ub
  rw [loadBody]
  split; · exact p _ _
  split; · exact p _ _
  split; · exact p _ _
  split
  · split
    · simp
    · exact p _ _
  split; · exact p _ _
  split; · exact p _ _
  split; · exact p _ _
  split
  · split
    · simp
    · exact p _ _
  simp

theorem loadSize_good (n : Nat) (h : n < 2 ^ 64) : Good loadSize (saveSize n) n := by
  have := (variable_good 64 (.inr rfl) (BitVec.ofNat 64 n)).map (fun v => v.toNat)
  rw [BitVec.toNat_ofNat, Nat.mod_eq_of_lt h] at this
  exact this

theorem loadSize_safe : Safe loadSize := (variable_safe 64).map (fun v : BitVec 64 => v.toNat)

theorem marker_length (c : Prop) [Decidable c] : (if c then memBytes 1 132 else []).length ≤ 1 := by
  split <;> simp

theorem variable_length (w : Nat) (x : BitVec w) (hw : w = 32 ∨ w = 64) : (saveVariableInt x).length ≤ 1 + w / 8 := by
  have hm := marker_length (((BitVec.setWidth 8 x).toNat + 2 ^ 32 - 128) % 2 ^ 32 ≤ 7)
  rw [saveVariableInt]
  by_cases c4 : (recoverableU 32 x || recoverableS 32 x) = true
  · have : (if (recoverableU 32 x || recoverableS 32 x) = true then
        savePod 1 (if recoverableU 32 x then 0x82 else 0x86) ++ savePod 4 (x.setWidth 32).toNat
        else savePod 1 0x83 ++ savePod 8 (x.setWidth 64).toNat).length = 5 := by rw [if_pos c4]; simp [savePod]
    repeat' split
    all_goals (try simp only [savePod, List.length_append, memBytes_length, List.length_nil])
    all_goals omega
  · have h64 : w = 64 := by
      rcases hw with rfl | rfl
      · exact absurd (by simp [recoverableU]) c4
      · rfl
    subst h64
    repeat' split
    all_goals (try simp only [savePod, List.length_append, memBytes_length, List.length_nil])
    all_goals omega

/-! ## Sequences -/

theorem loadMany_good {α β : Type} {ld : Src → Res (α × Src)} {sv : α → List UInt8} (add : β → α → β) (l : List α)
    (h : ∀ x ∈ l, Good ld (sv x) x) : ∀ acc, Good (loadMany ld add l.length acc) (l.map sv).flatten (l.foldl add acc) := by
  induction l with
  | nil => intro acc; exact Good.pure acc
  | cons x l ih =>
    intro acc
    exact Good.bind (l2 := fun t s => loadMany ld add l.length (add acc t) s) (h x (by simp))
      (ih (fun y hy => h y (by simp [hy])) (add acc x))

theorem loadMany_safe {α β : Type} {ld : Src → Res (α × Src)} (add : β → α → β) (h : Safe ld) :
    ∀ n acc, Safe (loadMany ld add n acc) := by
  intro n
  induction n with
  | zero => intro acc s; simp [loadMany]
  | succ n ih => intro acc; exact Safe.bind (l2 := fun t s => loadMany ld add n (add acc t) s) h (fun t => ih _)

theorem sized_good {α : Type} {f : Nat → Src → Res (α × Src)} {n : Nat} {b : List UInt8} {v : α} (hn : n < 2 ^ 64) (h : Good (f n) b v) :
    Good (fun s => do let (size, s) ← loadSize s; f size s) (saveSize n ++ b) v :=
  Good.bind (loadSize_good n hn) h

theorem foldl_append_one {α : Type} (l : List α) : ∀ acc, l.foldl (fun x e => x ++ [e]) acc = acc ++ l := by
  induction l with
  | nil => intro acc; simp
  | cons x l ih => intro acc; simp [ih]

theorem setInsert_last {α : Type} (lt : α → α → Bool) (x : α) (l : List α) (h : ∀ y ∈ l, lt y x = true) :
    setInsert lt l x = l ++ [x] := by
  induction l with
  | nil => rfl
  | cons y l ih => rw [setInsert, h y (by simp)]; simp [ih (fun z hz => h z (by simp [hz]))]

theorem foldl_setInsert {α : Type} (lt : α → α → Bool) (l : List α) : ∀ acc,
    (acc ++ l).Pairwise (fun a b => lt a b = true) → l.foldl (setInsert lt) acc = acc ++ l := by
  induction l with
  | nil => intro acc _; simp
  | cons x l ih =>
    intro acc h
    rw [List.foldl_cons, setInsert_last lt x acc, ih]
    · simp
    · simpa using h
    · intro y hy
      rw [List.pairwise_append] at h
      exact h.2.2 y hy x (by simp)

theorem mapInsert_last {α β : Type} (lt : α → α → Bool) (x : α × β) (l : List (α × β)) (h : ∀ y ∈ l, lt y.1 x.1 = true) :
    mapInsert lt l x = l ++ [x] := by
  induction l with
  | nil => rfl
  | cons y l ih => rw [mapInsert, h y (by simp)]; simp [ih (fun z hz => h z (by simp [hz]))]

theorem foldl_mapInsert {α β : Type} (lt : α → α → Bool) (l : List (α × β)) : ∀ acc,
    (acc ++ l).Pairwise (fun a b => lt a.1 b.1 = true) → l.foldl (mapInsert lt) acc = acc ++ l := by
  induction l with
  | nil => intro acc _; simp
  | cons x l ih =>
    intro acc h
    rw [List.foldl_cons, mapInsert_last lt x acc, ih]
    · simp
    · simpa using h
    · intro y hy
      rw [List.pairwise_append] at h
      exact h.2.2 y hy x (by simp)

theorem foldl_umapInsert {α β : Type} (same : α → α → Bool) (l : List (α × β)) : ∀ acc,
    (acc ++ l).Pairwise (fun a b => same a.1 b.1 = false) → l.foldl (umapInsert same) acc = acc ++ l := by
  induction l with
  | nil => intro acc _; simp
  | cons x l ih =>
    intro acc h
    have hn : (acc.any fun y => same y.1 x.1) = false := by
      rw [List.any_eq_false]
      intro y hy
      rw [List.pairwise_append] at h
      simpa using h.2.2 y hy x (by simp)
    rw [List.foldl_cons, umapInsert, hn, if_neg (by simp), ih]
    · simp
    · simpa using h

theorem chunks_save (n : Nat) (v : List (BitVec (8 * n))) :
    chunks n v.length (v.map fun x => savePod n x.toNat).flatten = v := by
  induction v with
  | nil => rfl
  | cons x v ih =>
    rw [List.length_cons, chunks, List.map_cons, List.flatten_cons, List.take_left' (by simp [savePod]),
      List.drop_left' (by simp [savePod]), ih, savePod, ofNat_memLoad]
    simp

theorem podVec_bytes (n : Nat) (v : List (BitVec (8 * n))) : (v.map fun x => savePod n x.toNat).flatten.length = v.length * n := by
  induction v with
  | nil => simp
  | cons x v ih => rw [List.map_cons, List.flatten_cons, List.length_append, ih, savePod, memBytes_length, List.length_cons,
      Nat.add_mul]; omega

theorem loadElems_good (n size : Nat) (b : List UInt8) (hb : b.length = size * n) : Good (loadElems n size) b b := by
  by_cases h : size > 0
  · have := loadRange_good b
    rw [hb] at this
    apply this.congr
    intro s; rw [loadElems, if_pos h]
  · have h0 : size = 0 := by omega
    subst h0
    have : b = [] := by simpa using hb
    subst this
    apply (Good.pure _).congr
    intro s; rw [loadElems, if_neg h]

theorem loadElems_safe (n size : Nat) : Safe (loadElems n size) := by
  intro s
  rw [loadElems]
  split
  · exact loadRange_safe _ s
  · simp

theorem podVec_good (n : Nat) (hn : 0 < n) (v : List (BitVec (8 * n))) (hv : v.length * n < 2 ^ 63) :
    Good (loadPodVec n) (savePodVec n v) v := by
  have hl : v.length ≤ v.length * n := Nat.le_mul_of_pos_right _ hn
  apply sized_good (f := fun size s => if size * n ≥ 2 ^ 63 then .throw else do
    let (c, s) ← loadElems n size s
    return (chunks n size c, s)) (by omega)
  have := (loadElems_good n v.length _ (podVec_bytes n v)).map (fun c => chunks n v.length c)
  rw [chunks_save] at this
  apply this.congr
  intro s
  rw [if_neg (by omega)]

theorem podVec_safe (n : Nat) : Safe (loadPodVec n) := by
  apply Safe.bind (l2 := fun size s => if size * n ≥ 2 ^ 63 then .throw else do
    let (c, s) ← loadElems n size s
    return (chunks n size c, s)) loadSize_safe
  intro size s
  split
  · simp
  · exact (loadElems_safe n size).map (fun c => chunks n size c) s

theorem str_good (x : List UInt8) (hx : x.length < 2 ^ 63) : Good loadStr (saveStr x) x := by
  apply sized_good (f := fun size s => if size ≥ 2 ^ 63 then .throw else loadElems 1 size s) (by omega)
  apply (loadElems_good 1 x.length x (by omega)).congr
  intro s
  rw [if_neg (by omega)]

theorem str_safe : Safe loadStr := by
  apply Safe.bind (l2 := fun size s => if size ≥ 2 ^ 63 then .throw else loadElems 1 size s) loadSize_safe
  intro size s
  split
  · simp
  · exact loadElems_safe 1 size s

theorem pair_good {α β : Type} {l1 : Src → Res (α × Src)} {l2 : Src → Res (β × Src)} {b1 b2 : List UInt8} {x : α} {y : β}
    (h1 : Good l1 b1 x) (h2 : Good l2 b2 y) : Good (loadPair l1 l2) (b1 ++ b2) (x, y) :=
  Good.bind (l2 := fun a s => do let (b, s) ← l2 s; return ((a, b), s)) h1 (h2.map (fun b => (x, b)))

theorem pair_safe {α β : Type} {l1 : Src → Res (α × Src)} {l2 : Src → Res (β × Src)} (h1 : Safe l1) (h2 : Safe l2) :
    Safe (loadPair l1 l2) :=
  Safe.bind (l2 := fun a s => do let (b, s) ← l2 s; return ((a, b), s)) h1 (fun a => h2.map (fun b => (a, b)))

variable (ord same : (t : Ty) → Val t → Val t → Bool)

/-- What `load` makes of the serialized `x` when the destination held `old`. -/
def loaded : (t : Ty) → (old x : Val t) → Val t
  | .set k, old, x => List.foldl (setInsert (ord k)) old x
  | .map k _, old, x => List.foldl (mapInsert (ord k)) old x
  | .umap k _, old, x => List.foldl (umapInsert (same k)) old x
  | .pod _, _, x => x
  | .int _, _, x => x
  | .str, _, x => x
  | .podVec _, _, x => x
  | .seq _, _, x => x

theorem loaded_default (t : Ty) (x : Val t) (h : Valid ord same t x) : loaded ord same t (default t) x = x := by
  cases t with
  | set k => exact foldl_setInsert (ord k) x [] (by simpa using h.2.2)
  | map k v => exact foldl_mapInsert (ord k) x [] (by simpa using h.2.2)
  | umap k v => exact foldl_umapInsert (same k) x [] (by simpa using h.2.2)
  | _ => rfl

theorem load_good (t : Ty) : ∀ (old x : Val t), Valid ord same t x →
    Good (load ord same t old) (save t x) (loaded ord same t old x) := by
  induction t with
  | pod n =>
    intro old x _
    have := loadPod_good n x.toNat
    simpa [load, save, loaded] using this
  | int l => intro old x _; exact variable_good _ (by cases l <;> simp [width]) x
  | str => intro old x h; exact str_good x h
  | podVec n => intro old x h; exact podVec_good n h.1 x h.2
  | seq t ih =>
    intro old x h
    have hm := loadMany_good (ld := load ord same t (default t)) (sv := save t) (fun x e => x ++ [e]) x
      (fun e he => by have := ih (default t) e (h.2 e he); rw [loaded_default ord same t e (h.2 e he)] at this; exact this) []
    rw [foldl_append_one, List.nil_append] at hm
    exact sized_good (f := fun size s => loadMany (load ord same t (default t)) (fun x e => x ++ [e]) size [] s) h.1 hm
  | set k ih =>
    intro old x h
    have hm := loadMany_good (ld := load ord same k (default k)) (sv := save k) (setInsert (ord k)) x
      (fun e he => by have := ih (default k) e (h.2.1 e he); rw [loaded_default ord same k e (h.2.1 e he)] at this; exact this) old
    exact sized_good (f := fun size s => loadMany (load ord same k (default k)) (setInsert (ord k)) size old s) h.1 hm
  | map k v ihk ihv =>
    intro old x h
    have hm := loadMany_good (ld := loadPair (load ord same k (default k)) (load ord same v (default v)))
      (sv := fun p => save k p.1 ++ save v p.2) (mapInsert (ord k)) x
      (fun e he => by
        have h1 := ihk (default k) e.1 (h.2.1 e he).1
        have h2 := ihv (default v) e.2 (h.2.1 e he).2
        rw [loaded_default ord same k _ (h.2.1 e he).1] at h1
        rw [loaded_default ord same v _ (h.2.1 e he).2] at h2
        exact pair_good h1 h2) old
    exact sized_good (f := fun size s => loadMany (loadPair (load ord same k (default k)) (load ord same v (default v)))
      (mapInsert (ord k)) size old s) h.1 hm
  | umap k v ihk ihv =>
    intro old x h
    have hm := loadMany_good (ld := loadPair (load ord same k (default k)) (load ord same v (default v)))
      (sv := fun p => save k p.1 ++ save v p.2) (umapInsert (same k)) x
      (fun e he => by
        have h1 := ihk (default k) e.1 (h.2.1 e he).1
        have h2 := ihv (default v) e.2 (h.2.1 e he).2
        rw [loaded_default ord same k _ (h.2.1 e he).1] at h1
        rw [loaded_default ord same v _ (h.2.1 e he).2] at h2
        exact pair_good h1 h2) old
    exact sized_good (f := fun size s => loadMany (loadPair (load ord same k (default k)) (load ord same v (default v)))
      (umapInsert (same k)) size old s) h.1 hm

theorem load_safe (t : Ty) : ∀ old, Safe (load ord same t old) := by
  induction t with
  | pod n => intro old; exact loadPod_safe n
  | int l => intro old; exact variable_safe _
  | str => intro old; exact str_safe
  | podVec n => intro old; exact podVec_safe n
  | seq t ih =>
    intro old
    exact Safe.bind (l2 := fun size s => loadMany (load ord same t (default t)) (fun x e => x ++ [e]) size [] s) loadSize_safe
      (fun size => loadMany_safe _ (ih _) size [])
  | set k ih =>
    intro old
    exact Safe.bind (l2 := fun size s => loadMany (load ord same k (default k)) (setInsert (ord k)) size old s) loadSize_safe
      (fun size => loadMany_safe _ (ih _) size old)
  | map k v ihk ihv =>
    intro old
    exact Safe.bind (l2 := fun size s => loadMany (loadPair (load ord same k (default k)) (load ord same v (default v)))
      (mapInsert (ord k)) size old s) loadSize_safe (fun size => loadMany_safe _ (pair_safe (ihk _) (ihv _)) size old)
  | umap k v ihk ihv =>
    intro old
    exact Safe.bind (l2 := fun size s => loadMany (loadPair (load ord same k (default k)) (load ord same v (default v)))
      (umapInsert (same k)) size old s) loadSize_safe (fun size => loadMany_safe _ (pair_safe (ihk _) (ihv _)) size old)

end Verif.Serializer
