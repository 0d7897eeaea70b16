import Verif.Proof.SparseUnion
import Mathlib.Algebra.Ring.Defs
set_option linter.unusedSimpArgs false

/-!
# C51, C52: sparse vectors
-/
namespace Verif.Props.Sparse
open Verif.Sparse Verif.Spec.Sparse

/-! ## A user of a vector -/

/-- One operation of a user on the vector; an exception of `push_back` is caught. -/
def drive1 {P T : Type} [PosTbl P] (s : SVec P T) : Op T → Res (Ev T × SVec P T)
  | .push p x => do
    let (b, s) ← s.pushBack p x
    return (if b then .threw else .pushed, s)
  | .iterate => do
    let (l, s) ← s.iterate
    return (.listed l, s)
  | .clear => .ok (.cleared, SVec.empty)

/-- A history of operations. -/
def drive {P T : Type} [PosTbl P] : SVec P T → List (Op T) → Res (List (Ev T) × SVec P T)
  | s, [] => .ok ([], s)
  | s, op :: ops => do
    let (e, s) ← drive1 s op
    let (es, s) ← drive s ops
    return (e :: es, s)

/-- The positions given to `push_back` are values of `size_t`. -/
def Fits {T : Type} (ops : List (Op T)) : Prop := ∀ p x, Op.push p x ∈ ops → p < 2 ^ 64

section
variable {P T : Type} [Lawful P] [∀ ps p, Decidable (Lawful.accepts P ps p)]

theorem step_small (l : List (Nat × T)) (op : Op T) : (step (Lawful.accepts P) l op).2.length ≤ l.length + 1 := by
  cases op with
  | push p x => simp only [step]; split <;> simp
  | iterate => simp [step]
  | clear => simp [step]

theorem step_asc (l : List (Nat × T)) (h : Ascending l) (op : Op T) : Ascending (step (Lawful.accepts P) l op).2 := by
  cases op with
  | push p x =>
    simp only [step]
    split
    · rename_i ha
      have hl := Lawful.accepts_larger ha
      refine List.pairwise_append.2 ⟨h, by simp, fun a ha b hb => ?_⟩
      simp only [List.mem_singleton] at hb
      subst hb
      rcases List.eq_nil_or_concat l with rfl | ⟨l', q, rfl⟩
      · simp at ha
      · rw [List.concat_eq_append] at h ha hl
        have hq : q.1 < p := hl q.1 (by simp)
        rw [List.mem_append, List.mem_singleton] at ha
        obtain ha | rfl := ha
        · have := (List.pairwise_append.1 h).2.2 a ha q (by simp)
          simp only; omega
        · exact hq
    · exact h
  | iterate => exact h
  | clear => simp [step, Ascending]

theorem drive_ok (ops : List (Op T)) : ∀ (s : SVec P T) (l : List (Nat × T)), VRep s l → Fits ops → Ascending l →
    l.length + ops.length < 2 ^ 30 - 1 →
    ∃ s', drive s ops = .ok ((run (Lawful.accepts P) l ops).1, s') ∧ VRep s' (run (Lawful.accepts P) l ops).2 ∧
      Ascending (run (Lawful.accepts P) l ops).2 ∧ (run (Lawful.accepts P) l ops).2.length < 2 ^ 30 - 1 := by
  induction ops with
  | nil => intro s l h _ ha hl; exact ⟨s, rfl, h, ha, by simpa [run] using hl⟩
  | cons op ops ih =>
    intro s l h hf ha hl
    simp only [List.length_cons] at hl
    have hs : ∃ s1, drive1 s op = .ok ((step (Lawful.accepts P) l op).1, s1) ∧ VRep s1 (step (Lawful.accepts P) l op).2 := by
      cases op with
      | push p x =>
        obtain ⟨b, s', e, hx⟩ := push_ok h p x (hf p x (by simp))
        rw [drive1, e]
        simp only [Res.ok_bind, Res.pure_eq, step]
        obtain ⟨h1, rfl, h3⟩ | ⟨h1, rfl, h3⟩ := hx
        · exact ⟨s', by simp [h1], by simpa [h1] using h3⟩
        · exact ⟨s', by simp [h1], by simpa [h1] using h3⟩
      | iterate =>
        obtain ⟨s', e, h'⟩ := iterate_ok h (by omega)
        exact ⟨s', by rw [drive1, e]; rfl, h'⟩
      | clear => exact ⟨SVec.empty, rfl, Lawful.empty_ok, rfl⟩
    obtain ⟨s1, e1, r1⟩ := hs
    have hsm := step_small (P := P) l op
    obtain ⟨s2, e2, r2, a2, l2⟩ := ih s1 _ r1 (fun p x hm => hf p x (by simp [hm])) (step_asc (P := P) l ha op) (by omega)
    refine ⟨s2, ?_, r2, a2, l2⟩
    rw [drive, e1]
    simp only [Res.ok_bind, e2, Res.pure_eq, run]
end

/-! ## C51 -/

/-- C51: any history of `push_back` (an exception of which is caught), iteration and `clear` on a vector with compressed
positions shows what the list of pairs shows: iteration gives exactly the pairs pushed, in order; `push_back` throws exactly when
the position is not larger than the last one or `2^30` or more behind it, and then the pairs are unchanged. -/
theorem C51_compressed_history {T : Type} (ops : List (Op T)) (hf : Fits ops) (hl : ops.length < 2 ^ 30 - 1) :
    ∃ s, drive (SVec.empty : SVec CTbl T) ops = .ok ((run compressedAccepts [] ops).1, s) := by
  letI : ∀ ps p, Decidable (Lawful.accepts CTbl ps p) := fun ps p => inferInstanceAs (Decidable (compressedAccepts ps p))
  obtain ⟨s, e, -⟩ := drive_ok (P := CTbl) ops SVec.empty [] ⟨Lawful.empty_ok, rfl⟩ hf .nil (by simpa using hl)
  exact ⟨s, e⟩

/-- C51: the same for the plain table, which takes every larger position below `2^32`. -/
theorem C51_plain_history {T : Type} (ops : List (Op T)) (hf : Fits ops) (hl : ops.length < 2 ^ 30 - 1) :
    ∃ s, drive (SVec.empty : SVec PTbl T) ops = .ok ((run plainAccepts [] ops).1, s) := by
  letI : ∀ ps p, Decidable (Lawful.accepts PTbl ps p) := fun ps p => inferInstanceAs (Decidable (plainAccepts ps p))
  obtain ⟨s, e, -⟩ := drive_ok (P := PTbl) ops SVec.empty [] ⟨Lawful.empty_ok, rfl⟩ hf .nil (by simpa using hl)
  exact ⟨s, e⟩

example : Fits [Op.push 5 'a', .iterate, .push (5 + 2 ^ 30) 'b', .push 20000 'c', .push 5 'd', .iterate] ∧
    (run compressedAccepts [] [Op.push 5 'a', .iterate, .push (5 + 2 ^ 30) 'b', .push 20000 'c', .push 5 'd', .iterate]).1 =
      [.pushed, .listed [(5, 'a')], .threw, .pushed, .threw, .listed [(5, 'a'), (20000, 'c')]] := by
  refine ⟨?_, by decide +kernel⟩
  intro p x h
  simp only [List.mem_cons, List.not_mem_nil, or_false, Op.push.injEq, reduceCtorEq, false_or] at h
  obtain ⟨rfl, -⟩ | ⟨rfl, -⟩ | ⟨rfl, -⟩ | ⟨rfl, -⟩ := h <;> decide

/-- The vector `s` is the result of a history whose pairs are `l`. -/
def Built {P T : Type} [PosTbl P] (accepts : List Nat → Nat → Prop) [∀ ps p, Decidable (accepts ps p)] (s : SVec P T)
    (l : List (Nat × T)) : Prop :=
  ∃ ops es, Fits ops ∧ ops.length < 2 ^ 30 - 1 ∧ drive SVec.empty ops = .ok (es, s) ∧ (run accepts [] ops).2 = l

theorem built_rep {P T : Type} [Lawful P] [∀ ps p, Decidable (Lawful.accepts P ps p)] {s : SVec P T} {l : List (Nat × T)}
    (h : Built (Lawful.accepts P) s l) : VRep s l ∧ Ascending l ∧ l.length < 2 ^ 30 - 1 := by
  obtain ⟨ops, es, hf, hl, e, rfl⟩ := h
  obtain ⟨s', e', h1, h2, h3⟩ := drive_ok (P := P) ops SVec.empty [] ⟨Lawful.empty_ok, rfl⟩ hf .nil (by simpa using hl)
  rw [e] at e'
  simp only [Res.ok.injEq, Prod.mk.injEq] at e'
  obtain ⟨-, rfl⟩ := e'
  exact ⟨h1, h2, h3⟩

/-- Either table; `accepts` is `compressedAccepts` or `plainAccepts`. -/
class Table (P : Type) extends Lawful P where
  dec : ∀ ps p, Decidable (Lawful.accepts P ps p)

instance : Table CTbl := { dec := fun ps p => inferInstanceAs (Decidable (compressedAccepts ps p)) }
instance : Table PTbl := { dec := fun ps p => inferInstanceAs (Decidable (plainAccepts ps p)) }
instance {P : Type} [Table P] (ps : List Nat) (p : Nat) : Decidable (Lawful.accepts P ps p) := Table.dec ps p

example : (Lawful.accepts CTbl) = compressedAccepts ∧ (Lawful.accepts PTbl) = plainAccepts := ⟨rfl, rfl⟩

/-- C51: `operator==` of two vectors is equality of the pairs. -/
theorem C51_eq {P T : Type} [Table P] [DecidableEq T] (s1 s2 : SVec P T) (l1 l2 : List (Nat × T))
    (h1 : Built (Lawful.accepts P) s1 l1) (h2 : Built (Lawful.accepts P) s2 l2) : s1.eq s2 = .ok (decide (l1 = l2)) := by
  obtain ⟨r1, -, n1⟩ := built_rep h1
  obtain ⟨r2, -, n2⟩ := built_rep h2
  rw [SVec.eq]
  have e1 : s1.vec.length = l1.length := by rw [r1.2]; simp
  have e2 : s2.vec.length = l2.length := by rw [r2.2]; simp
  by_cases hl : l1.length = l2.length
  · rw [if_neg (by rw [e1, e2, hl]; simp)]
    obtain ⟨s1', c1, b1, y1, v1, a1⟩ := begin_ok r1 n1
    obtain ⟨s2', c2, b2, y2, v2, a2⟩ := begin_ok r2 n2
    rw [b1, b2]
    simp only [Res.ok_bind]
    rw [eqLoop_ok y1 y2 hl _ 0 c1 c2 a1 a2 (by rw [v1, e1]; omega)]
    simp
  · rw [if_pos (by rw [e1, e2]; exact hl)]
    have : l1 ≠ l2 := fun h => hl (by rw [h])
    simp [this]

/-- `++` applied `n` times. -/
def advance {P T : Type} [PosTbl P] (s : SVec P T) : Nat → PosTbl.Curr P → Res (PosTbl.Curr P)
  | 0, c => .ok c
  | n + 1, c => do
    let c ← s.next c
    advance s n c

theorem advance_ok {P T : Type} [Lawful P] {s : SVec P T} {l : List (Nat × T)} (h : VReady s l) (n : Nat) : ∀ (i : Nat)
    (c : PosTbl.Curr P), At l i c → i + n ≤ l.length → ∃ c', advance s n c = .ok c' ∧ At l (i + n) c' := by
  induction n with
  | zero => intro i c hc _; exact ⟨c, rfl, hc⟩
  | succ n ih =>
    intro i c hc hi
    obtain ⟨c1, e1, h1⟩ := next_ok h hc (by omega)
    obtain ⟨c2, e2, h2⟩ := ih (i + 1) c1 h1 (by omega)
    refine ⟨c2, ?_, by rw [show i + (n + 1) = i + 1 + n by omega]; exact h2⟩
    rw [advance, e1]; exact e2

/-- C51: an iterator that stands at an element keeps its position and value over a successful `push_back`, and `++` takes it
to the next element, the new one if it stood at the last. -/
theorem C51_iterator_survives_push {P T : Type} [Table P] (s : SVec P T) (l : List (Nat × T))
    (h : Built (Lawful.accepts P) s l) (i : Nat) (hi : i < l.length) (p : Nat) (x : T) (hp : p < 2 ^ 64)
    (ha : Lawful.accepts P (l.map Prod.fst) p) (hl : l.length + 1 < 2 ^ 30 - 1) :
    ∃ s1 c0 c s2, s.begin = .ok (s1, c0) ∧ advance s1 i c0 = .ok c ∧ s1.pushBack p x = .ok (false, s2) ∧
      s2.pos c = .ok l[i].1 ∧ s2.val c = .ok l[i].2 ∧
      ∃ c', s2.next c = .ok c' ∧ s2.pos c' = .ok ((l ++ [(p, x)])[i + 1]'(by simp; omega)).1 ∧
        s2.val c' = .ok ((l ++ [(p, x)])[i + 1]'(by simp; omega)).2 := by
  obtain ⟨r, -, n⟩ := built_rep h
  obtain ⟨s1, c0, b, y, -, a⟩ := begin_ok r n
  obtain ⟨c, ec, hc⟩ := advance_ok y i 0 c0 a (by omega)
  rw [Nat.zero_add] at hc
  obtain ⟨bb, s', e, ⟨-, rfl, r⟩ | ⟨hn, -⟩⟩ := push_ok y.rep p x hp
  · have hc' : At (l ++ [(p, x)]) i c := by
      have := Lawful.iter_push p hc (by simpa using hi)
      rw [At, List.map_append]; exact this
    obtain ⟨c', en, hn⟩ := Lawful.next_ok r.1 (by simpa using hl) hc' (by simp; omega) (.inl (by simp; omega))
    refine ⟨s1, c0, c, s', b, ec, e, ?_, ?_, c', en, ?_, ?_⟩
    · rw [pos_ok r hc' (by simp; omega), List.getElem_append_left hi]
    · rw [val_ok r hc' (by simp; omega), List.getElem_append_left hi]
    · rw [pos_ok r hn (by simp; omega)]
    · rw [val_ok r hn (by simp; omega)]
  · exact absurd ha hn

/-- C51 finding: an iterator at the last element of a compressed vector is broken by a `push_back` that throws: the failed call
removed the dummy, so `++` reads outside the table. -/
theorem C51_finding_failed_push_breaks_iterator :
    (do
      let (_, s) ← (SVec.empty : SVec CTbl Nat).pushBack 5 1
      let (s, c) ← s.begin
      let (thrown, s) ← s.pushBack 5 2
      let c ← s.next c
      if thrown then s.next c else .throw : Res (PosTbl.Curr CTbl)) = .ub ∧
    (do
      let (_, s) ← (SVec.empty : SVec CTbl Nat).pushBack 5 1
      let (s, c) ← s.begin
      let (thrown, s) ← s.pushBack 5 2
      let c ← s.next c
      return (thrown, s.isEnd c) : Res (Bool × Bool)) = .ub := by
  constructor <;> rfl

/-! ## C52 -/

section
variable {P1 P2 T1 T2 : Type} [Table P1] [Table P2] (s1 : SVec P1 T1) (s2 : SVec P2 T2) (l1 : List (Nat × T1)) (l2 : List (Nat × T2))

theorem intersection_ok (h1 : Built (Lawful.accepts P1) s1 l1) (h2 : Built (Lawful.accepts P2) s2 l2) :
    Intersection.iterate s1 s2 = .ok (inter l1 l2) := by
  obtain ⟨r1, o1, n1⟩ := built_rep h1
  obtain ⟨r2, o2, n2⟩ := built_rep h2
  obtain ⟨s1', c1, b1, y1, v1, a1⟩ := begin_ok r1 n1
  obtain ⟨s2', c2, b2, y2, v2, a2⟩ := begin_ok r2 n2
  obtain ⟨it, e, f⟩ := ifirst_ok y1 y2 o1 o2 c1 c2 a1 a2
  have hv : s1'.vec.length = l1.length := by rw [y1.rep.2]; simp
  rw [Intersection.iterate, b1, b2]
  simp only [Res.ok_bind, e]
  exact interLoop_ok y1 y2 o1 o2 _ 0 _ it f (by omega) (by omega)

/-- C52: iterating an `Intersection` gives exactly the positions of both vectors, with both values, in ascending order. -/
theorem C52_intersection (h1 : Built (Lawful.accepts P1) s1 l1) (h2 : Built (Lawful.accepts P2) s2 l2) :
    ∃ L, Intersection.iterate s1 s2 = .ok L ∧ Ascending L ∧ ∀ p x y, (p, x, y) ∈ L ↔ (p, x) ∈ l1 ∧ (p, y) ∈ l2 :=
  ⟨_, intersection_ok s1 s2 l1 l2 h1 h2, inter_asc l2 (built_rep h1).2.1, inter_mem (built_rep h2).2.1⟩

/-- C52: iterating a `Union` gives exactly the positions of either vector, a missing value being 0, in ascending order. -/
theorem C52_union [Zero T1] [Zero T2] (h1 : Built (Lawful.accepts P1) s1 l1) (h2 : Built (Lawful.accepts P2) s2 l2) :
    ∃ L, Union.iterate s1 s2 = .ok L ∧ Ascending L ∧
      ∀ p x y, (p, x, y) ∈ L ↔ (p ∈ l1.map Prod.fst ∨ p ∈ l2.map Prod.fst) ∧ x = dense l1 p ∧ y = dense l2 p := by
  obtain ⟨r1, o1, n1⟩ := built_rep h1
  obtain ⟨r2, o2, n2⟩ := built_rep h2
  refine ⟨merge l1 l2, ?_, merge_asc l1 l2 o1 o2, merge_mem l1 l2 o1 o2⟩
  obtain ⟨s1', c1, b1, y1, v1, a1⟩ := begin_ok r1 n1
  obtain ⟨s2', c2, b2, y2, v2, a2⟩ := begin_ok r2 n2
  obtain ⟨it, e, f⟩ := detect_ok y1 y2 0 0 ⟨c1, c2, .end, 0⟩ a1 a2
  have hv1 : s1'.vec.length = l1.length := by rw [y1.rep.2]; simp
  have hv2 : s2'.vec.length = l2.length := by rw [y2.rep.2]; simp
  rw [Union.iterate, b1, b2]
  simp only [Res.ok_bind, e]
  rw [unionLoop_ok y1 y2 _ 0 0 it f (by omega)]
  simp

/-- C52: `InnerProduct` of two vectors, for any arithmetic (also floating point): the products at the common positions are
added in ascending order of positions, starting from 0. -/
theorem C52_inner_product_order {R : Type} [Zero R] [Add R] [Mul R] (inj1 : T1 → R) (inj2 : T2 → R)
    (h1 : Built (Lawful.accepts P1) s1 l1) (h2 : Built (Lawful.accepts P2) s2 l2) :
    ∃ L, Ascending L ∧ (∀ p x y, (p, x, y) ∈ L ↔ (p, x) ∈ l1 ∧ (p, y) ∈ l2) ∧
      innerProduct inj1 inj2 s1 s2 = .ok (L.foldl (fun r e => r + inj1 e.2.1 * inj2 e.2.2) 0) := by
  obtain ⟨r1, o1, n1⟩ := built_rep h1
  obtain ⟨r2, o2, n2⟩ := built_rep h2
  refine ⟨inter l1 l2, inter_asc l2 o1, inter_mem o2, ?_⟩
  obtain ⟨s1', c1, b1, y1, v1, a1⟩ := begin_ok r1 n1
  obtain ⟨s2', c2, b2, y2, v2, a2⟩ := begin_ok r2 n2
  obtain ⟨it, e, f⟩ := ifirst_ok y1 y2 o1 o2 c1 c2 a1 a2
  have hv : s1'.vec.length = l1.length := by rw [y1.rep.2]; simp
  rw [innerProduct, b1, b2]
  simp only [Res.ok_bind, e]
  exact innerLoop_ok inj1 inj2 y1 y2 o1 o2 _ 0 _ it 0 f (by omega) (by omega)
end

theorem foldl_start {A R : Type} [AddMonoid R] (g : A → R) (L : List A) : ∀ r, L.foldl (fun r e => r + g e) r = r + (L.map g).sum := by
  induction L with
  | nil => intro r; simp
  | cons a L ih => intro r; rw [List.foldl_cons, ih, List.map_cons, List.sum_cons, add_assoc]

theorem sum_range' {A R : Type} [AddMonoid R] (g : Nat × A → R) (n : Nat) : ∀ (lo : Nat) (L : List (Nat × A)), Ascending L →
    (∀ e ∈ L, lo ≤ e.1 ∧ e.1 < lo + n) →
    (L.map g).sum = ((List.range' lo n).map (fun p => ((L.find? (fun e => e.1 == p)).map g).getD 0)).sum := by
  induction n with
  | zero =>
    intro lo L _ h
    cases L with
    | nil => rfl
    | cons e L => have := h e (by simp); omega
  | succ n ih =>
    intro lo L o h
    rw [List.range'_succ, List.map_cons, List.sum_cons]
    cases L with
    | nil =>
      have := ih (lo + 1) [] o (by simp)
      rw [← this]; simp
    | cons e L =>
      obtain ⟨ho, ho'⟩ := List.pairwise_cons.1 o
      by_cases he : e.1 = lo
      · rw [List.map_cons, List.sum_cons, List.find?_cons_of_pos (by simp [he])]
        rw [ih (lo + 1) L ho' (fun a ha => by
          have h1 := ho a ha
          have h2 := h a (by simp [ha])
          omega)]
        simp only [Option.map_some, Option.getD_some]
        congr 2
        apply List.map_congr_left
        intro p hp
        rw [List.mem_range'_1] at hp
        rw [List.find?_cons_of_neg (by simp; omega)]
      · have hn : List.find? (fun e => e.1 == lo) (e :: L) = none := by
          rw [List.find?_eq_none]
          intro a ha
          have h0 := h e (by simp)
          rw [List.mem_cons] at ha
          obtain rfl | ha := ha
          · simpa using he
          · have h1 := ho a ha
            simp; omega
        rw [hn, ih (lo + 1) (e :: L) o (fun a ha => by
          have h2 := h a ha
          have h0 := h e (by simp)
          rw [List.mem_cons] at ha
          obtain rfl | ha := ha
          · omega
          · have h1 := ho a ha
            omega)]
        simp

/-- The sum of the products of the dense vectors, over the positions below `n`. -/
def denseProduct {T1 T2 R : Type} [Zero T1] [Zero T2] [NonUnitalNonAssocSemiring R] (inj1 : T1 → R) (inj2 : T2 → R)
    (l1 : List (Nat × T1)) (l2 : List (Nat × T2)) (n : Nat) : R :=
  ((List.range n).map (fun p => inj1 (dense l1 p) * inj2 (dense l2 p))).sum

section
variable {P1 P2 T1 T2 : Type} [Table P1] [Table P2] (s1 : SVec P1 T1) (s2 : SVec P2 T2) (l1 : List (Nat × T1)) (l2 : List (Nat × T2))

/-- C52: where `0 * x = x * 0 = 0` and addition is associative, `InnerProduct` is the sum of the products of the dense
vectors. -/
theorem C52_inner_product {R : Type} [Zero T1] [Zero T2] [NonUnitalNonAssocSemiring R] (inj1 : T1 → R) (inj2 : T2 → R)
    (z1 : inj1 0 = 0) (z2 : inj2 0 = 0) (h1 : Built (Lawful.accepts P1) s1 l1) (h2 : Built (Lawful.accepts P2) s2 l2) (n : Nat)
    (hn : ∀ e ∈ l1, e.1 < n) : innerProduct inj1 inj2 s1 s2 = .ok (denseProduct inj1 inj2 l1 l2 n) := by
  obtain ⟨-, o1, -⟩ := built_rep h1
  obtain ⟨-, o2, -⟩ := built_rep h2
  obtain ⟨L, oL, mL, e⟩ := C52_inner_product_order s1 s2 l1 l2 inj1 inj2 h1 h2
  rw [e, foldl_start, zero_add, sum_range' _ n 0 L oL (fun a ha => ?_), denseProduct, List.range_eq_range']
  · refine congrArg (fun l => Res.ok (List.sum l)) (List.map_congr_left fun p _ => ?_)
    cases hf : L.find? (fun e => e.1 == p) with
    | some a =>
      have ha := List.mem_of_find?_eq_some hf
      have hp := List.find?_some hf
      obtain ⟨q, x, y⟩ := a
      simp only [beq_iff_eq] at hp
      subst hp
      obtain ⟨hx, hy⟩ := (mL q x y).1 ha
      rw [dense_mem o1 hx, dense_mem o2 hy]
      rfl
    | none =>
      rw [List.find?_eq_none] at hf
      cases hx : l1.find? (fun e => e.1 == p) with
      | none => simp [dense, hx, z1]
      | some a =>
        cases hy : l2.find? (fun e => e.1 == p) with
        | none => simp [dense, hy, z2]
        | some b =>
          have ha := List.mem_of_find?_eq_some hx
          have hb := List.mem_of_find?_eq_some hy
          have ha' := List.find?_some hx
          have hb' := List.find?_some hy
          obtain ⟨q, x⟩ := a
          obtain ⟨r, y⟩ := b
          simp only [beq_iff_eq] at ha' hb'
          subst ha' hb'
          exact absurd (beq_self_eq_true r) (hf (r, x, y) ((mL r x y).2 ⟨ha, hb⟩))
  · obtain ⟨p, x, y⟩ := a
    exact ⟨by omega, by simpa using hn _ ((mL p x y).1 ha).1⟩

/-- C52: `InnerProduct` of a vector with itself, the same object given twice. -/
theorem C52_inner_product_self {R : Type} [Zero T1] [NonUnitalNonAssocSemiring R] (inj : T1 → R) (z : inj 0 = 0)
    (h : Built (Lawful.accepts P1) s1 l1) (n : Nat) (hn : ∀ e ∈ l1, e.1 < n) :
    innerProductSelf inj s1 = .ok (denseProduct inj inj l1 l1 n) := by
  obtain ⟨r1, o1, n1⟩ := built_rep h
  obtain ⟨s1', c1, b1, y1, v1, a1⟩ := begin_ok r1 n1
  have hv : s1'.vec.length = l1.length := by rw [y1.rep.2]; simp
  rw [innerProductSelf, b1]
  simp only [Res.ok_bind]
  rw [selfLoop_ok inj y1 _ 0 c1 0 a1 (by omega), foldl_start, zero_add, List.drop_zero,
    sum_range' _ n 0 l1 o1 (fun a ha => ⟨by omega, by simpa using hn a ha⟩), denseProduct, List.range_eq_range']
  refine congrArg (fun l => Res.ok (List.sum l)) (List.map_congr_left fun p _ => ?_)
  rw [dense]
  cases hf : l1.find? (fun e => e.1 == p) with
  | some a => rfl
  | none => simp [z]
end

/-- Two vectors as the theorems want them: one compressed, one plain. -/
def ops1 : List (Op Int) := [.push 3 7, .push 100 2, .iterate, .push 50 1, .push 70000 (-4)]
/-- The second one. -/
def ops2 : List (Op Int) := [.push 4 7, .push 100 5, .push 70000 3, .push 70001 1]

example : ∃ (s1 : SVec CTbl Int) (s2 : SVec PTbl Int),
    Built (Lawful.accepts CTbl) s1 [(3, 7), (100, 2), (70000, -4)] ∧
    Built (Lawful.accepts PTbl) s2 [(4, 7), (100, 5), (70000, 3), (70001, 1)] ∧
    innerProduct id id s1 s2 = .ok (-2) := by
  have f1 : Fits ops1 := by
    intro p x h
    simp only [ops1, List.mem_cons, List.not_mem_nil, or_false, Op.push.injEq, reduceCtorEq, false_or] at h
    obtain ⟨rfl, -⟩ | ⟨rfl, -⟩ | ⟨rfl, -⟩ | ⟨rfl, -⟩ := h <;> decide
  have f2 : Fits ops2 := by
    intro p x h
    simp only [ops2, List.mem_cons, List.not_mem_nil, or_false, Op.push.injEq, reduceCtorEq, false_or] at h
    obtain ⟨rfl, -⟩ | ⟨rfl, -⟩ | ⟨rfl, -⟩ | ⟨rfl, -⟩ := h <;> decide
  refine ⟨⟨⟨[3, 33 ||| 64, 1, 12 ||| 128, 68, 4], 70000, false⟩, [7, 2, -4]⟩, ⟨⟨[4, 100, 70000, 70001]⟩, [7, 5, 3, 1]⟩,
    ⟨ops1, [.pushed, .pushed, .listed [(3, 7), (100, 2)], .threw, .pushed], f1, by decide, ?_, ?_⟩,
    ⟨ops2, [.pushed, .pushed, .pushed, .pushed], f2, by decide, ?_, ?_⟩, ?_⟩
  · rfl
  · decide +kernel
  · rfl
  · decide +kernel
  · rfl

#print axioms C51_compressed_history
#print axioms C51_plain_history
#print axioms C51_eq
#print axioms C51_iterator_survives_push
#print axioms C51_finding_failed_push_breaks_iterator
#print axioms C52_intersection
#print axioms C52_union
#print axioms C52_inner_product_order
#print axioms C52_inner_product
#print axioms C52_inner_product_self

end Verif.Props.Sparse
