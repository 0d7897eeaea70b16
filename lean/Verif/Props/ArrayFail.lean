import Verif.Model.ArrayFail
import Verif.Spec.ArrayFail
import Verif.Props.Array
set_option linter.unusedSimpArgs false
/-!
# C148: aligned arrays when memory runs out
-/
namespace Verif.Props.ArrayFail
open Verif.Array Verif.ArrayFail Verif.Spec.ArrayFail
open Verif.Spec.Array (Vecs)
open Verif.Props.Array (start noVecs start_inv)

variable {α : Type}

/-- Whether the `c`-th request is granted. -/
def av (e : Env α) (c : Nat) : Bool := aligned e.N && e.mem c

theorem allocCopy_eq {e : Env α} {c : Nat} (hc : av e c = true) (h : Heap α) (a : Arr) (n : Nat) (p : Option Nat) (m : Nat) :
    ArrayFail.allocCopy e h a c n p m = (Array.allocCopy e.sz e.junk h a n p m).bind fun r => .ok (false, r.1, r.2, c + 1) := by
  unfold ArrayFail.allocCopy Array.allocCopy malloc
  unfold av at hc
  rw [hc]
  simp only [if_true, Array.alloc]
  cases copy (some h.length) p m 0 (h ++ [some (List.map (e.junk h.length) (List.range (n * e.sz % 2 ^ 64 / e.sz)))]) with
  | ok h1 =>
    simp only [Res.ok_bind]
    cases free h1 a.p <;> rfl
  | throw => rfl
  | ub => rfl

theorem allocCopy_fail {e : Env α} {c : Nat} (hc : av e c = false) (h : Heap α) (a : Arr) (n : Nat) (p : Option Nat) (m : Nat) :
    ArrayFail.allocCopy e h a c n p m = .ok (true, h, a, c + 1) := by
  unfold ArrayFail.allocCopy malloc
  unfold av at hc
  rw [hc]
  rfl

/-- How often `resize` and `operator=` ask for memory. -/
def asks (b : Prop) [Decidable b] : Nat := if b then 1 else 0

theorem resize_eq {e : Env α} (z : α) {h : Heap α} {a : Arr} {c n : Nat} (b : Bool) (hs : a.size ≤ a.alloc) (hc : a.alloc < n → av e c = true) :
    ArrayFail.resize e z h a c n b = (Array.resize e.sz e.junk z h a n b).bind fun r => .ok (false, r.1, r.2, c + asks (a.alloc < n)) := by
  unfold ArrayFail.resize Array.resize
  split
  · rw [asks, if_neg (show ¬ a.alloc < n by omega)]; rfl
  · unfold ArrayFail.grow Array.grow
    by_cases hn : a.alloc < n
    · rw [if_pos hn, if_pos hn, allocCopy_eq (hc hn), asks, if_pos hn]
      cases Array.allocCopy e.sz e.junk h a n a.p a.size with
      | ok r =>
        obtain ⟨h1, a1⟩ := r
        simp only [Res.bind, Res.ok_bind]
        show (clearNew z h1 a1 n b).bind _ = _
        cases clearNew z h1 a1 n b <;> rfl
      | throw => rfl
      | ub => rfl
    · rw [if_neg hn, if_neg hn, asks, if_neg hn]
      simp only [Res.ok_bind]
      show (clearNew z h a n b).bind _ = ((clearNew z h a n b).bind _).bind _
      cases clearNew z h a n b <;> rfl

theorem resize_fail {e : Env α} (z : α) {h : Heap α} {a : Arr} {c n : Nat} (b : Bool) (hs : a.size ≤ a.alloc) (hn : a.alloc < n)
    (hc : av e c = false) : ArrayFail.resize e z h a c n b = .ok (true, h, a, c + 1) := by
  unfold ArrayFail.resize
  rw [if_neg (by omega)]
  unfold ArrayFail.grow
  rw [if_pos hn, allocCopy_fail hc]
  rfl

theorem assign_eq {e : Env α} {h : Heap α} {a r : Arr} {c : Nat} (hc : a.alloc < r.size → av e c = true) :
    ArrayFail.assign e h a r c = (Array.assign e.sz e.junk h a r).bind fun x => .ok (false, x.1, x.2, c + asks (a.alloc < r.size)) := by
  unfold ArrayFail.assign Array.assign ArrayFail.assignCopy Array.assignCopy
  by_cases hn : a.alloc < r.size
  · rw [if_pos hn, if_pos hn, allocCopy_eq (hc hn), asks, if_pos hn]
    cases Array.allocCopy e.sz e.junk h a r.size r.p r.size <;> rfl
  · rw [if_neg hn, if_neg hn, asks, if_neg hn]
    cases copy a.p r.p r.size 0 h <;> rfl

theorem assign_fail {e : Env α} {h : Heap α} {a r : Arr} {c : Nat} (hn : a.alloc < r.size) (hc : av e c = false) :
    ArrayFail.assign e h a r c = .ok (true, h, a, c + 1) := by
  unfold ArrayFail.assign ArrayFail.assignCopy
  rw [if_pos hn, allocCopy_fail hc]
  rfl

theorem allocCopy_alloc {sz : Nat} {junk : Nat → Nat → α} {h h' : Heap α} {a a' : Arr} {n : Nat} {p : Option Nat} {m : Nat}
    (hx : Array.allocCopy sz junk h a n p m = .ok (h', a')) : a'.alloc = n ∧ a'.size = a.size := by
  unfold Array.allocCopy at hx
  simp only [Res.bind_eq_ok, Res.pure_eq] at hx
  obtain ⟨h1, _, h2, _, hx⟩ := hx
  injection hx with hx
  injection hx with _ hx
  rw [← hx]
  exact ⟨rfl, rfl⟩

theorem resize_alloc {sz : Nat} {junk : Nat → Nat → α} {z : α} {h h' : Heap α} {a a' : Arr} {n : Nat} {b : Bool} (hs : a.size ≤ a.alloc)
    (hx : Array.resize sz junk z h a n b = .ok (h', a')) : a'.alloc = max a.alloc n := by
  unfold Array.resize at hx
  split at hx
  · injection hx with hx
    injection hx with _ hx
    rw [← hx]
    show a.alloc = _
    omega
  · rw [Res.bind_eq_ok] at hx
    obtain ⟨⟨h1, a1⟩, hg, hx⟩ := hx
    simp only [Res.bind_eq_ok, Res.pure_eq] at hx
    obtain ⟨h2, _, hx⟩ := hx
    injection hx with hx
    injection hx with _ hx
    rw [← hx]
    show a1.alloc = _
    unfold Array.grow at hg
    split at hg
    · rw [(allocCopy_alloc hg).1]; omega
    · injection hg with hg
      injection hg with _ hg
      rw [← hg]; omega

theorem assign_alloc {sz : Nat} {junk : Nat → Nat → α} {h h' : Heap α} {a a' r : Arr}
    (hx : Array.assign sz junk h a r = .ok (h', a')) : a'.alloc = max a.alloc r.size := by
  unfold Array.assign at hx
  rw [Res.bind_eq_ok] at hx
  obtain ⟨⟨h1, a1⟩, hg, hx⟩ := hx
  simp only [Res.pure_eq] at hx
  injection hx with hx
  injection hx with _ hx
  rw [← hx]
  show a1.alloc = _
  unfold Array.assignCopy at hg
  split at hg
  · rw [(allocCopy_alloc hg).1]; omega
  · simp only [Res.bind_eq_ok, Res.pure_eq] at hg
    obtain ⟨h2, _, hg⟩ := hg
    injection hg with hg
    injection hg with _ hg
    rw [← hg]; omega

/-- Memory holds the vectors with their capacities. -/
structure InvF (limit : Nat) (w : World α) (s : State α) : Prop where
  inv : Inv limit w s.vecs
  cap : ∀ k a, w.objs k = some a → a.alloc = s.cap k

theorem size_len {limit : Nat} {w : World α} {s : Vecs α} (I : Inv limit w s) {k : Nat} {a : Arr} (h : w.objs k = some a) :
    a.size = len s k ∧ a.size ≤ a.alloc := by
  unfold len
  cases hs : s k with
  | none => rw [I.gone k hs] at h; cases h
  | some v =>
    obtain ⟨a', l, e1, e2, e3, _⟩ := I.holds k v hs
    rw [e1] at h
    injection h with h
    subst h
    exact ⟨by rw [← e2.1, e3.1]; rfl, e2.size_le⟩

theorem put_self {w : World α} {k : Nat} {x : Option Arr} (h : w.objs k = x) : w.put k x = w := by
  unfold World.put
  cases w with
  | mk hp ob =>
    simp only [World.mk.injEq, true_and]
    funext i
    split
    · next h1 => rw [h1]; exact h.symm
    · rfl

theorem exec_objs {sz : Nat} {junk : Nat → Nat → α} {z : α} {limit : Nat} {w w' : World α} {s : State α} (I : InvF limit w s) {op : Op α}
    (hx : w.exec sz junk z op = .ok w') : ∀ k a, w'.objs k = some a → a.alloc = caps s op k := by
  have hobj : ∀ {k a}, w.obj k = .ok a → w.objs k = some a := by
    intro k a h
    unfold World.obj at h
    split at h
    · cases h
    · next he => injection h with h; rw [he, h]
  cases op with
  | make k n b =>
    simp only [World.exec, Res.bind_eq_ok, Res.pure_eq] at hx
    obtain ⟨_, _, ⟨h1, a1⟩, hr, hx⟩ := hx
    injection hx with hx
    subst hx
    intro i a hi
    simp only [World.put] at hi
    simp only [caps, setCap]
    split at hi
    · next hk =>
      injection hi with hi
      subst hi
      rw [if_pos hk, resize_alloc (Nat.le_refl _) hr]
      simp [Arr.null]
    · next hk => rw [if_neg hk]; exact I.cap i a hi
  | makeCopy k j =>
    simp only [World.exec, Res.bind_eq_ok, Res.pure_eq] at hx
    obtain ⟨_, _, b, hb, ⟨h1, a1⟩, hr, hx⟩ := hx
    injection hx with hx
    subst hx
    intro i a hi
    simp only [World.put] at hi
    simp only [caps, setCap]
    split at hi
    · next hk =>
      injection hi with hi
      subst hi
      rw [if_pos hk, assign_alloc hr, (size_len I.inv (hobj hb)).1]
      simp [Arr.null]
    · next hk => rw [if_neg hk]; exact I.cap i a hi
  | makeMove k j =>
    simp only [World.exec, Res.bind_eq_ok, Res.pure_eq] at hx
    obtain ⟨_, _, b, hb, hx⟩ := hx
    injection hx with hx
    subst hx
    intro i a hi
    simp only [World.put] at hi
    simp only [caps, setCap]
    split at hi
    · next hk =>
      injection hi with hi
      subst hi
      rw [if_pos hk]; rfl
    · next hk =>
      rw [if_neg hk]
      split at hi
      · next h2 =>
        injection hi with hi
        subst hi
        rw [if_pos h2]; exact I.cap j _ (hobj hb)
      · next h2 => rw [if_neg h2]; exact I.cap i a hi
  | assign k j =>
    simp only [World.exec, Res.bind_eq_ok, Res.pure_eq] at hx
    obtain ⟨a0, ha0, b, hb, ⟨h1, a1⟩, hr, hx⟩ := hx
    injection hx with hx
    subst hx
    intro i a hi
    simp only [World.put] at hi
    simp only [caps, setCap]
    split at hi
    · next hk =>
      injection hi with hi
      subst hi
      rw [if_pos hk, assign_alloc hr, (size_len I.inv (hobj hb)).1, I.cap k _ (hobj ha0)]
    · next hk => rw [if_neg hk]; exact I.cap i a hi
  | moveAssign k j =>
    simp only [World.exec, World.swap, World.clear, Res.bind_eq_ok, Res.pure_eq] at hx
    obtain ⟨w1, ⟨a0, ha0, b, hb, hw⟩, a1, h1, hx⟩ := hx
    injection hw with hw
    injection hx with hx
    subst hx
    subst hw
    have h1' : a1 = a0 := by
      unfold World.obj at h1
      simp only [World.put, if_true] at h1
      injection h1 with h1
      exact h1.symm
    subst h1'
    intro i a hi
    simp only [World.put] at hi
    simp only [caps, setCap]
    split at hi
    · next hk =>
      injection hi with hi
      subst hi
      rw [if_pos hk]; exact I.cap k a1 (hobj ha0)
    · next hk =>
      rw [if_neg hk]
      split at hi
      · next h2 =>
        injection hi with hi
        subst hi
        rw [if_pos h2]; exact I.cap j _ (hobj hb)
      · next h2 => rw [if_neg h2]; exact I.cap i a hi
  | resize k n b =>
    simp only [World.exec, Res.bind_eq_ok, Res.pure_eq] at hx
    obtain ⟨a0, ha0, ⟨h1, a1⟩, hr, hx⟩ := hx
    injection hx with hx
    subst hx
    intro i a hi
    simp only [World.put] at hi
    simp only [caps, setCap]
    split at hi
    · next hk =>
      injection hi with hi
      subst hi
      rw [if_pos hk, resize_alloc (size_len I.inv (hobj ha0)).2 hr, I.cap k _ (hobj ha0)]
    · next hk => rw [if_neg hk]; exact I.cap i a hi
  | clear k =>
    simp only [World.exec, World.clear, Res.bind_eq_ok, Res.pure_eq] at hx
    obtain ⟨a0, ha0, hx⟩ := hx
    injection hx with hx
    subst hx
    intro i a hi
    simp only [World.put] at hi
    simp only [caps]
    split at hi
    · next hk =>
      injection hi with hi
      subst hi
      rw [hk]; exact I.cap k a0 (hobj ha0)
    · exact I.cap i a hi
  | swap k j =>
    simp only [World.exec, World.swap, Res.bind_eq_ok, Res.pure_eq] at hx
    obtain ⟨a0, ha0, b, hb, hx⟩ := hx
    injection hx with hx
    subst hx
    intro i a hi
    simp only [World.put] at hi
    simp only [caps, setCap]
    split at hi
    · next hk =>
      injection hi with hi
      subst hi
      rw [if_pos hk]; exact I.cap k _ (hobj ha0)
    · next hk =>
      rw [if_neg hk]
      split at hi
      · next h2 =>
        injection hi with hi
        subst hi
        rw [if_pos h2]; exact I.cap j _ (hobj hb)
      · next h2 => rw [if_neg h2]; exact I.cap i a hi
  | write k p x =>
    simp only [World.exec, Res.bind_eq_ok, Res.pure_eq] at hx
    obtain ⟨a0, ha0, h1, _, hx⟩ := hx
    injection hx with hx
    subst hx
    exact I.cap
  | destroy k =>
    simp only [World.exec, Res.bind_eq_ok, Res.pure_eq] at hx
    obtain ⟨a0, ha0, h1, _, hx⟩ := hx
    injection hx with hx
    subst hx
    intro i a hi
    simp only [World.put] at hi
    split at hi
    · cases hi
    · exact I.cap i a hi

/-- One call. -/
theorem exec_okF {e : Env α} (h0 : 0 < e.sz) (z : α) {limit : Nat} (hlim : limit * e.sz < 2 ^ 64) {w : World α} {s s' : State α} {op : Op α}
    {t : Bool} (I : InvF limit w s) (hs : step z limit (av e) s op = some (t, s')) :
    ∃ w', ArrayFail.exec e z w s.asked op = .ok (t, w', s'.asked) ∧ InvF limit w' s' := by
  unfold step at hs
  cases hv : Spec.Array.step z limit s.vecs op with
  | none => rw [hv] at hs; cases hs
  | some v =>
    rw [hv] at hs
    simp only at hs
    obtain ⟨w1, x1, I1⟩ := exec_ok h0 e.junk z hlim I.inv hv
    have J1 : ∀ n, InvF limit w1 ⟨v, caps s op, n⟩ := fun n => ⟨I1, exec_objs I x1⟩
    have fails : ∀ b, (if b then (if av e s.asked then some (false, (⟨v, caps s op, s.asked + 1⟩ : State α)) else some (true, { s with asked := s.asked + 1 }))
        else some (false, ⟨v, caps s op, s.asked⟩)) = some (t, s') →
        (t = true ∧ b = true ∧ av e s.asked = false ∧ s' = { s with asked := s.asked + 1 }) ∨
        (t = false ∧ (b = true → av e s.asked = true) ∧ s' = ⟨v, caps s op, s.asked + asks (b = true)⟩) := by
      intro b hb
      cases b with
      | true =>
        rw [if_pos rfl] at hb
        cases ha : av e s.asked with
        | true =>
          rw [ha, if_pos rfl] at hb
          injection hb with hb
          injection hb with h1 h2
          exact Or.inr ⟨h1.symm, fun _ => rfl, by rw [← h2]; rfl⟩
        | false =>
          rw [ha] at hb
          injection hb with hb
          injection hb with h1 h2
          exact Or.inl ⟨h1.symm, rfl, rfl, h2.symm⟩
      | false =>
        injection hb with hb
        injection hb with h1 h2
        exact Or.inr ⟨h1.symm, (fun h => by cases h), by rw [← h2]; rfl⟩
    have K : InvF limit w { s with asked := s.asked + 1 } := ⟨I.inv, I.cap⟩
    have plain : needs s op = false → ArrayFail.exec e z w s.asked op = (w.exec e.sz e.junk z op).bind (fun w => .ok (false, w, s.asked)) →
        ∃ w', ArrayFail.exec e z w s.asked op = .ok (t, w', s'.asked) ∧ InvF limit w' s' := by
      intro hn hx
      rcases fails _ hs with ⟨_, h2, _⟩ | ⟨rfl, _, rfl⟩
      · rw [hn] at h2; cases h2
      · exact ⟨w1, by rw [hx, x1, hn]; rfl, J1 _⟩
    have hobj : ∀ {k a}, w.obj k = .ok a → w.objs k = some a := by
      intro k a h
      unfold World.obj at h
      split at h
      · cases h
      · next he => injection h with h; rw [he, h]
    have hfr : ∀ {k}, w.fresh k = .ok () → w.objs k = none := by
      intro k h
      unfold World.fresh at h
      split at h
      · next he => exact he
      · cases h
    have F := fails _ hs
    cases op with
    | make k n b =>
      have x2 := x1
      simp only [World.exec, Res.bind_eq_ok, Res.pure_eq] at x2
      obtain ⟨_, f1, ⟨h1, a1⟩, hr, hx⟩ := x2
      injection hx with hx
      have hq : decide (0 < n) = true ↔ Arr.null.alloc < n := by simp [Arr.null]
      rcases F with ⟨rfl, g1, g2, rfl⟩ | ⟨rfl, g1, rfl⟩
      · refine ⟨w, ?_, K⟩
        simp only [ArrayFail.exec]
        rw [f1, resize_fail z b (Nat.le_refl _) (hq.1 g1) g2]
        simp only [Res.ok_bind, Res.pure_eq, built, if_true]
        rw [put_self (hfr f1)]
      · refine ⟨w1, ?_, J1 _⟩
        simp only [ArrayFail.exec]
        rw [f1, resize_eq z b (Nat.le_refl _) (fun h => g1 (hq.2 h)), hr]
        simp only [Res.ok_bind, Res.bind, Res.pure_eq, built, needs]
        rw [← hx]
        simp only [asks, hq]
        rfl
    | makeCopy k j =>
      have x2 := x1
      simp only [World.exec, Res.bind_eq_ok, Res.pure_eq] at x2
      obtain ⟨_, f1, b, f2, ⟨h1, a1⟩, hr, hx⟩ := x2
      injection hx with hx
      have hq : decide (0 < len s.vecs j) = true ↔ Arr.null.alloc < b.size := by
        rw [(size_len I.inv (hobj f2)).1]; simp [Arr.null]
      rcases F with ⟨rfl, g1, g2, rfl⟩ | ⟨rfl, g1, rfl⟩
      · refine ⟨w, ?_, K⟩
        simp only [ArrayFail.exec]
        rw [f1, f2]
        simp only [Res.ok_bind]
        rw [assign_fail (hq.1 g1) g2]
        simp only [Res.ok_bind, Res.pure_eq, built, if_true]
        rw [put_self (hfr f1)]
      · refine ⟨w1, ?_, J1 _⟩
        simp only [ArrayFail.exec]
        rw [f1, f2]
        simp only [Res.ok_bind]
        rw [assign_eq (fun h => g1 (hq.2 h)), hr]
        simp only [Res.ok_bind, Res.bind, Res.pure_eq, built, needs]
        rw [← hx]
        simp only [asks, hq]
        rfl
    | assign k j =>
      have x2 := x1
      simp only [World.exec, Res.bind_eq_ok, Res.pure_eq] at x2
      obtain ⟨a0, f1, b, f2, ⟨h1, a1⟩, hr, hx⟩ := x2
      injection hx with hx
      have hq : decide (s.cap k < len s.vecs j) = true ↔ a0.alloc < b.size := by
        rw [(size_len I.inv (hobj f2)).1, I.cap k _ (hobj f1)]; simp
      rcases F with ⟨rfl, g1, g2, rfl⟩ | ⟨rfl, g1, rfl⟩
      · refine ⟨w, ?_, K⟩
        simp only [ArrayFail.exec]
        rw [f1, f2]
        simp only [Res.ok_bind]
        rw [assign_fail (hq.1 g1) g2]
        simp only [Res.ok_bind, Res.pure_eq]
        rw [put_self (hobj f1)]
      · refine ⟨w1, ?_, J1 _⟩
        simp only [ArrayFail.exec]
        rw [f1, f2]
        simp only [Res.ok_bind]
        rw [assign_eq (fun h => g1 (hq.2 h)), hr]
        simp only [Res.ok_bind, Res.bind, Res.pure_eq, needs]
        rw [← hx]
        simp only [asks, hq]
    | resize k n b =>
      have x2 := x1
      simp only [World.exec, Res.bind_eq_ok, Res.pure_eq] at x2
      obtain ⟨a0, f1, ⟨h1, a1⟩, hr, hx⟩ := x2
      injection hx with hx
      have hq : decide (s.cap k < n) = true ↔ a0.alloc < n := by
        rw [I.cap k _ (hobj f1)]; simp
      rcases F with ⟨rfl, g1, g2, rfl⟩ | ⟨rfl, g1, rfl⟩
      · refine ⟨w, ?_, K⟩
        simp only [ArrayFail.exec]
        rw [f1]
        simp only [Res.ok_bind]
        rw [resize_fail z b (size_len I.inv (hobj f1)).2 (hq.1 g1) g2]
        simp only [Res.ok_bind, Res.pure_eq]
        rw [put_self (hobj f1)]
      · refine ⟨w1, ?_, J1 _⟩
        simp only [ArrayFail.exec]
        rw [f1]
        simp only [Res.ok_bind]
        rw [resize_eq z b (size_len I.inv (hobj f1)).2 (fun h => g1 (hq.2 h)), hr]
        simp only [Res.ok_bind, Res.bind, Res.pure_eq, needs]
        rw [← hx]
        simp only [asks, hq]
    | makeMove k j => exact plain rfl rfl
    | moveAssign k j => exact plain rfl rfl
    | clear k => exact plain rfl rfl
    | swap k j => exact plain rfl rfl
    | write k i x => exact plain rfl rfl
    | destroy k => exact plain rfl rfl

theorem run_okF {e : Env α} (h0 : 0 < e.sz) (z : α) {limit : Nat} (hlim : limit * e.sz < 2 ^ 64) : ∀ (ops : List (Op α)) (w : World α)
    (s s' : State α) (ts : List Bool), InvF limit w s → Spec.ArrayFail.run z limit (av e) ops s = some (ts, s') →
    ∃ w', ArrayFail.run e z ops w s.asked = .ok (ts, w', s'.asked) ∧ InvF limit w' s' := by
  intro ops
  induction ops with
  | nil =>
    intro w s s' ts I h
    simp only [Spec.ArrayFail.run, Option.some.injEq, Prod.mk.injEq] at h
    obtain ⟨rfl, rfl⟩ := h
    exact ⟨w, rfl, I⟩
  | cons op ops ih =>
    intro w s s' ts I h
    simp only [Spec.ArrayFail.run] at h
    cases hs : step z limit (av e) s op with
    | none => rw [hs] at h; cases h
    | some r =>
      obtain ⟨t, s1⟩ := r
      rw [hs] at h
      simp only at h
      cases hr : Spec.ArrayFail.run z limit (av e) ops s1 with
      | none => rw [hr] at h; cases h
      | some r =>
        obtain ⟨ts1, s2⟩ := r
        rw [hr] at h
        simp only [Option.map_some, Option.some.injEq, Prod.mk.injEq] at h
        obtain ⟨rfl, rfl⟩ := h
        obtain ⟨w1, x1, I1⟩ := exec_okF h0 z hlim I hs
        obtain ⟨w2, x2, I2⟩ := ih w1 s1 s2 ts1 I1 hr
        exact ⟨w2, by simp only [ArrayFail.run, x1, x2, Res.ok_bind, Res.pure_eq], I2⟩

/-- No vector, nothing asked for. -/
def nothing : State α := ⟨noVecs, fun _ => 0, 0⟩

/-- `posix_memalign` accepts exactly these alignments. -/
theorem aligned_iff (N : Nat) (hN : N < 2 ^ 64) : aligned N = true ↔ ∃ k, 3 ≤ k ∧ N = 2 ^ k := by
  unfold aligned
  rw [List.any_eq_true]
  constructor
  · rintro ⟨k, _, h⟩
    exact ⟨k + 3, by omega, by simpa using h⟩
  · rintro ⟨k, h1, h2⟩
    have hk : k < 64 := by
      rw [h2] at hN
      exact (Nat.pow_lt_pow_iff_right (by decide)).1 hN
    exact ⟨k - 3, List.mem_range.2 (by omega), by rw [show k - 3 + 3 = k by omega]; simpa using h2⟩

/-- What memory holds when the vectors are `s`: every object its elements and its room, no buffer belongs to two objects, none to none. -/
def Holds (w : World α) (s : State α) : Prop :=
  (∀ k, w.objs k = none ↔ s.vecs k = none) ∧
  (∀ k v, s.vecs k = some v → ∃ a, w.objs k = some a ∧ a.size = v.length ∧ a.alloc = s.cap k ∧
    ∀ (i : Nat) (x : α), v[i]? = some (some x) → load w.heap a.p i = .ok x) ∧
  (∀ j k a b q, w.objs j = some a → w.objs k = some b → a.p = some q → b.p = some q → j = k) ∧
  (∀ q c, w.heap[q]? = some (some c) → ∃ k a, w.objs k = some a ∧ a.p = some q)

theorem InvF.holds {limit : Nat} {w : World α} {s : State α} (I : InvF limit w s) : Holds w s := by
  refine ⟨?_, ?_, I.inv.own, I.inv.noleak⟩
  · intro k
    constructor
    · intro h
      rcases hk : s.vecs k with _ | v
      · rfl
      · obtain ⟨a, l, ea, -⟩ := I.inv.holds k v hk
        rw [h] at ea; simp at ea
    · exact I.inv.gone k
  · intro k v hk
    obtain ⟨a, l, ea, h1, h2, h3⟩ := I.inv.holds k v hk
    refine ⟨a, ea, by rw [← h1.1, h2.1], I.cap k a ea, ?_⟩
    intro i x hx
    have hl := h2.2 i x hx
    obtain ⟨hi, he⟩ := List.getElem?_eq_some_iff.mp hl
    obtain ⟨g1, g2⟩ := h1
    rcases hp : a.p with _ | q
    · rw [hp] at g2; obtain ⟨-, rfl⟩ := g2; simp at hi
    · rw [hp] at g2
      obtain ⟨r, g3, g4⟩ := g2
      rw [load_eq g3 (show i < (l ++ r).length by simp; omega), List.getElem_append_left hi, he]

theorem nothing_inv (limit : Nat) : InvF limit (start : World α) nothing := ⟨start_inv limit, fun k a h => by simp [start] at h⟩

/-- C148: whatever requests for memory fail, in any history that is valid for vectors with capacities: the calls that throw are those that
need more room than there is when memory is refused, every other call does its work, and afterwards memory holds what the vectors hold, with
nothing shared and nothing lost. -/
theorem C148_vector {e : Env α} (hsz : 0 < e.sz) {k : Nat} (hk : 3 ≤ k) (hN : e.N < 2 ^ 64) (hk2 : e.N = 2 ^ k) (zero : α) (limit : Nat)
    (hlim : limit * e.sz < 2 ^ 64) (ops : List (Op α)) (ts : List Bool) (s : State α)
    (hs : Spec.ArrayFail.run zero limit e.mem ops nothing = some (ts, s)) :
    ∃ w, ArrayFail.run e zero ops start 0 = .ok (ts, w, s.asked) ∧ Holds w s := by
  have : av e = e.mem := by
    funext c
    rw [av, (aligned_iff e.N hN).2 ⟨k, hk, hk2⟩, Bool.true_and]
  rw [← this] at hs
  obtain ⟨w, x, I⟩ := run_okF hsz zero hlim ops start nothing s ts (nothing_inv limit) hs
  exact ⟨w, x, I.holds⟩

/-- C148: when the last object is gone, all memory has been freed, whatever failed on the way. -/
theorem C148_no_leak {e : Env α} (hsz : 0 < e.sz) {k : Nat} (hk : 3 ≤ k) (hN : e.N < 2 ^ 64) (hk2 : e.N = 2 ^ k) (zero : α) (limit : Nat)
    (hlim : limit * e.sz < 2 ^ 64) (ops : List (Op α)) (ts : List Bool) (s : State α)
    (hs : Spec.ArrayFail.run zero limit e.mem ops nothing = some (ts, s)) (hgone : ∀ k, s.vecs k = none) :
    ∃ w, ArrayFail.run e zero ops start 0 = .ok (ts, w, s.asked) ∧ ∀ b ∈ w.heap, b = none := by
  obtain ⟨w, x, h1, _, _, h4⟩ := C148_vector hsz hk hN hk2 zero limit hlim ops ts s hs
  refine ⟨w, x, fun b hb => ?_⟩
  rcases b with _ | c
  · rfl
  · obtain ⟨q, hq⟩ := List.getElem?_of_mem hb
    obtain ⟨i, a, ha, _⟩ := h4 q c hq
    rw [(h1 i).2 (hgone i)] at ha
    cases ha

theorem allocCopy_threw {e : Env α} {h h' : Heap α} {a a' : Arr} {c c' n : Nat} {p : Option Nat} {m : Nat}
    (hx : ArrayFail.allocCopy e h a c n p m = .ok (true, h', a', c')) : h' = h ∧ a' = a := by
  cases hc : av e c with
  | true =>
    rw [allocCopy_eq hc] at hx
    cases hy : Array.allocCopy e.sz e.junk h a n p m with
    | ok r => rw [hy] at hx; simp [Res.bind] at hx
    | throw => rw [hy] at hx; cases hx
    | ub => rw [hy] at hx; cases hx
  | false =>
    rw [allocCopy_fail hc] at hx
    injection hx with hx
    simp only [Prod.mk.injEq] at hx
    exact ⟨hx.2.1.symm, hx.2.2.1.symm⟩

theorem resize_threw {e : Env α} {z : α} {h h' : Heap α} {a a' : Arr} {c c' n : Nat} {b : Bool}
    (hx : ArrayFail.resize e z h a c n b = .ok (true, h', a', c')) : h' = h ∧ a' = a := by
  unfold ArrayFail.resize at hx
  split at hx
  · simp at hx
  · rw [Res.bind_eq_ok] at hx
    obtain ⟨⟨t, h1, a1, c1⟩, hg, hx⟩ := hx
    simp only at hx
    split at hx
    · next ht =>
      subst ht
      simp only [Res.pure_eq, Res.ok.injEq, Prod.mk.injEq, true_and] at hx
      obtain ⟨rfl, rfl, rfl⟩ := hx
      unfold ArrayFail.grow at hg
      split at hg
      · exact allocCopy_threw hg
      · simp at hg
    · simp only [Res.bind_eq_ok, Res.pure_eq, Res.ok.injEq, Prod.mk.injEq] at hx
      obtain ⟨_, _, hx, _⟩ := hx
      cases hx

theorem assign_threw {e : Env α} {h h' : Heap α} {a a' r : Arr} {c c' : Nat}
    (hx : ArrayFail.assign e h a r c = .ok (true, h', a', c')) : h' = h ∧ a' = a := by
  unfold ArrayFail.assign at hx
  rw [Res.bind_eq_ok] at hx
  obtain ⟨⟨t, h1, a1, c1⟩, hg, hx⟩ := hx
  simp only at hx
  split at hx
  · next ht =>
    subst ht
    simp only [Res.pure_eq, Res.ok.injEq, Prod.mk.injEq, true_and] at hx
    obtain ⟨rfl, rfl, rfl⟩ := hx
    unfold ArrayFail.assignCopy at hg
    split at hg
    · exact allocCopy_threw hg
    · simp only [Res.bind_eq_ok, Res.pure_eq, Res.ok.injEq, Prod.mk.injEq] at hg
      obtain ⟨_, _, hg, _⟩ := hg
      cases hg
  · simp only [Res.pure_eq, Res.ok.injEq, Prod.mk.injEq] at hx
    cases hx.1

/-- C148: a call that throws has changed nothing at all, in any state of memory and objects. -/
theorem C148_strong {e : Env α} {z : α} {w w' : World α} {c c' : Nat} {op : Op α} (hx : ArrayFail.exec e z w c op = .ok (true, w', c')) :
    w' = w := by
  have hobj : ∀ {k a}, w.obj k = .ok a → w.objs k = some a := by
    intro k a h
    unfold World.obj at h
    split at h
    · cases h
    · next he => injection h with h; rw [he, h]
  have hfr : ∀ {k}, w.fresh k = .ok () → w.objs k = none := by
    intro k h
    unfold World.fresh at h
    split at h
    · next he => exact he
    · cases h
  cases op with
  | make k n b =>
    simp only [ArrayFail.exec, Res.bind_eq_ok, Res.pure_eq, Res.ok.injEq, Prod.mk.injEq] at hx
    obtain ⟨_, f1, ⟨t, h1, a1, c1⟩, hr, rfl, rfl, rfl⟩ := hx
    obtain ⟨rfl, rfl⟩ := resize_threw hr
    exact put_self (hfr f1)
  | makeCopy k j =>
    simp only [ArrayFail.exec, Res.bind_eq_ok, Res.pure_eq, Res.ok.injEq, Prod.mk.injEq] at hx
    obtain ⟨_, f1, b, _, ⟨t, h1, a1, c1⟩, hr, rfl, rfl, rfl⟩ := hx
    obtain ⟨rfl, rfl⟩ := assign_threw hr
    exact put_self (hfr f1)
  | assign k j =>
    simp only [ArrayFail.exec, Res.bind_eq_ok, Res.pure_eq, Res.ok.injEq, Prod.mk.injEq] at hx
    obtain ⟨a0, f1, b, _, ⟨t, h1, a1, c1⟩, hr, rfl, rfl, rfl⟩ := hx
    obtain ⟨rfl, rfl⟩ := assign_threw hr
    exact put_self (hobj f1)
  | resize k n b =>
    simp only [ArrayFail.exec, Res.bind_eq_ok, Res.pure_eq, Res.ok.injEq, Prod.mk.injEq] at hx
    obtain ⟨a0, f1, ⟨t, h1, a1, c1⟩, hr, rfl, rfl, rfl⟩ := hx
    obtain ⟨rfl, rfl⟩ := resize_threw hr
    exact put_self (hobj f1)
  | makeMove k j => simp [ArrayFail.exec, Res.bind_eq_ok] at hx
  | moveAssign k j => simp [ArrayFail.exec, Res.bind_eq_ok] at hx
  | clear k => simp [ArrayFail.exec, Res.bind_eq_ok] at hx
  | swap k j => simp [ArrayFail.exec, Res.bind_eq_ok] at hx
  | write k i x => simp [ArrayFail.exec, Res.bind_eq_ok] at hx
  | destroy k => simp [ArrayFail.exec, Res.bind_eq_ok] at hx

/-- C148, finding: with an alignment that is not a power of two of at least 8 (`AlignedArray<T, 4>`, say) every array with an element throws
`bad_alloc`, however much memory there is. -/
theorem C148_finding_alignment {e : Env α} (hN : e.N < 2 ^ 64) (h : ¬ ∃ k, 3 ≤ k ∧ e.N = 2 ^ k) (zero : α) (w : World α) (c i n : Nat) (b : Bool)
    (hw : w.objs i = none) (hn : 0 < n) : ArrayFail.exec e zero w c (.make i n b) = .ok (true, w, c + 1) := by
  have hc : av e c = false := by
    rw [av, show aligned e.N = false from by
      cases ha : aligned e.N with
      | true => exact absurd ((aligned_iff e.N hN).1 ha) h
      | false => rfl, Bool.false_and]
  simp only [ArrayFail.exec]
  rw [fresh_ok hw, resize_fail zero b (Nat.le_refl _) hn hc]
  simp only [Res.ok_bind, Res.pure_eq, built, if_true]
  rw [put_self hw]

/-- An environment: `uint64_t` elements, alignment 16, the third request for memory is refused. -/
def env3 : Env Nat := ⟨8, 16, fun c => c != 2, fun _ i => 7 * i⟩

/-- A history in which the third allocation, `resize` to 5, fails; the object stays as it was and is used on. -/
def hist : List (Op Nat) := [.make 0 3 true, .write 0 1 9, .makeCopy 1 0, .resize 1 5 true, .write 1 2 4, .resize 1 4 true, .assign 0 1, .destroy 1]

/-- The hypotheses hold and the result is not trivial. -/
example : (Spec.ArrayFail.run 0 100 env3.mem hist nothing).map (fun r => (r.1, r.2.vecs 0, r.2.vecs 1, r.2.cap 0, r.2.asked)) =
    some ([false, false, false, true, false, false, false, false], some [some 0, some 9, some 4, some 0], none, 4, 5) := rfl
example : env3.N = 2 ^ 4 ∧ 100 * env3.sz < 2 ^ 64 := by decide
example : aligned 4 = false := by decide

#print axioms C148_vector
#print axioms C148_no_leak
#print axioms C148_strong
#print axioms C148_finding_alignment

end Verif.Props.ArrayFail
