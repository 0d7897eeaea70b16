import Verif.Proof.Array

/-!
# C47: `AlignedArray` behaves like a vector

Histories are lists of calls (`Op`) on any number of objects; `Spec.Array.run` says what they do to
plain vectors, where an element is `none` as long as its value is not determined.
-/
namespace Verif.Props.Array

open Verif.Array Verif.Spec.Array

variable {α : Type}

/-- No object, no memory. -/
def start : World α := ⟨[], fun _ => none⟩

/-- No vector. -/
def noVecs : Vecs α := fun _ => none

theorem start_inv (limit : Nat) : Inv limit (start : World α) noVecs := by
  constructor
  · intros; rfl
  · intro k v h; simp [noVecs] at h
  · intro j k a b q h; simp [start] at h
  · intro q c h; simp [start] at h

/-- After any history that is valid for plain vectors, of any length and over any number of objects
(constructions, copies, moves, assignments, also to themselves, `resize`, `clear`, `swap`, writes,
destructions), with sizes whose number of bytes is below `2^64`:
* the calls never access memory outside the buffers and never free anything twice;
* exactly the same objects exist; each has the size of its vector, at most its capacity, and reading
  `p[i]` gives the element of the vector for every element that is determined;
* every buffer that is not freed belongs to exactly one object. -/
theorem C47_vector {sz : Nat} (hsz : 0 < sz) (junk : Nat → Nat → α) (zero : α) (limit : Nat)
    (hlim : limit * sz < 2 ^ 64) (ops : List (Op α)) (s : Vecs α) (hs : run zero limit ops noVecs = some s) :
    ∃ w, World.run sz junk zero ops start = .ok w ∧
      (∀ k, w.objs k = none ↔ s k = none) ∧
      (∀ k v, s k = some v → ∃ a, w.objs k = some a ∧ a.size = v.length ∧ a.size ≤ a.alloc ∧
        ∀ (i : Nat) (x : α), v[i]? = some (some x) → load w.heap a.p i = .ok x) ∧
      (∀ j k a b q, w.objs j = some a → w.objs k = some b → a.p = some q → b.p = some q → j = k) ∧
      (∀ q c, w.heap[q]? = some (some c) → ∃ k a, w.objs k = some a ∧ a.p = some q) := by
  obtain ⟨w, e, I⟩ := run_ok hsz junk zero hlim ops start noVecs s (start_inv limit) hs
  refine ⟨w, e, ?_, ?_, I.own, I.noleak⟩
  · intro k
    constructor
    · intro h
      rcases hk : s k with _ | v
      · rfl
      · obtain ⟨a, l, ea, -⟩ := I.holds k v hk
        rw [h] at ea; simp at ea
    · exact I.gone k
  · intro k v hk
    obtain ⟨a, l, ea, h1, h2, h3⟩ := I.holds k v hk
    refine ⟨a, ea, by rw [← h1.1, h2.1], h1.size_le, ?_⟩
    intro i x hx
    have hl := h2.2 i x hx
    obtain ⟨hi, he⟩ := List.getElem?_eq_some_iff.mp hl
    obtain ⟨g1, g2⟩ := h1
    rcases hp : a.p with _ | q
    · rw [hp] at g2; obtain ⟨-, rfl⟩ := g2; simp at hi
    · rw [hp] at g2
      obtain ⟨r, g3, g4⟩ := g2
      rw [load_eq g3 (show i < (l ++ r).length by simp; omega), List.getElem_append_left hi, he]

/-- When the last object is gone, all memory has been freed. -/
theorem C47_no_leak {sz : Nat} (hsz : 0 < sz) (junk : Nat → Nat → α) (zero : α) (limit : Nat)
    (hlim : limit * sz < 2 ^ 64) (ops : List (Op α)) (hs : run zero limit ops noVecs = some noVecs) :
    ∃ w, World.run sz junk zero ops start = .ok w ∧ ∀ b ∈ w.heap, b = none := by
  obtain ⟨w, e, h1, h2, h3, h4⟩ := C47_vector hsz junk zero limit hlim ops noVecs hs
  refine ⟨w, e, ?_⟩
  intro b hb
  rcases b with _ | c
  · rfl
  · obtain ⟨q, hq⟩ := List.getElem?_of_mem hb
    obtain ⟨k, a, ha, -⟩ := h4 q c hq
    rw [(h1 k).2 rfl] at ha
    simp at ha

/-- Assigning an array to itself or changing a copy: a history that shows the hypotheses can be met.
The vector after `make 0 3 true; write 0 1 7; makeCopy 1 0; write 1 1 9; resize 0 5 false; assign 0 0;
moveAssign 2 1` ... -/
example : ∃ s, run (0 : Nat) 100 [.make 0 3 true, .write 0 1 7, .makeCopy 1 0, .write 1 1 9, .resize 0 5 false,
    .assign 0 0, .make 2 1 true, .moveAssign 2 1, .resize 2 2 true, .resize 2 4 true] noVecs = some s ∧
    s 0 = some [some 0, some 7, some 0, none, none] ∧ s 1 = some [] ∧
    s 2 = some [some 0, some 9, some 0, some 0] := by
  refine ⟨_, rfl, ?_, ?_, ?_⟩ <;> decide

example : run (0 : Nat) 100 [.make 0 3 true, .makeMove 1 0, .destroy 0, .swap 1 1, .destroy 1] noVecs = some noVecs := by
  have : run (0 : Nat) 100 [.make 0 3 true, .makeMove 1 0, .destroy 0, .swap 1 1, .destroy 1] noVecs
      = some (upd (upd (upd (upd (upd (upd (upd noVecs 0 (some (resized 0 [] 3 true))) 1
          (some (resized 0 [] 3 true))) 0 (some [])) 0 none) 1 (some (resized 0 [] 3 true))) 1
          (some (resized 0 [] 3 true))) 1 none) := rfl
  rw [this]
  congr 1
  funext i
  by_cases h : i = 1 <;> by_cases h' : i = 0 <;> simp [upd, noVecs, h, h']

/-- The number of bytes is computed without a check: asking for `2^61` elements of 8 bytes allocates
nothing and the clearing loop writes outside the buffer (array.hpp:80). -/
theorem C47_finding_overflow (junk : Nat → Nat → α) (zero : α) :
    resize 8 junk zero [] Arr.null (2 ^ 61) true = .ub := by
  have key : ∀ n, setZero zero (some 0) (n + 1) 0 [some ([] : List α)] = .ub := by
    intro n; rfl
  have := key (2 ^ 61 - 1)
  rw [resize, if_neg (by decide), grow, if_pos (by decide)]
  simp only [allocCopy, alloc, Arr.null, copy, free, Res.ok_bind, Res.pure_eq, clearNew, if_true]
  rw [show (2 ^ 61 * 8 % 2 ^ 64 / 8) = 0 by decide, show (2 ^ 61 - 0) = 2 ^ 61 - 1 + 1 by decide]
  simp only [List.range_zero, List.map_nil, List.nil_append, List.length_nil, this, Res.ub_bind]

/-- Moving an array to itself empties it. -/
theorem C47_finding_self_move {sz : Nat} (junk : Nat → Nat → α) (zero : α) (w : World α) (k : Nat) (a : Arr)
    (h : w.objs k = some a) :
    ∃ w' a', w.exec sz junk zero (.moveAssign k k) = .ok w' ∧ w'.objs k = some a' ∧ a'.size = 0 := by
  have h2 : ((w.put k (some a)).put k (some a)).objs k = some a := by simp [World.put]
  refine ⟨((w.put k (some a)).put k (some a)).put k (some { a with size := 0 }), { a with size := 0 }, ?_, ?_, rfl⟩
  · simp only [World.exec, World.swap, obj_ok h, Res.ok_bind, Res.pure_eq, World.clear, obj_ok h2]
  · simp [World.put]

end Verif.Props.Array

#print axioms Verif.Props.Array.C47_vector
#print axioms Verif.Props.Array.C47_no_leak
