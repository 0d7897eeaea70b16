import Verif.Proof.SaisBwt

/-! # C91: the Burrows-Wheeler transform `saisxx_bwt` -/
namespace Verif.Props.Bwt
open Verif.Sais Verif.Spec.FMindex Verif.Spec.Bwt

/-- C91.  For every text over `0 .. k-1`: what `saisxx_bwt` returns and writes to `U` is the transform of the text, every cell is a
character, and nothing behind the `n` cells has changed, provided no allocation fails.  No access leaves an array (the model would give `ub`). -/
theorem C91_transforms (g U A : Arr) (v : List Nat) (k : Nat) (hk : 0 < k) (hv : ∀ c ∈ v, c < k) (alloc : Nat → Nat → Bool)
    (hal : ∀ d c, alloc d c = true) :
    ∃ (e : Nat) (U' : Arr), saisxxBwt alloc g (textOf v) U A v.length k = .ok ((e : Int), U') ∧ IsBwt v e (listOf U' v.length) ∧
      (∀ x, x < v.length → 0 ≤ U' x) ∧ ∀ x, v.length ≤ x → U' x = U x := by
  rcases saisxxBwt_all alloc g v U A k hk hv with h | ⟨_, d, c, h⟩
  · exact h
  · rw [hal] at h
    cases h

/-- C91.  Whatever allocations fail, the only other result is -2 with `U` as it was, and then some allocation has failed. -/
theorem C91_or_no_memory (g U A : Arr) (v : List Nat) (k : Nat) (hk : 0 < k) (hv : ∀ c ∈ v, c < k) (alloc : Nat → Nat → Bool) :
    (∃ (e : Nat) (U' : Arr), saisxxBwt alloc g (textOf v) U A v.length k = .ok ((e : Int), U') ∧ IsBwt v e (listOf U' v.length) ∧
      (∀ x, x < v.length → 0 ≤ U' x) ∧ ∀ x, v.length ≤ x → U' x = U x) ∨
    (saisxxBwt alloc g (textOf v) U A v.length k = .ok (-2, U) ∧ ∃ d c, alloc d c = false) :=
  saisxxBwt_all alloc g v U A k hk hv

/-- C91.  A negative length or an empty alphabet is refused with -1 and `U` is left as it was. -/
theorem C91_bad_arguments (alloc : Nat → Nat → Bool) (g U A : Arr) (T : Nat → Nat) (n k : Int) (h : n < 0 ∨ k ≤ 0) :
    saisxxBwt alloc g T U A n k = .ok (-1, U) := by
  rw [saisxxBwt, if_pos h]

/-- C91.  Every text has exactly one transform. -/
theorem C91_unique (v : List Nat) : ∃ e c, IsBwt v e c ∧ ∀ e' c', IsBwt v e' c' → e' = e ∧ c' = c := by
  obtain ⟨rows, h⟩ := rows_exist v
  refine ⟨row v 0, lastColumn v rows, ⟨rows, h, rfl, rows_row h (by omega)⟩, ?_⟩
  rintro e' c' ⟨rows', h', rfl, hz⟩
  have : rows' = rows := by
    apply List.Perm.eq_of_pairwise (le := fun a b => lexLt (v.drop a) (v.drop b) = true) _ h'.sorted h.sorted (h'.perm.trans h.perm.symm)
    intro a b _ _ h1 h2
    rw [lexLt_iff] at h1 h2
    exact absurd h1 (lt_asymm h2)
  subst this
  exact ⟨(bwt_iff.mp ⟨rows', h, rfl, hz⟩).1, rfl⟩

/-- C91.  Nothing is lost: two texts of the same length for which the same value is returned and the same characters are written are
the same text, whatever alphabet bounds and memory contents were used. -/
theorem C91_lossless (alloc alloc' : Nat → Nat → Bool) (g g' U U' A A' V V' : Arr) (v w : List Nat) (k k' : Nat) (hk : 0 < k)
    (hv : ∀ c ∈ v, c < k) (hk' : 0 < k') (hw : ∀ c ∈ w, c < k') (hn : v.length = w.length) (e : Int) (he : 0 ≤ e)
    (h1 : saisxxBwt alloc g (textOf v) U A v.length k = .ok (e, V)) (h2 : saisxxBwt alloc' g' (textOf w) U' A' w.length k' = .ok (e, V'))
    (hV : ∀ x, x < v.length → V x = V' x) : v = w := by
  rcases saisxxBwt_all alloc g v U A k hk hv with ⟨e1, V1, a1, a2, _⟩ | ⟨a1, _⟩
  · rcases saisxxBwt_all alloc' g' w U' A' k' hk' hw with ⟨e2, V2, b1, b2, _⟩ | ⟨b1, _⟩
    · rw [h1] at a1
      rw [h2] at b1
      injection a1 with a1
      injection a1 with a0 a1
      injection b1 with b1
      injection b1 with b0 b1
      subst a1 b1
      have : e1 = e2 := by omega
      subst this
      have hl : listOf V v.length = listOf V' w.length := by
        unfold listOf
        rw [← hn]
        apply List.map_congr_left
        intro x hx
        rw [hV x (List.mem_range.mp hx)]
      rw [hl] at a2
      exact bwt_inj a2 b2
    · rw [h2] at b1
      injection b1 with b1
      injection b1 with b1 _
      omega
  · rw [h1] at a1
    injection a1 with a1
    injection a1 with a1 _
    omega

/-! Non-trivial cases: the hypotheses are met. -/

/-- "banana": the sorted suffixes are "", a, ana, anana, banana, na, nana; before them stand a n n b - a a. -/
example : IsBwt [98, 97, 110, 97, 110, 97] 4 [97, 110, 110, 98, 97, 97] :=
  ⟨[6, 5, 3, 1, 0, 4, 2], ⟨by decide, by decide⟩, by decide, rfl⟩

example : (match saisxxBwt (fun _ _ => true) (fun _ => 7) (textOf [98, 97, 110, 97, 110, 97]) (fun _ => 5) (fun _ => 3) 6 256 with
      | .ok (e, U) => (e, listOf U 6, U 6)
      | _ => (9, [], 0)) = (4, [97, 110, 110, 98, 97, 97], 5) := by decide +kernel

/-- Without the returned row the text would be lost. -/
example : IsBwt [0, 1, 1] 1 [1, 1, 0] ∧ IsBwt [1, 0, 1] 3 [1, 1, 0] :=
  ⟨⟨[3, 0, 2, 1], ⟨by decide, by decide⟩, by decide, rfl⟩, ⟨[3, 1, 2, 0], ⟨by decide, by decide⟩, by decide, rfl⟩⟩

#print axioms C91_transforms
#print axioms C91_or_no_memory
#print axioms C91_bad_arguments
#print axioms C91_unique
#print axioms C91_lossless

end Verif.Props.Bwt
