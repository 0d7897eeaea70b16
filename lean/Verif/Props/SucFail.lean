import Verif.Model.SucFail
import Verif.Proof.IndexIO
import Verif.Props.SucVector

/-!
# C164: a `SucVector` after a `load` that threw
-/
set_option linter.unusedSimpArgs false

namespace Verif.Props.SucFail
open Verif.SucFail Verif.Stream Verif.Serializer Verif.IndexIO
open Verif.SucVector (SV Block rank1 get init maxBitSize)

/-- The outcome without the object that an exception leaves behind. -/
def plain : Kept → Res (SV × Src)
  | .ok x s => .ok (x, s)
  | .threw _ => .throw
  | .ub => .ub

theorem num_plain (x : SV) (put : Nat → SV) (rest : SV → Src → Kept) (ld : SV → Src → Res (SV × Src)) (h : ∀ x s, plain (rest x s) = ld x s) (s : Src) :
    plain (num x put rest s) = next loadSize (fun n => ld (put n)) s := by
  simp only [num, next]
  rcases loadSize s with ⟨n, s'⟩ | _ | _
  · exact h _ _
  · rfl
  · rfl

theorem vec_plain {α : Type} (n : Nat) (dec : Nat → α) (junk : Nat → List α) (x : SV) (put : List α → SV) (rest : SV → Src → Kept)
    (ld : SV → Src → Res (SV × Src)) (h : ∀ x s, plain (rest x s) = ld x s) (s : Src) :
    plain (vec n dec junk x put rest s) = next (loadVec n dec) (fun v => ld (put v)) s := by
  simp only [vec, next, loadVec, done, loadPodVec]
  rcases loadSize s with ⟨size, s'⟩ | _ | _
  · simp only [Res.ok_bind]
    split
    · rfl
    · rcases loadElems n size s' with ⟨c, s''⟩ | _ | _
      · exact h _ _
      · rfl
      · rfl
  · rfl
  · rfl

/-- C164: followed this way, `load` succeeds and throws exactly as in C60, with the same object when it succeeds; nothing in it is undefined. -/
theorem C164_same (j : Junk) (sel : Bool) (old : SV) (s : Src) :
    plain (loadKeep j sel old s) = loadSV sel old s ∧ plain (loadKeep j sel old s) ≠ .ub := by
  have h2 : ∀ x s, plain (selKeep j sel x s) = loadSel sel x s := by
    intro x s
    cases sel with
    | false => rfl
    | true =>
      simp only [selKeep, loadSel, if_true]
      rw [vec_plain 4 id j.tbl x (fun t => { x with sel0 := t }) _ (fun y s => next (loadVec 4 id) (fun t1 => done { y with sel1 := t1 }) s)
        (fun y s => vec_plain 4 id j.tbl y _ .ok done (fun _ _ => rfl) s) s]
  have h : plain (loadKeep j sel old s) = loadSV sel old s := by
    simp only [loadKeep, loadSV]
    rw [num_plain old _ _ (fun x => next loadSize fun n0 => next loadSize fun n1 => next (loadVec 40 decBlock) fun b =>
      loadSel sel { x with num0 := n0, num1 := n1, blk := b })]
    intro x s
    rw [num_plain x _ _ (fun x => next loadSize fun n1 => next (loadVec 40 decBlock) fun b => loadSel sel { x with num1 := n1, blk := b })]
    intro x s
    rw [num_plain x _ _ (fun x => next (loadVec 40 decBlock) fun b => loadSel sel { x with blk := b })]
    intro x s
    exact vec_plain 40 decBlock j.blk x _ _ (fun x => loadSel sel x) h2 s
  exact ⟨h, by rw [h]; exact sv_safe sel old s⟩

/-- C164: an object that a failed `load` left can be used again after `init`, whatever is in it. -/
theorem C164_init_again (j : Junk) (sel : Bool) (old : SV) (s : Src) (x : SV) (_h : loadKeep j sel old s = .threw x) (big : Bool)
    (buf : List (BitVec 64)) (n : Nat) (hn : n ≤ maxBitSize big) (hsel : sel = true → n ≤ 2 ^ 40 - 256) (hbuf : (n + 63) / 64 ≤ buf.length) :
    ∃ x', init big sel x buf n = .ok x' ∧ x'.bitSize = n ∧ ∀ p, p < n →
      rank1 big x' p = .ok (Verif.Spec.SucVector.rankOf (Verif.Spec.BitVector.bitsOf buf) true p) ∧
      get x' p = .ok ((Verif.Spec.BitVector.bitsOf buf).getD p false) := by
  obtain ⟨x', h1, h2, h3, _⟩ := Verif.Props.SucVector.C12_init big sel x buf n hn hsel hbuf
  exact ⟨x', h1, h2, fun p hp => ⟨(h3 p hp).1, (h3 p hp).2.2.2⟩⟩

/-- C164: if not even the first number can be read, the object is as before. -/
theorem C164_untouched (j : Junk) (sel : Bool) (old : SV) (s : Src) (h : loadSize s = .throw) : loadKeep j sel old s = .threw old := by
  simp [loadKeep, num, h]

/-- C164, finding: a file that ends after the first number (or in the second one) leaves the new size without the bits: on a new object, `rank1` and
`get` of every position below `size()` then read outside of the vector. -/
theorem C164_finding_size_without_bits (j : Junk) (sel : Bool) (n : Nat) (hn' : n < 2 ^ 64) (m : Nat) (hm : m < 2 ^ 64) (s : Src)
    (q : List UInt8) (hq : q <+: saveSize m) (hq' : q ≠ saveSize m) (hs : s.rest = saveSize n ++ q) :
    ∃ x, loadKeep j sel Verif.SucVector.empty s = .threw x ∧ x.bitSize = n ∧
      ∀ big p, p < n → rank1 big x p = .ub ∧ get x p = .ub := by
  obtain ⟨s', h1, h2⟩ := (loadSize_good n hn').ok s q hs
  have h3 := (loadSize_good m hm).short s' (by rw [h2]; exact hq) (by rw [h2]; exact hq')
  refine ⟨{ Verif.SucVector.empty with bitSize := n }, by simp [loadKeep, num, h1, h3], rfl, fun big p hp => ?_⟩
  have hp' : ¬ p ≥ n := by omega
  constructor
  · simp only [rank1, Verif.SucVector.empty, hp', if_false]
    rw [Verif.at?_eq_ub (by simp)]; rfl
  · simp only [Verif.SucVector.get, Verif.SucVector.empty, hp', if_false]
    rw [Verif.at?_eq_ub (by simp)]; rfl

/-- The hypotheses are met by the file that contains only the size 5. -/
example (j : Junk) : ∃ x, loadKeep j true Verif.SucVector.empty ⟨saveSize 5, fun _ => 0, 0⟩ = .threw x ∧ x.bitSize = 5 ∧
    ∀ big p, p < 5 → rank1 big x p = .ub ∧ get x p = .ub :=
  C164_finding_size_without_bits j true 5 (by decide) 5 (by decide) _ [] (by simp) (by decide) (by simp)

#print axioms C164_same
#print axioms C164_init_again
#print axioms C164_untouched
#print axioms C164_finding_size_without_bits

end Verif.Props.SucFail
