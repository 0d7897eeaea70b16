import Verif.Model.Select8Gen
import Verif.Props.Select8

set_option linter.unusedSimpArgs false

/-! # C119: the program that makes the table of `select8` -/
namespace Verif.Props.Select8Gen
open Verif.Select8Gen
open Verif.Props.Select8 (ones)

theorem ones_succ (v n : Nat) : ones v (n + 1) = ones v n + if v.testBit n then 1 else 0 := by
  rw [ones, List.range_succ, List.filter_append, List.length_append, ones]
  by_cases hb : v.testBit n = true <;> simp [hb]

theorem bit_ne (v : BitVec 64) (i : Nat) (hi : i < 64) : (v &&& (1#64 <<< i) ≠ 0) ↔ v.toNat.testBit i = true := by
  rw [BitVec.testBit_toNat]
  constructor
  · intro h
    by_cases hb : v.getLsbD i = true
    · exact hb
    exfalso
    apply h
    apply BitVec.eq_of_getLsbD_eq
    intro j hj
    by_cases e : j = i
    · subst e; simp [hb]
    · have : ¬ (j - i = 0 ∧ ¬ j < i) := by omega
      simp
      intro _ _ _
      omega
  · intro hb h
    have := congrArg (fun x => BitVec.getLsbD x i) h
    simp [hi] at this
    rw [BitVec.getLsbD_eq_getElem hi, this] at hb
    cases hb

theorem loop_spec (v : BitVec 64) (r : Nat) : ∀ k i, i + k = 64 →
    (∃ p, i ≤ p ∧ p < 64 ∧ loop v r k i (ones v.toNat i) = p ∧ ones v.toNat (p + 1) = r ∧
      ∀ j, i ≤ j → j < p → ones v.toNat (j + 1) ≠ r) ∨
    (loop v r k i (ones v.toNat i) = 64 ∧ ∀ j, i ≤ j → j < 64 → ones v.toNat (j + 1) ≠ r) := by
  intro k
  induction k with
  | zero => intro i hi; exact .inr ⟨rfl, fun j h1 h2 => by omega⟩
  | succ k ih =>
    intro i hi
    have hc : (if v &&& (1#64 <<< i) ≠ 0 then ones v.toNat i + 1 else ones v.toNat i) = ones v.toNat (i + 1) := by
      rw [ones_succ]
      by_cases hb : v.toNat.testBit i = true
      · rw [if_pos ((bit_ne v i (by omega)).mpr hb), if_pos hb]
      · rw [if_neg (fun h => hb ((bit_ne v i (by omega)).mp h)), if_neg hb, Nat.add_zero]
    rw [loop]
    simp only [hc]
    by_cases h : ones v.toNat (i + 1) = r
    · rw [if_pos h]
      exact .inl ⟨i, Nat.le_refl _, by omega, rfl, h, fun j h1 h2 => by omega⟩
    · rw [if_neg h]
      rcases ih (i + 1) (by omega) with ⟨p, h1, h2, h3, h4, h5⟩ | ⟨h3, h5⟩
      · refine .inl ⟨p, by omega, h2, h3, h4, fun j g1 g2 => ?_⟩
        by_cases e : j = i
        · subst e; exact h
        · exact h5 j (by omega) g2
      · refine .inr ⟨h3, fun j g1 g2 => ?_⟩
        by_cases e : j = i
        · subst e; exact h
        · exact h5 j (by omega) g2

/-- C119.  For every 64-bit word and every `r` the function of the generator gives the first position up to which (inclusive) there are
exactly `r` ones, and 64 if there is none. -/
theorem C119_select8 (v : BitVec 64) (r : Nat) :
    (select8 v r < 64 ∧ ones v.toNat (select8 v r + 1) = r ∧ ∀ j, j < select8 v r → ones v.toNat (j + 1) ≠ r) ∨
    (select8 v r = 64 ∧ ∀ j, j < 64 → ones v.toNat (j + 1) ≠ r) := by
  have h0 : ones v.toNat 0 = 0 := rfl
  rcases loop_spec v r 64 0 rfl with ⟨p, _, h2, h3, h4, h5⟩ | ⟨h3, h5⟩
  · rw [h0] at h3
    rw [select8, h3]
    exact .inl ⟨h2, h4, fun j g => h5 j (Nat.zero_le _) g⟩
  · rw [h0] at h3
    rw [select8, h3]
    exact .inr ⟨rfl, fun j g => h5 j (Nat.zero_le _) g⟩

/-- C119.  The table of the header holds exactly the values the generator computes. -/
theorem C119_header (v x : Nat) (hv : v < 256) (hx : x < 8) :
    SucVector.select8 v x = .ok (select8 (BitVec.ofNat 64 v) x) := by
  obtain ⟨p, e, h⟩ := Select8.C13_select8_table v x hv hx
  have hn : (BitVec.ofNat 64 v).toNat = v := by
    rw [BitVec.toNat_ofNat]; exact Nat.mod_eq_of_lt (by omega)
  have h' := C119_select8 (BitVec.ofNat 64 v) x
  rw [hn] at h'
  rw [e]
  congr 1
  generalize select8 (BitVec.ofNat 64 v) x = q at h' ⊢
  rcases h with ⟨h1, h2, h3⟩ | ⟨h1, h2⟩ <;> rcases h' with ⟨g1, g2, g3⟩ | ⟨g1, g2⟩
  · rcases Nat.lt_trichotomy p q with hlt | heq | hgt
    · exact absurd h2 (g3 p hlt)
    · exact heq
    · exact absurd g2 (h3 q hgt)
  · exact absurd h2 (g2 p (by omega))
  · exact absurd g2 (h2 q)
  · omega

/-- How a table is written down in C++: a row of numbers between braces, each with a comma after it, and a comma after the row. -/
def rowText (l : List Nat) : String := "{" ++ String.join (l.map fun n => toString n ++ ", ") ++ "},\n"

theorem select8_le (v : BitVec 64) (r : Nat) : select8 v r ≤ 64 := by
  rcases C119_select8 v r with ⟨h, _⟩ | ⟨h, _⟩ <;> omega

theorem item_small (n : Nat) (h : n ≤ 64) : item n = toString n ++ ", " := by
  have : Int.bmod n (2 ^ 32) = (n : Int) := by
    rw [Int.bmod_eq_of_le] <;> omega
  rw [item, this]; rfl

theorem tbl_rows : SucVector.select8Tbl =
    (List.range 256).map fun x => (List.range 8).map fun i => select8 (BitVec.ofNat 64 x) i := by decide +kernel

theorem row_text (x : Nat) : row x = rowText ((List.range 8).map fun i => select8 (BitVec.ofNat 64 x) i) := by
  have h : (fun i => item (select8 (BitVec.ofNat 64 x) i)) =
      (fun n => toString n ++ ", ") ∘ fun i => select8 (BitVec.ofNat 64 x) i := by
    funext i
    rw [item_small _ (select8_le _ _)]; rfl
  rw [row, rowText, h, ← List.map_map]

theorem rows (n : Nat) : (List.range n).map row =
    ((List.range n).map fun x => (List.range 8).map fun i => select8 (BitVec.ofNat 64 x) i).map rowText := by
  rw [List.map_map]
  exact List.map_congr_left fun x _ => row_text x

/-- C119.  What the program prints is the table of the header. -/
theorem C119_output : main = String.join (SucVector.select8Tbl.map rowText) := by
  rw [tbl_rows, ← rows, main]

/-- Positions of ones in a word with bits above the first byte. -/
example : select8 0x8000000000010002#64 2 = 16 ∧ select8 0x8000000000010002#64 3 = 63 ∧ select8 0x8000000000010002#64 4 = 64 ∧
    select8 0x8000000000010002#64 0 = 0 := by decide +kernel

example : row 22 = "{0, 1, 2, 4, 64, 64, 64, 64, },\n" := by decide +kernel

#print axioms C119_select8
#print axioms C119_header
#print axioms C119_output

end Verif.Props.Select8Gen
