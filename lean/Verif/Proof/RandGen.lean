import Verif.Model.RandGen
import Verif.Spec.RandGen
import Verif.Proof.Endian

/-!
# Lemmas for C92
-/
set_option linter.unusedSimpArgs false
namespace Verif.RandGen
open Verif.Spec.RandGen Verif.Spec.Endian

theorem store_ok {d : Dev} {k : Nat} {buf : List UInt8} (h : k ≤ buf.length) :
    ∃ buf', d.store k buf = .ok (buf', { d with pos := d.pos + k }) ∧ Filled d.bytes d.pos k buf buf' := by
  refine ⟨_, by rw [Dev.store, if_pos h], ?_, ?_, ?_⟩
  · simp; omega
  · intro i hi
    rw [List.getElem?_append_left (by simpa using hi)]
    simp [hi]
  · intro i hi
    rw [List.getElem?_append_right (by simpa using hi)]
    simp only [List.length_map, List.length_range, List.getElem?_drop]
    rw [Nat.add_sub_cancel' hi]

theorem amount_le (d : Dev) (n : Nat) : d.amount n ≤ n := by
  unfold Dev.amount
  split
  · exact Nat.le_refl _
  · exact Nat.min_le_left _ _

theorem freadCount_small {n : Nat} (h : n < 2 ^ 31) : freadCount n = n := by
  unfold freadCount
  have : ((n : Int).bmod (2 ^ 32)) = n := by
    rw [Int.bmod_eq_of_le] <;> omega
  rw [this]
  omega

theorem freadCount_large {n : Nat} (h : 2 ^ 31 ≤ n % 2 ^ 32) : freadCount n = 2 ^ 64 - 2 ^ 32 + n % 2 ^ 32 := by
  unfold freadCount
  have : ((n : Int).bmod (2 ^ 32)) = (n % 2 ^ 32 : Int) - 2 ^ 32 := by
    rw [Int.bmod_def, if_neg (by omega)]; rfl
  rw [this]
  omega

theorem freadCount_wrap {n : Nat} (h : n % 2 ^ 32 < 2 ^ 31) : freadCount n = n % 2 ^ 32 := by
  unfold freadCount
  have : ((n : Int).bmod (2 ^ 32)) = (n % 2 ^ 32 : Int) := by
    rw [Int.bmod_def, if_pos (by omega)]; rfl
  rw [this]
  omega

theorem read_some (s : Nat) (d : Dev) (buf : List UInt8) (k : Nat) :
    read s (some d) buf k = (d.fread (freadCount (byteSize s k)) buf >>= fun r =>
      .ok (decide (r.1 = byteSize s k), r.2.1, some r.2.2)) := rfl

theorem fread_ok {d : Dev} {n : Nat} {buf : List UInt8} (h : d.amount n ≤ buf.length) :
    ∃ buf', d.fread n buf = .ok (d.amount n, buf', { d with pos := d.pos + d.amount n }) ∧
      Filled d.bytes d.pos (d.amount n) buf buf' := by
  obtain ⟨b, e, hf⟩ := store_ok (d := d) h
  exact ⟨b, by rw [Dev.fread, e]; rfl, hf⟩

theorem fread_ub {d : Dev} {n : Nat} {buf : List UInt8} (h : buf.length < d.amount n) : d.fread n buf = .ub := by
  rw [Dev.fread, Dev.store, if_neg (by omega)]; rfl

theorem le_lt : ∀ bs : List UInt8, le bs < 256 ^ bs.length
  | [] => by decide
  | b :: bs => by
    have := le_lt bs
    have hb : b.toNat < 256 := b.toNat_lt
    simp only [le, List.foldr_cons, List.length_cons, Nat.pow_succ]
    simp only [le] at this
    omega

theorem bytesLE_le : ∀ bs : List UInt8, bytesLE bs.length (le bs) = bs
  | [] => rfl
  | b :: bs => by
    have ih := bytesLE_le bs
    have hb : b.toNat < 256 := b.toNat_lt
    simp only [bytesLE, List.length_cons, List.range_succ_eq_map, List.map_cons, List.map_map, Nat.pow_zero,
      Nat.div_one]
    congr 1
    · have e : le (b :: bs) % 256 = b.toNat := by simp only [le, List.foldr_cons]; omega
      rw [e]; exact UInt8.ofNat_toNat
    · conv => rhs; rw [← ih]
      unfold bytesLE
      apply List.map_congr_left
      intro i _
      simp only [Function.comp]
      have e : le (b :: bs) / 256 ^ i.succ = le bs / 256 ^ i := by
        rw [Nat.succ_eq_add_one, Nat.pow_succ, Nat.mul_comm, ← Nat.div_div_eq_div_mul]
        congr 1
        simp only [le, List.foldr_cons]; omega
      rw [e]

theorem list_eq_of_get {bs cs : List UInt8} {n : Nat} (h1 : bs.length = n) (h2 : cs.length = n)
    (h : ∀ i, i < n → bs[i]? = cs[i]?) : bs = cs := by
  apply List.ext_getElem?
  intro i
  by_cases hi : i < n
  · exact h i hi
  · rw [List.getElem?_eq_none (by omega), List.getElem?_eq_none (by omega)]

end Verif.RandGen
