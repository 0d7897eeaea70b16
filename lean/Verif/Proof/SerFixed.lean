import Verif.Model.SerFixed
import Verif.Spec.SerFixed
import Verif.Proof.Serializer
set_option linter.unusedSimpArgs false

/-! Lemmas for C151. -/
namespace Verif.SerFixed
open Verif.Stream Verif.Endian Verif.Spec.Serializer Verif.Spec.SerFixed
open Verif.Serializer (Ty Val width default Good Safe loadMany loadPair setInsert mapInsert umapInsert loaded loaded_default loadMany_good
  loadMany_safe foldl_append_one pair_good pair_safe loadPod_good loadPod_safe loadElems loadElems_good loadElems_safe chunks chunks_save
  podVec_bytes savePod loadPod)

theorem bytes_width (l : Bool) : 8 * bytes l = width l := by cases l <;> rfl

theorem int_good (l : Bool) (x : BitVec (width l)) : Good (loadInt l) (saveInt l x) x := by
  have := (loadPod_good (bytes l) x.toNat).map (fun v => BitVec.ofNat (width l) v.toNat)
  have e : BitVec.ofNat (width l) (BitVec.ofNat (8 * bytes l) x.toNat).toNat = x := by
    apply BitVec.eq_of_toNat_eq
    rw [BitVec.toNat_ofNat, BitVec.toNat_ofNat, bytes_width, Nat.mod_mod, Nat.mod_eq_of_lt x.isLt]
  rw [e] at this
  exact this

theorem int_safe (l : Bool) : Safe (loadInt l) := (loadPod_safe (bytes l)).map (fun v : BitVec (8 * bytes l) => BitVec.ofNat (width l) v.toNat)

theorem loadSize_good (n : Nat) (h : n < 2 ^ 64) : Good loadSize (saveSize n) n := by
  have := (int_good true (BitVec.ofNat 64 n)).map (fun v : BitVec 64 => v.toNat)
  rw [BitVec.toNat_ofNat, Nat.mod_eq_of_lt h] at this
  exact this

theorem loadSize_safe : Safe loadSize := (int_safe true).map (fun v : BitVec 64 => v.toNat)

theorem sized_good {α : Type} {f : Nat → Src → Res (α × Src)} {n : Nat} {b : List UInt8} {v : α} (hn : n < 2 ^ 64) (h : Good (f n) b v) :
    Good (fun s => do let (size, s) ← loadSize s; f size s) (saveSize n ++ b) v :=
  Good.bind (loadSize_good n hn) h

theorem podVec_good (n : Nat) (hn : 0 < n) (v : List (BitVec (8 * n))) (hv : v.length * n < 2 ^ 63) :
    Good (loadPodVec n) (savePodVec n v) v := by
  have hl : v.length ≤ v.length * n := Nat.le_mul_of_pos_right _ hn
  apply sized_good (f := fun size s => if size * n ≥ 2 ^ 63 then .throw else do
    let (c, s) ← loadElems n size s
    return (chunks n size c, s)) (by omega)
  have := (loadElems_good n v.length _ (podVec_bytes n v)).map (fun c => chunks n v.length c)
  rw [chunks_save] at this
  apply this.congr
  intro s
  rw [if_neg (by omega)]

theorem podVec_safe (n : Nat) : Safe (loadPodVec n) := by
  apply Safe.bind (l2 := fun size s => if size * n ≥ 2 ^ 63 then .throw else do
    let (c, s) ← loadElems n size s
    return (chunks n size c, s)) loadSize_safe
  intro size s
  split
  · simp
  · exact (loadElems_safe n size).map (fun c => chunks n size c) s

theorem str_good (x : List UInt8) (hx : x.length < 2 ^ 63) : Good loadStr (saveStr x) x := by
  apply sized_good (f := fun size s => if size ≥ 2 ^ 63 then .throw else loadElems 1 size s) (by omega)
  apply (loadElems_good 1 x.length x (by omega)).congr
  intro s
  rw [if_neg (by omega)]

theorem str_safe : Safe loadStr := by
  apply Safe.bind (l2 := fun size s => if size ≥ 2 ^ 63 then .throw else loadElems 1 size s) loadSize_safe
  intro size s
  split
  · simp
  · exact loadElems_safe 1 size s

variable (ord same : (t : Ty) → Val t → Val t → Bool)

theorem load_good (t : Ty) : ∀ (old x : Val t), Valid ord same t x →
    Good (load ord same t old) (save t x) (loaded ord same t old x) := by
  induction t with
  | pod n =>
    intro old x _
    have := loadPod_good n x.toNat
    simpa [load, save, loaded] using this
  | int l => intro old x _; exact int_good l x
  | str => intro old x h; exact str_good x h
  | podVec n => intro old x h; exact podVec_good n h.1 x h.2
  | seq t ih =>
    intro old x h
    have hm := loadMany_good (ld := load ord same t (default t)) (sv := save t) (fun x e => x ++ [e]) x
      (fun e he => by have := ih (default t) e (h.2 e he); rw [loaded_default ord same t e (h.2 e he)] at this; exact this) []
    rw [foldl_append_one, List.nil_append] at hm
    exact sized_good (f := fun size s => loadMany (load ord same t (default t)) (fun x e => x ++ [e]) size [] s) h.1 hm
  | set k ih =>
    intro old x h
    have hm := loadMany_good (ld := load ord same k (default k)) (sv := save k) (setInsert (ord k)) x
      (fun e he => by have := ih (default k) e (h.2.1 e he); rw [loaded_default ord same k e (h.2.1 e he)] at this; exact this) old
    exact sized_good (f := fun size s => loadMany (load ord same k (default k)) (setInsert (ord k)) size old s) h.1 hm
  | map k v ihk ihv =>
    intro old x h
    have hm := loadMany_good (ld := loadPair (load ord same k (default k)) (load ord same v (default v)))
      (sv := fun p => save k p.1 ++ save v p.2) (mapInsert (ord k)) x
      (fun e he => by
        have h1 := ihk (default k) e.1 (h.2.1 e he).1
        have h2 := ihv (default v) e.2 (h.2.1 e he).2
        rw [loaded_default ord same k _ (h.2.1 e he).1] at h1
        rw [loaded_default ord same v _ (h.2.1 e he).2] at h2
        exact pair_good h1 h2) old
    exact sized_good (f := fun size s => loadMany (loadPair (load ord same k (default k)) (load ord same v (default v)))
      (mapInsert (ord k)) size old s) h.1 hm
  | umap k v ihk ihv =>
    intro old x h
    have hm := loadMany_good (ld := loadPair (load ord same k (default k)) (load ord same v (default v)))
      (sv := fun p => save k p.1 ++ save v p.2) (umapInsert (same k)) x
      (fun e he => by
        have h1 := ihk (default k) e.1 (h.2.1 e he).1
        have h2 := ihv (default v) e.2 (h.2.1 e he).2
        rw [loaded_default ord same k _ (h.2.1 e he).1] at h1
        rw [loaded_default ord same v _ (h.2.1 e he).2] at h2
        exact pair_good h1 h2) old
    exact sized_good (f := fun size s => loadMany (loadPair (load ord same k (default k)) (load ord same v (default v)))
      (umapInsert (same k)) size old s) h.1 hm

theorem load_safe (t : Ty) : ∀ old, Safe (load ord same t old) := by
  induction t with
  | pod n => intro old; exact loadPod_safe n
  | int l => intro old; exact int_safe l
  | str => intro old; exact str_safe
  | podVec n => intro old; exact podVec_safe n
  | seq t ih =>
    intro old
    exact Safe.bind (l2 := fun size s => loadMany (load ord same t (default t)) (fun x e => x ++ [e]) size [] s) loadSize_safe
      (fun size => loadMany_safe _ (ih _) size [])
  | set k ih =>
    intro old
    exact Safe.bind (l2 := fun size s => loadMany (load ord same k (default k)) (setInsert (ord k)) size old s) loadSize_safe
      (fun size => loadMany_safe _ (ih _) size old)
  | map k v ihk ihv =>
    intro old
    exact Safe.bind (l2 := fun size s => loadMany (loadPair (load ord same k (default k)) (load ord same v (default v)))
      (mapInsert (ord k)) size old s) loadSize_safe (fun size => loadMany_safe _ (pair_safe (ihk _) (ihv _)) size old)
  | umap k v ihk ihv =>
    intro old
    exact Safe.bind (l2 := fun size s => loadMany (loadPair (load ord same k (default k)) (load ord same v (default v)))
      (umapInsert (same k)) size old s) loadSize_safe (fun size => loadMany_safe _ (pair_safe (ihk _) (ihv _)) size old)

theorem size_length (n : Nat) : (saveSize n).length = 8 := by
  simp [saveSize, saveInt, savePod, bytes]

theorem many_length {α : Type} (f : α → List UInt8) (g : α → Nat) (l : List α) (h : ∀ x ∈ l, (f x).length = g x) :
    (l.map f).flatten.length = (l.map g).sum := by
  induction l with
  | nil => rfl
  | cons x l ih =>
    rw [List.map_cons, List.flatten_cons, List.length_append, h x (by simp), ih (fun y hy => h y (by simp [hy])), List.map_cons, List.sum_cons]

theorem save_length (t : Ty) : ∀ x : Val t, (save t x).length = room t x := by
  induction t with
  | pod n => intro x; simp [save, room, savePod]
  | int l => intro x; cases l <;> simp [save, room, saveInt, savePod, bytes]
  | str => intro x; rw [save, saveStr, List.length_append, size_length, room]
  | podVec n => intro x; rw [save, savePodVec, List.length_append, size_length, podVec_bytes, room]
  | seq t ih => intro x; rw [save, List.length_append, size_length, many_length _ _ x (fun e _ => ih e), room]
  | set t ih => intro x; rw [save, List.length_append, size_length, many_length _ _ x (fun e _ => ih e), room]
  | map k v ihk ihv =>
    intro x
    rw [save, List.length_append, size_length, many_length _ (fun p : Val k × Val v => room k p.1 + room v p.2) x
      (fun e _ => by rw [List.length_append, ihk, ihv]), room]
  | umap k v ihk ihv =>
    intro x
    rw [save, List.length_append, size_length, many_length _ (fun p : Val k × Val v => room k p.1 + room v p.2) x
      (fun e _ => by rw [List.length_append, ihk, ihv]), room]

end Verif.SerFixed
