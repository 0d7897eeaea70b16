import Verif.Proof.Gf2

/-!
# The periods of the xorshift generators
-/
set_option linter.unusedSimpArgs false
namespace Verif.Gf2
open Verif.Random

/-- The state of `XorShift` as one vector. -/
def packXs (s : Xs) : BitVec 128 := (((s.w ++ s.z : BitVec 64) ++ s.y : BitVec 96) ++ s.x : BitVec 128)

def unpackXs (v : BitVec 128) : Xs := ⟨v.extractLsb' 0 32, v.extractLsb' 32 32, v.extractLsb' 64 32, v.extractLsb' 96 32⟩

def stepXs (v : BitVec 128) : BitVec 128 := packXs (unpackXs v).get32.2

def packS2 (s : S2) : BitVec 128 := (s.s1 ++ s.s0 : BitVec 128)

def unpackS2 (v : BitVec 128) : S2 := ⟨v.extractLsb' 0 64, v.extractLsb' 64 64⟩

def stepPlus (v : BitVec 128) : BitVec 128 := packS2 (plusGet64 (unpackS2 v)).2

def stepXoro (v : BitVec 128) : BitVec 128 := packS2 (xoroGet64 (unpackS2 v)).2

theorem unpack_packXs (s : Xs) : unpackXs (packXs s) = s := by
  obtain ⟨x, y, z, w⟩ := s
  simp only [unpackXs, packXs, Xs.mk.injEq]
  refine ⟨?_, ?_, ?_, ?_⟩ <;>
  · apply BitVec.eq_of_getLsbD_eq
    intro i hi
    simp only [BitVec.getLsbD_extractLsb', BitVec.getLsbD_append, hi, decide_true, Bool.true_and, Nat.zero_add]
    repeat' split
    all_goals first | rfl | (exact absurd trivial ‹¬ True›) | omega | (congr 1; omega)

theorem unpack_packS2 (s : S2) : unpackS2 (packS2 s) = s := by
  obtain ⟨x, y⟩ := s
  simp only [unpackS2, packS2, S2.mk.injEq]
  refine ⟨?_, ?_⟩ <;>
  · apply BitVec.eq_of_getLsbD_eq
    intro i hi
    simp only [BitVec.getLsbD_extractLsb', BitVec.getLsbD_append, hi, decide_true, Bool.true_and, Nat.zero_add]
    repeat' split
    all_goals first | rfl | (exact absurd trivial ‹¬ True›) | omega | (congr 1; omega)

theorem stepXs_xor (a b : BitVec 128) : stepXs (a ^^^ b) = stepXs a ^^^ stepXs b := by
  simp only [stepXs, packXs, unpackXs, Xs.get32, BitVec.extractLsb'_xor]
  rw [BitVec.xor_append, BitVec.xor_append, BitVec.xor_append]
  refine congrArg (fun w => ((w ++ _ : BitVec 64) ++ _ : BitVec 96) ++ _) ?_
  generalize a.extractLsb' 0 32 = a0
  generalize b.extractLsb' 0 32 = b0
  generalize a.extractLsb' 96 32 = a3
  generalize b.extractLsb' 96 32 = b3
  simp only [BitVec.shiftLeft_xor_distrib, BitVec.ushiftRight_xor_distrib]
  ac_rfl

theorem stepPlus_xor (a b : BitVec 128) : stepPlus (a ^^^ b) = stepPlus a ^^^ stepPlus b := by
  unfold stepPlus packS2 unpackS2 plusGet64
  rw [BitVec.extractLsb'_xor, BitVec.extractLsb'_xor]
  generalize a.extractLsb' 0 64 = a0
  generalize b.extractLsb' 0 64 = b0
  generalize a.extractLsb' 64 64 = a1
  generalize b.extractLsb' 64 64 = b1
  dsimp only
  have hf : (a0 ^^^ b0) ^^^ ((a0 ^^^ b0) <<< 23) = (a0 ^^^ (a0 <<< 23)) ^^^ (b0 ^^^ (b0 <<< 23)) := by
    rw [BitVec.shiftLeft_xor_distrib, xor4]
  rw [hf]
  generalize a0 ^^^ (a0 <<< 23) = c0
  generalize b0 ^^^ (b0 <<< 23) = c1
  rw [BitVec.xor_append, BitVec.ushiftRight_xor_distrib, BitVec.ushiftRight_xor_distrib]
  generalize c0 >>> 18 = d0
  generalize c1 >>> 18 = d1
  generalize a1 >>> 5 = e0
  generalize b1 >>> 5 = e1
  have h : (c0 ^^^ c1) ^^^ (a1 ^^^ b1) ^^^ (d0 ^^^ d1) ^^^ (e0 ^^^ e1) = (c0 ^^^ a1 ^^^ d0 ^^^ e0) ^^^ (c1 ^^^ b1 ^^^ d1 ^^^ e1) := by ac_rfl
  rw [h]

theorem rotl_xor (a b : BitVec 64) (k : Nat) (hk : k < 64) : rotl (a ^^^ b) k = rotl a k ^^^ rotl b k := by
  apply BitVec.eq_of_getLsbD_eq
  intro i hi
  simp only [rotl, BitVec.getLsbD_or, BitVec.getLsbD_xor, BitVec.getLsbD_shiftLeft, BitVec.getLsbD_ushiftRight]
  by_cases h : i < k
  · simp [h, hi]
  · have h1 : ∀ c : BitVec 64, c.getLsbD (64 - k + i) = false := fun c => BitVec.getLsbD_of_ge c _ (by omega)
    simp [h, hi, h1]

theorem stepXoro_xor (a b : BitVec 128) : stepXoro (a ^^^ b) = stepXoro a ^^^ stepXoro b := by
  simp only [stepXoro, packS2, unpackS2, xoroGet64, BitVec.extractLsb'_xor]
  rw [BitVec.xor_append]
  generalize a.extractLsb' 0 64 = a0
  generalize b.extractLsb' 0 64 = b0
  generalize a.extractLsb' 64 64 = a1
  generalize b.extractLsb' 64 64 = b1
  simp only [BitVec.shiftLeft_xor_distrib, rotl_xor _ _ 55 (by decide), rotl_xor _ _ 36 (by decide)]
  generalize rotl a0 55 = c0
  generalize rotl b0 55 = c1
  generalize rotl a0 36 = d0
  generalize rotl b0 36 = d1
  generalize rotl a1 36 = d2
  generalize rotl b1 36 = d3
  generalize a0 <<< 14 = e0
  generalize b0 <<< 14 = e1
  generalize a1 <<< 14 = e2
  generalize b1 <<< 14 = e3
  have h1 : (d2 ^^^ d3) ^^^ (d0 ^^^ d1) = (d2 ^^^ d0) ^^^ (d3 ^^^ d1) := by ac_rfl
  have h2 : (c0 ^^^ c1) ^^^ ((a1 ^^^ b1) ^^^ (a0 ^^^ b0)) ^^^ ((e2 ^^^ e3) ^^^ (e0 ^^^ e1)) =
    (c0 ^^^ (a1 ^^^ a0) ^^^ (e2 ^^^ e0)) ^^^ (c1 ^^^ (b1 ^^^ b0) ^^^ (e3 ^^^ e1)) := by ac_rfl
  rw [h1, h2]

/-- The characteristic polynomial of the step of `XorShift`. -/
def xsP : Nat := 0x1000000010046d8b3f985d65ffd3c8001

/-- Certificate for `cert`. -/
def xsUs : List Nat := [0x64c67953816627d8e1c03fd390fef03c, 0x7232a2b2d2cd53a867f6d94da8f0e71f, 0xd92cfed57f9e066f93380aec55c55bd2, 0x69811d7e2688b56f2a355778589f965c, 0xcce7c6e13d991eee18d029420f46ad66, 0xebffb80a9dc68f285f9da04a028d3ac, 0x5cb6e0cad66a1311fb7fd060f21d1ed1, 0x4909a189c67b7953b575a8e2c60df884, 0x35c6d222f6580cd92fd392c181af582b]

/-- The characteristic polynomial of the step of `XorShift128Plus`. -/
def plusP : Nat := 0x12844c5d42caf7db0024f06fae9e61daf

/-- Certificate for `cert`. -/
def plusUs : List Nat := [0x77497e24078ea653674b661defae65f7, 0x556864141afc7df41b042dd398106d68, 0x70b3fbca377e711544cf6a365902a35c, 0x269935b1f2b18aa9e8bbd1aa85a79afa, 0x27575cb6ae66c22007246189e7d91e9, 0x799c348f222013dd1689919b68fa9982, 0x2a9eeb1e8d0ee0f28600eb08bd0b93b1, 0xfec9a6dd2e30447a7f145c5b33bfb41d, 0xc57939fb3ca919e245a7015824e23d2e]

/-- The characteristic polynomial of the step of `Xoroshiro128Plus`. -/
def xoroP : Nat := 0x100653ced7f29f88a5fd66762f0e1c001

/-- Certificate for `cert`. -/
def xoroUs : List Nat := [0xff8cefb76846895353ca0f0fe69d9ac1, 0x44746645e1e994f5f0fe77cc421dfaaa, 0x32c47704c6cdf7931acf2a818a19f62d, 0x96f288cba5870497fd983bf5d14bdbeb, 0xa7e437605ed5e3ae3e409dba24fc1dcd, 0xecb57a9ef6f5a6fff4387293b32f3b0c, 0xe9e260cf9faf324aeb4d0d5da638cf50, 0x14ca8334099b25f5a6585d516b1fd6f1, 0x139bd4d8ba1f6134c128219c7d36e79d]

theorem xsCert : cert xsP xsUs = true := by decide +kernel

theorem plusCert : cert plusP plusUs = true := by decide +kernel

theorem xoroCert : cert xoroP xoroUs = true := by decide +kernel

theorem kills_of {T : BitVec 128 → BitVec 128} {P : Nat} (hT : ∀ a b, T (a ^^^ b) = T a ^^^ T b)
    (h : (List.range 128).all (fun i => decide (hor T 129 P (BitVec.twoPow 128 i) 0 = 0)) = true) (s : BitVec 128) : act T 129 P s = 0 := by
  refine zero_of_bits (act T 129 P) (act_xor hT 129 P) ?_ s
  intro i hi
  have := List.all_eq_true.mp h i (List.mem_range.mpr hi)
  rw [decide_eq_true_eq, hor_eq hT, iter_zero hT] at this
  simpa using this

theorem xsKills : ∀ s, act stepXs 129 xsP s = 0 := kills_of stepXs_xor (by decide +kernel)

theorem plusKills : ∀ s, act stepPlus 129 plusP s = 0 := kills_of stepPlus_xor (by decide +kernel)

theorem xoroKills : ∀ s, act stepXoro 129 xoroP s = 0 := kills_of stepXoro_xor (by decide +kernel)

/-- `T` moves every vector but 0 on one single cycle. -/
def OneCycle (T : BitVec 128 → BitVec 128) : Prop := ∀ s, s ≠ 0 → ∀ k, T^[k] s = s ↔ 2 ^ 128 - 1 ∣ k

theorem xsCycle : OneCycle stepXs := period xsCert stepXs_xor xsKills

theorem plusCycle : OneCycle stepPlus := period plusCert stepPlus_xor plusKills

theorem xoroCycle : OneCycle stepXoro := period xoroCert stepXoro_xor xoroKills

theorem OneCycle.nonzero {T : BitVec 128 → BitVec 128} (h : OneCycle T) (h0 : T 0 = 0) (s : BitVec 128) (hs : s ≠ 0) (k : Nat) : T^[k] s ≠ 0 := by
  intro hk
  have hz : ∀ j, T^[j] 0 = 0 := by
    intro j
    induction j with
    | zero => rfl
    | succ j ih => rw [Function.iterate_succ_apply', ih, h0]
  have h1 := (h s hs ((2 ^ 128 - 1) * k)).mpr ⟨k, rfl⟩
  have h2 : (2 ^ 128 - 1) * k = (2 ^ 128 - 2) * k + k := by
    rw [show (2 ^ 128 - 1) = (2 ^ 128 - 2) + 1 by norm_num]; ring
  rw [h2, Function.iterate_add_apply, hk, hz] at h1
  exact hs h1.symm

theorem OneCycle.inj {T : BitVec 128 → BitVec 128} (h : OneCycle T) (s : BitVec 128) (hs : s ≠ 0) {i j : Nat} (hi : i < 2 ^ 128 - 1) (hj : j < 2 ^ 128 - 1)
    (e : T^[i] s = T^[j] s) : i = j := by
  have key : ∀ i j, i ≤ j → j < 2 ^ 128 - 1 → T^[i] s = T^[j] s → i = j := by
    intro i j hij hj e
    have h1 : T^[2 ^ 128 - 1] s = s := (h s hs _).mpr (Nat.dvd_refl _)
    have h2 := congrArg (T^[2 ^ 128 - 1 - i]) e
    rw [← Function.iterate_add_apply, ← Function.iterate_add_apply, Nat.sub_add_cancel (by omega), h1] at h2
    obtain ⟨c, hc⟩ := (h s hs _).mp h2.symm
    have : c = 1 := by
      rcases c with _ | _ | c
      · omega
      · rfl
      · have : (2 ^ 128 - 1) * (c + 1 + 1) = (2 ^ 128 - 1) * c + 2 * (2 ^ 128 - 1) := by ring
        generalize (2 ^ 128 - 1) * c = q at this
        omega
    subst this
    omega
  rcases Nat.le_total i j with h1 | h1
  · exact key i j h1 hj e
  · exact (key j i h1 hi e.symm).symm

theorem OneCycle.surj {T : BitVec 128 → BitVec 128} (h : OneCycle T) (h0 : T 0 = 0) (s t : BitVec 128) (hs : s ≠ 0) (ht : t ≠ 0) :
    ∃ k, k < 2 ^ 128 - 1 ∧ T^[k] s = t := by
  let g : Fin (2 ^ 128) → Fin (2 ^ 128) := fun k => if k.val = 0 then (0 : BitVec 128).toFin else (T^[k.val - 1] s).toFin
  have hg : Function.Injective g := by
    intro i j e
    have hne := h.nonzero h0 s hs
    have hf : ∀ a b : BitVec 128, a.toFin = b.toFin → a = b := by
      intro a b hab
      exact BitVec.eq_of_toFin_eq hab
    dsimp only [g] at e
    split at e <;> split at e
    · apply Fin.ext; omega
    · exact absurd (hf _ _ e).symm (hne _)
    · exact absurd (hf _ _ e) (hne _)
    · have := h.inj s hs (i := i.val - 1) (j := j.val - 1) (by omega) (by omega) (hf _ _ e)
      apply Fin.ext; omega
  obtain ⟨k, hk⟩ := Finite.injective_iff_surjective.mp hg t.toFin
  dsimp only [g] at hk
  split at hk
  · exact absurd (BitVec.eq_of_toFin_eq hk).symm ht
  · exact ⟨k.val - 1, by omega, BitVec.eq_of_toFin_eq hk⟩

end Verif.Gf2
