import Verif.Proof.RandGen
import Verif.Model.Random
import Verif.Proof.Random

/-!
# C92 `RandomGenerator`
-/
set_option linter.unusedSimpArgs false
namespace Verif.Props.RandGen
open Verif.RandGen Verif.Spec.RandGen Verif.Spec.Endian

/-- C92: a request of less than 2^31 bytes that the device can serve fills the array with the next bytes of
the device, in order, touches nothing else, and says so.  Missing for the full claim: larger requests, see
the findings. -/
theorem C92_fills_partial (sizeofT bufNum : Nat) (d : Dev) (buf : List UInt8) (hs : sizeofT * bufNum < 2 ^ 31)
    (hb : sizeofT * bufNum ≤ buf.length) (hd : ∀ l, d.limit = some l → d.pos + sizeofT * bufNum ≤ l) :
    ∃ buf', read sizeofT (some d) buf bufNum = .ok (true, buf', some { d with pos := d.pos + sizeofT * bufNum }) ∧
      readThrow sizeofT (some d) buf bufNum = .ok (buf', some { d with pos := d.pos + sizeofT * bufNum }) ∧
      Filled d.bytes d.pos (sizeofT * bufNum) buf buf' := by
  have e0 : byteSize sizeofT bufNum = sizeofT * bufNum := Nat.mod_eq_of_lt (by omega)
  have ea : d.amount (sizeofT * bufNum) = sizeofT * bufNum := by
    unfold Dev.amount
    split
    · rfl
    · next l hl => have := hd l hl; omega
  obtain ⟨b, e, hf⟩ := fread_ok (d := d) (n := sizeofT * bufNum) (buf := buf) (by omega)
  rw [ea] at e hf
  have er : read sizeofT (some d) buf bufNum = .ok (true, b, some { d with pos := d.pos + sizeofT * bufNum }) := by
    rw [read_some, e0, freadCount_small hs, e]; simp
  exact ⟨b, er, by rw [readThrow, er]; rfl, hf⟩

/-- C92: if the device cannot deliver all of them, the failure is reported, and the throwing version throws. -/
theorem C92_failure_reported (sizeofT bufNum : Nat) (d : Dev) (buf : List UInt8) (l : Nat)
    (hs : sizeofT * bufNum < 2 ^ 31) (hb : sizeofT * bufNum ≤ buf.length) (hl : d.limit = some l)
    (hp : d.pos ≤ l) (hd : l < d.pos + sizeofT * bufNum) :
    (∃ buf' fp, read sizeofT (some d) buf bufNum = .ok (false, buf', fp) ∧ buf'.length = buf.length) ∧
      readThrow sizeofT (some d) buf bufNum = .throw := by
  have e0 : byteSize sizeofT bufNum = sizeofT * bufNum := Nat.mod_eq_of_lt (by omega)
  have ea : d.amount (sizeofT * bufNum) < sizeofT * bufNum := by
    unfold Dev.amount; rw [hl]; show min _ _ < _; omega
  obtain ⟨b, e, hf⟩ := fread_ok (d := d) (n := sizeofT * bufNum) (buf := buf) (by omega)
  have er : read sizeofT (some d) buf bufNum =
      .ok (false, b, some { d with pos := d.pos + d.amount (sizeofT * bufNum) }) := by
    rw [read_some, e0, freadCount_small hs, e]; simp; omega
  exact ⟨⟨b, _, er, hf.1⟩, by rw [readThrow, er]; rfl⟩

/-- C92: success is never reported for an array that was not filled, whatever its size (if the size in
bytes is a `size_t`). -/
theorem C92_success_means_filled (sizeofT bufNum : Nat) (fp fp' : Option Dev) (buf buf' : List UInt8)
    (hs : sizeofT * bufNum < 2 ^ 64) (h : read sizeofT fp buf bufNum = .ok (true, buf', fp')) :
    ∃ d, fp = some d ∧ fp' = some { d with pos := d.pos + sizeofT * bufNum } ∧
      Filled d.bytes d.pos (sizeofT * bufNum) buf buf' := by
  have e0 : byteSize sizeofT bufNum = sizeofT * bufNum := Nat.mod_eq_of_lt hs
  cases fp with
  | none => simp [Verif.RandGen.read] at h
  | some d =>
    rw [read_some, e0] at h
    by_cases hk : d.amount (freadCount (sizeofT * bufNum)) ≤ buf.length
    · obtain ⟨b, e, hf⟩ := fread_ok (d := d) hk
      rw [e] at h
      simp only [Res.ok_bind, Res.ok.injEq, Prod.mk.injEq, decide_eq_true_eq] at h
      obtain ⟨h1, rfl, rfl⟩ := h
      rw [h1] at hf ⊢
      exact ⟨d, rfl, rfl, hf⟩
    · rw [fread_ub (by omega)] at h; simp at h

/-- C92: a generator whose device could not be opened never reports success; with exceptions it cannot be
constructed. -/
theorem C92_not_opened (sizeofT bufNum : Nat) (buf : List UInt8) :
    construct none = .throw ∧ read sizeofT none buf bufNum = .ok (false, buf, none) ∧
      readThrow sizeofT none buf bufNum = .throw := ⟨rfl, rfl, rfl⟩

/-- C92: an object whose device could be opened reads from that device. -/
theorem C92_opened (sizeofT bufNum : Nat) (d : Dev) (buf : List UInt8) :
    (construct (some d) >>= fun fp => readThrow sizeofT fp buf bufNum) = readThrow sizeofT (some d) buf bufNum := rfl

/-- C92: `get32` is made of the next four bytes of the device, whatever the memory contained. -/
theorem C92_get32 (junk : BitVec 32) (d : Dev) (hd : ∀ l, d.limit = some l → d.pos + 4 ≤ l) :
    ∃ x, get32 junk (some d) = .ok (x, some { d with pos := d.pos + 4 }) ∧
      ∀ i, i < 4 → (bytesLE 4 x.toNat)[i]? = some (d.bytes (d.pos + i)) := by
  obtain ⟨b, _, e, hl, hf, _⟩ := C92_fills_partial 4 1 d ((List.range 4).map fun i => UInt8.ofNat (junk.toNat / 256 ^ i))
    (by decide) (by simp) (by simpa using hd)
  have hl4 : b.length = 4 := by simpa using hl
  refine ⟨BitVec.ofNat 32 (le b), by rw [get32, e]; rfl, fun i hi => ?_⟩
  have hlt := le_lt b
  rw [hl4] at hlt
  rw [BitVec.toNat_ofNat, Nat.mod_eq_of_lt (by omega)]
  have := bytesLE_le b
  rw [hl4] at this
  rw [this]
  exact hf i (by omega)

/-- C92: the same for `get64` and eight bytes. -/
theorem C92_get64 (junk : BitVec 64) (d : Dev) (hd : ∀ l, d.limit = some l → d.pos + 8 ≤ l) :
    ∃ x, get64 junk (some d) = .ok (x, some { d with pos := d.pos + 8 }) ∧
      ∀ i, i < 8 → (bytesLE 8 x.toNat)[i]? = some (d.bytes (d.pos + i)) := by
  obtain ⟨b, _, e, hl, hf, _⟩ := C92_fills_partial 8 1 d ((List.range 8).map fun i => UInt8.ofNat (junk.toNat / 256 ^ i))
    (by decide) (by simp) (by simpa using hd)
  have hl8 : b.length = 8 := by simpa using hl
  refine ⟨BitVec.ofNat 64 (le b), by rw [get64, e]; rfl, fun i hi => ?_⟩
  have hlt := le_lt b
  rw [hl8] at hlt
  rw [BitVec.toNat_ofNat, Nat.mod_eq_of_lt (by omega)]
  have := bytesLE_le b
  rw [hl8] at this
  rw [this]
  exact hf i (by omega)

/-- C92: the `k`-th of `n` numbers is made of the bytes `8 k ... 8 k + 7` of the device: no byte is used
twice and none is skipped. -/
theorem C92_sequence (junk : BitVec 64) (n : Nat) (d : Dev) (hd : ∀ l, d.limit = some l → d.pos + 8 * n ≤ l) :
    ∃ xs, get64s junk n (some d) = .ok (xs, some { d with pos := d.pos + 8 * n }) ∧ xs.length = n ∧
      ∀ k x, xs[k]? = some x → ∀ i, i < 8 → (bytesLE 8 x.toNat)[i]? = some (d.bytes (d.pos + 8 * k + i)) := by
  induction n generalizing d with
  | zero => exact ⟨[], rfl, rfl, by simp⟩
  | succ n ih =>
    obtain ⟨x, e, hx⟩ := C92_get64 junk d (fun l hl => by have := hd l hl; omega)
    obtain ⟨xs, e', hl, hxs⟩ := ih { d with pos := d.pos + 8 } (fun l hl => by have := hd l hl; dsimp; omega)
    refine ⟨x :: xs, ?_, by simp [hl], ?_⟩
    · rw [get64s, e]
      show (get64s junk n _ >>= _) = _
      rw [e']
      show Res.ok _ = _
      dsimp only
      rw [show d.pos + 8 + 8 * n = d.pos + 8 * (n + 1) by omega]
    · intro k y hk i hi
      cases k with
      | zero =>
        have : x = y := by simpa using hk
        subst this
        simpa using hx i hi
      | succ k =>
        have h := hxs k y (by simpa using hk) i hi
        rw [h]
        dsimp only
        rw [show d.pos + 8 + 8 * k + i = d.pos + 8 * (k + 1) + i by omega]

/-- C92: nothing is favoured: every value of 64 bits comes from exactly one string of eight bytes. -/
theorem C92_uniform (x : BitVec 64) :
    ∃ bs : List UInt8, bs.length = 8 ∧ ∀ (junk : BitVec 64) (d : Dev), (∀ l, d.limit = some l → d.pos + 8 ≤ l) →
      ((∃ fp, get64 junk (some d) = .ok (x, fp)) ↔ ∀ i, i < 8 → bs[i]? = some (d.bytes (d.pos + i))) := by
  refine ⟨bytesLE 8 x.toNat, by simp, fun junk d hd => ?_⟩
  obtain ⟨y, e, hy⟩ := C92_get64 junk d hd
  rw [e]
  constructor
  · rintro ⟨fp, h⟩
    have : y = x := by simpa using (congrArg (fun r : Res (BitVec 64 × Option Dev) => match r with | .ok a => a.1 | _ => 0) h)
    subst this
    exact hy
  · intro h
    have hb : bytesLE 8 y.toNat = bytesLE 8 x.toNat :=
      list_eq_of_get (n := 8) (by simp) (by simp) fun i hi => by rw [hy i hi, h i hi]
    have hv := congrArg valueLE hb
    rw [Endian.valueLE_bytesLE, Endian.valueLE_bytesLE] at hv
    have h1 := y.isLt
    have h2 := x.isLt
    have : y = x := BitVec.eq_of_toNat_eq (by omega)
    exact ⟨_, by rw [this]⟩

/-- C92: a `shuffle` driven by the generator has what it needs: the device is read `8 (n - 1)` bytes far, and
the result is a permutation. -/
theorem C92_shuffle {α : Type} (v : List α) (junk : BitVec 64) (d : Dev)
    (hd : ∀ l, d.limit = some l → d.pos + 8 * (v.length - 1) ≤ l) :
    ∃ xs v', get64s junk (v.length - 1) (some d) = .ok (xs, some { d with pos := d.pos + 8 * (v.length - 1) }) ∧
      Random.shuffle v (fun i => xs.getD i 0) = .ok v' ∧ v'.Perm v := by
  obtain ⟨xs, e, _⟩ := C92_sequence junk _ d hd
  by_cases h : v.length ≤ 1
  · exact ⟨xs, v, e, by rw [Random.shuffle, if_pos h], List.Perm.refl _⟩
  · obtain ⟨v', e', hp, _⟩ := Random.shuffleLoop_ok v.length (v.length - 1) 0 (fun i => xs.getD i 0) v rfl (by omega)
    exact ⟨xs, v', e, by rw [Random.shuffle, if_neg h, e'], hp⟩

/-- C92, finding: for a request of 2^31 to 2^32 - 1 bytes (modulo 2^32) the cast to `int` makes the count
negative, `fread` gets nearly 2^64, and as the device does not end, memory behind the buffer is
overwritten. -/
theorem C92_finding_overrun (sizeofT bufNum : Nat) (d : Dev) (buf : List UInt8)
    (h : 2 ^ 31 ≤ sizeofT * bufNum % 2 ^ 32) (hd : d.limit = none) (hb : buf.length < 2 ^ 64 - 2 ^ 32) :
    read sizeofT (some d) buf bufNum = .ub := by
  have h' : 2 ^ 31 ≤ byteSize sizeofT bufNum % 2 ^ 32 := by
    unfold byteSize; generalize sizeofT * bufNum = n at *; omega
  rw [read_some, freadCount_large h', fread_ub]
  · rfl
  · simp only [Dev.amount, hd]; omega

/-- C92, finding: larger requests whose low 32 bits are small are never served, however much the device
can deliver: only the low 32 bits are asked for. -/
theorem C92_finding_refused (sizeofT bufNum : Nat) (d : Dev) (buf : List UInt8)
    (h : sizeofT * bufNum % 2 ^ 32 < 2 ^ 31) (h1 : 2 ^ 32 ≤ sizeofT * bufNum) (h2 : sizeofT * bufNum < 2 ^ 64)
    (hb : sizeofT * bufNum ≤ buf.length) : readThrow sizeofT (some d) buf bufNum = .throw := by
  have e0 : byteSize sizeofT bufNum = sizeofT * bufNum := Nat.mod_eq_of_lt h2
  have hk := amount_le d (sizeofT * bufNum % 2 ^ 32)
  obtain ⟨b, e, hf⟩ := fread_ok (d := d) (n := sizeofT * bufNum % 2 ^ 32) (buf := buf) (by omega)
  have er : read sizeofT (some d) buf bufNum =
      .ok (false, b, some { d with pos := d.pos + d.amount (sizeofT * bufNum % 2 ^ 32) }) := by
    rw [read_some, e0, freadCount_wrap h, e]
    show Res.ok (decide _, _, _) = _
    rw [decide_eq_false (by dsimp only; omega)]
  rw [readThrow, er]; rfl

/-- C92, finding: the size in bytes is not checked for overflow: 2^61 elements of 8 bytes are "filled"
without reading a byte. -/
theorem C92_finding_overflow (d : Dev) (buf : List UInt8) :
    read 8 (some d) buf (2 ^ 61) = .ok (true, buf, some d) := by
  have e0 : byteSize 8 (2 ^ 61) = 0 := by decide
  have ea : d.amount 0 = 0 := Nat.le_zero.1 (amount_le d 0)
  obtain ⟨b, e, hf⟩ := fread_ok (d := d) (n := 0) (buf := buf) (by omega)
  have : b = buf := list_eq_of_get hf.1 rfl fun i _ => hf.2.2 i (by omega)
  rw [read_some, e0, freadCount_small (by decide), e, ea, this]
  rfl

/-- C92: the Windows version fills the array for every request of less than 2^32 bytes ... -/
theorem C92_windows_fills (sizeofT bufNum : Nat) (d : Dev) (buf : List UInt8) (hs : sizeofT * bufNum < 2 ^ 32)
    (hb : sizeofT * bufNum ≤ buf.length) (hd : ∀ l, d.limit = some l → d.pos + sizeofT * bufNum ≤ l) :
    ∃ buf', winRead sizeofT (some d) buf bufNum = .ok (true, buf', some { d with pos := d.pos + sizeofT * bufNum }) ∧
      Filled d.bytes d.pos (sizeofT * bufNum) buf buf' := by
  have e0 : byteSize sizeofT bufNum = sizeofT * bufNum := Nat.mod_eq_of_lt (by omega)
  have ea : d.amount (sizeofT * bufNum) = sizeofT * bufNum := by
    unfold Dev.amount
    split
    · rfl
    · next l hl => have := hd l hl; omega
  obtain ⟨b, e, hf⟩ := store_ok (d := d) (k := sizeofT * bufNum) (buf := buf) hb
  refine ⟨b, ?_, hf⟩
  show (d.genRandom (byteSize sizeofT bufNum % 2 ^ 32) buf >>= _) = _
  rw [e0, Nat.mod_eq_of_lt hs, Dev.genRandom, if_pos ea, e]
  rfl

/-- C92: if the system refuses on Windows, or there is no provider, that is reported and nothing is written. -/
theorem C92_windows_failure (sizeofT bufNum : Nat) (d : Dev) (buf : List UInt8) (l : Nat) (hs : sizeofT * bufNum < 2 ^ 32)
    (hl : d.limit = some l) (hp : d.pos ≤ l) (hd : l < d.pos + sizeofT * bufNum) :
    winRead sizeofT (some d) buf bufNum = .ok (false, buf, some d) ∧ winRead sizeofT none buf bufNum = .ok (false, buf, none) := by
  have e0 : byteSize sizeofT bufNum = sizeofT * bufNum := Nat.mod_eq_of_lt (by omega)
  have ea : d.amount (sizeofT * bufNum) < sizeofT * bufNum := by
    unfold Dev.amount; rw [hl]; show min _ _ < _; omega
  refine ⟨?_, rfl⟩
  rw [winRead, e0, Nat.mod_eq_of_lt hs, Dev.genRandom, if_neg (by omega)]
  rfl

/-- C92, finding: ... but of a larger request only the size modulo 2^32 is filled, and success is reported
all the same: the rest of the "random" buffer is what it was before. -/
theorem C92_finding_windows_truncates (sizeofT bufNum : Nat) (d : Dev) (buf : List UInt8)
    (hs : sizeofT * bufNum < 2 ^ 64) (hb : sizeofT * bufNum ≤ buf.length) (hd : d.limit = none) :
    ∃ buf' fp, winRead sizeofT (some d) buf bufNum = .ok (true, buf', fp) ∧
      ∀ i, sizeofT * bufNum % 2 ^ 32 ≤ i → buf'[i]? = buf[i]? := by
  have e0 : byteSize sizeofT bufNum = sizeofT * bufNum := Nat.mod_eq_of_lt hs
  have ea : d.amount (sizeofT * bufNum % 2 ^ 32) = sizeofT * bufNum % 2 ^ 32 := by unfold Dev.amount; rw [hd]
  have hle := Nat.mod_le (sizeofT * bufNum) (2 ^ 32)
  obtain ⟨b, e, hf⟩ := store_ok (d := d) (k := sizeofT * bufNum % 2 ^ 32) (buf := buf) (by omega)
  refine ⟨b, some { d with pos := d.pos + sizeofT * bufNum % 2 ^ 32 }, ?_, hf.2.2⟩
  show (d.genRandom (byteSize sizeofT bufNum % 2 ^ 32) buf >>= _) = _
  rw [e0, Dev.genRandom, if_pos ea, e]
  rfl

/-- A device that delivers 0, 1, 2, ... and fails after ten bytes. -/
def counter : Dev := ⟨fun i => UInt8.ofNat i, some 10, 0⟩

example : (read 4 (some counter) [9, 9, 9, 9, 9, 9, 9, 9, 9] 2 >>= fun r => Res.ok (r.1, r.2.1)) =
    .ok (true, [0, 1, 2, 3, 4, 5, 6, 7, 9]) := by decide
example : (read 4 (some counter) (List.replicate 12 9) 3 >>= fun r => Res.ok r.1) = .ok false := by decide
example : ∀ l, counter.limit = some l → counter.pos + 4 * 2 ≤ l := by decide
example : (get32 0 (some counter) >>= fun r => Res.ok r.1) = .ok 0x03020100 := by decide
example : 2 ^ 31 ≤ 4 * 2 ^ 29 % 2 ^ 32 ∧ 8 * 2 ^ 29 % 2 ^ 32 < 2 ^ 31 ∧ 2 ^ 32 ≤ 8 * 2 ^ 29 := by decide

end Verif.Props.RandGen

open Verif.Props.RandGen in
#print axioms C92_uniform
#print axioms Verif.Props.RandGen.C92_opened
#print axioms Verif.Props.RandGen.C92_windows_failure
