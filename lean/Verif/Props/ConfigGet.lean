import Verif.Model.ConfigGet
import Verif.Spec.ConfigGet
import Verif.Props.Config
import Verif.Props.Numeral

/-!
# C97 typed values of configuration files
-/
set_option linter.unusedSimpArgs false
namespace Verif.Props.ConfigGet
open Verif Verif.Config Verif.Atoi Verif.Itoa Verif.Spec.Numeral Verif.Spec.ConfigGet Verif.Props.Numeral Verif.Props.Config

theorem getUnsigned_eq (ty : Atoi.UInt) (hty : ty ∈ [uint8, uint16, uint32, uint64]) (v : Str) (d : Option Nat) :
    getUnsigned ty v = answerNat ty.hi d (some v) := by
  have h := C05_atoi_unsigned ty hty true (v ++ [0]) v.length (by simp)
  rw [List.take_left] at h
  unfold getUnsigned atoiU answerNat
  unfold Reported at h
  split at h
  · rename_i n e; simp only [h, Res.ok_bind, e]
  · rename_i e; simp only [h, if_pos, Res.ok_bind, e]

theorem getSigned_eq (ty : SInt) (W : Nat) (hty : (ty, W) ∈ signedTypes) (v : Str) (d : Option Int)
    (hm : ¬ MinThenMore W (upToNul v)) : getSigned ty v = answerInt W d (some v) := by
  have h := C05_atoi_signed_partial ty W hty true (v ++ [0]) v.length (by simp) (by rwa [List.take_left])
  rw [List.take_left] at h
  unfold getSigned atoiS answerInt
  unfold Reported at h
  split at h
  · rename_i n e; simp only [h, Res.ok_bind, e]
  · rename_i e; simp only [h, if_pos, Res.ok_bind, e]

/-- C97: unsigned types: the number if the key is there with a decimal numeral of the type; an exception if the text is
anything else; without the key the default, or an exception if there is none. -/
theorem C97_unsigned (ty : Atoi.UInt) (hty : ty ∈ [uint8, uint16, uint32, uint64]) (s : Section) (key : Str) (d : Nat) :
    s.getValueU ty key = answerNat ty.hi none (s.queryValue key) ∧
      s.getValueDefU ty key d = answerNat ty.hi (some d) (s.queryValue key) := by
  unfold Section.getValueU Section.getValueDefU Section.getValue
  cases s.queryValue key with
  | none => exact ⟨rfl, rfl⟩
  | some v => exact ⟨getUnsigned_eq ty hty v none, getUnsigned_eq ty hty v (some d)⟩

/-- C97: signed types, except for values that are the minimum of the type followed by more (see
`C97_finding_min_then_more`); those are missing from the full claim. -/
theorem C97_signed_partial (ty : SInt) (W : Nat) (hty : (ty, W) ∈ signedTypes) (s : Section) (key : Str) (d : Int)
    (hm : ∀ v, s.queryValue key = some v → ¬ MinThenMore W (upToNul v)) :
    s.getValueS ty key = answerInt W none (s.queryValue key) ∧
      s.getValueDefS ty key d = answerInt W (some d) (s.queryValue key) := by
  unfold Section.getValueS Section.getValueDefS Section.getValue
  cases e : s.queryValue key with
  | none => exact ⟨rfl, rfl⟩
  | some v => exact ⟨getSigned_eq ty W hty v none (hm v e), getSigned_eq ty W hty v (some d) (hm v e)⟩

/-- C97: texts are given as they are, the default only if the key is missing. -/
theorem C97_string (s : Section) (key d : Str) :
    (∀ v, s.queryValue key = some v → s.getValue key = .ok v ∧ s.getValueDefStr key d = v) ∧
      (s.queryValue key = none → s.getValue key = .throw ∧ s.getValueDefStr key d = d) := by
  unfold Section.getValue Section.getValueDefStr
  exact ⟨fun v h => by rw [h]; exact ⟨rfl, rfl⟩, fun h => by rw [h]; exact ⟨rfl, rfl⟩⟩

/-- C97: the answers are never undefined, whatever was loaded. -/
theorem C97_never_undefined (s : Section) (key : Str) :
    (∀ ty ∈ [uint8, uint16, uint32, uint64], s.getValueU ty key ≠ .ub) ∧
      (∀ ty W, (ty, W) ∈ signedTypes → s.getValueS ty key ≠ .ub) := by
  refine ⟨fun ty hty => ?_, fun ty W hty => ?_⟩
  · rw [(C97_unsigned ty hty s key 0).1]
    unfold answerNat
    cases s.queryValue key with
    | none => simp
    | some v => dsimp only; split <;> simp
  · unfold Section.getValueS Section.getValue
    cases s.queryValue key with
    | none => simp
    | some v =>
      by_cases hm : MinThenMore W (upToNul v)
      · have h := (C05_min_then_more_accepted ty W hty true (v ++ [0]) v.length (by simp) (by rwa [List.take_left])).1
        simp [getSigned, atoiS, h]
      · show getSigned ty v ≠ _
        rw [getSigned_eq ty W hty v none hm]
        unfold answerInt
        dsimp only
        split <;> simp

theorem getSection_of {c : Conf} {sec key txt : Str}
    (h : ((querySection c sec).bind fun m => Section.queryValue m key) = some txt) :
    ∃ m, getSection c sec = .ok m ∧ m.queryValue key = some txt := by
  unfold getSection
  cases e : querySection c sec with
  | none => rw [e] at h; cases h
  | some m => rw [e] at h; exact ⟨m, rfl, h⟩

/-- C97: `getSection` throws exactly for sections that are not there. -/
theorem C97_getSection (c : Conf) (sec : Str) :
    (∀ m, getSection c sec = .ok m ↔ querySection c sec = some m) ∧ (getSection c sec = .throw ↔ querySection c sec = none) := by
  unfold getSection
  cases querySection c sec with
  | none => simp
  | some m => simp

/-- C97: a signed number that was stored as its text (`itoa`) is read back from the printed and loaded configuration. -/
theorem C97_roundtrip_signed (c : Conf) (hb : Built c) (hval : ∀ p ∈ c, ∀ q ∈ p.2, 10 ∉ q.2 ∧ q.2.getLast? ≠ some 13)
    (sec key txt buf : Str) (ty : SInt) (W : Nat) (hty : (ty, W) ∈ signedTypes) (x : Int) (h1 : -(W : Int) ≤ x) (h2 : x < W)
    (hbuf : buf.length = 40) (ht : convertFromInt buf x = .ok txt)
    (hq : ((querySection c sec).bind fun m => Section.queryValue m key) = some txt) :
    ∃ c', load [] (toString c) = .ok c' ∧ (do (← getSection c' sec).getValueS ty key) = .ok x := by
  obtain ⟨c', hl, _, hc⟩ := C25_roundtrip_queries c hb hval
  rw [← hc] at hq
  obtain ⟨m, hm, hk⟩ := getSection_of hq
  refine ⟨c', hl, ?_⟩
  rw [hm]
  simp only [Res.ok_bind, Section.getValueS, Section.getValue, hk, getSigned,
    C06_signed ty W hty true buf txt hbuf x h1 h2 ht]

/-- C97: the same for unsigned numbers. -/
theorem C97_roundtrip_unsigned (c : Conf) (hb : Built c) (hval : ∀ p ∈ c, ∀ q ∈ p.2, 10 ∉ q.2 ∧ q.2.getLast? ≠ some 13)
    (sec key txt buf : Str) (ty : Atoi.UInt) (hty : ty ∈ [uint8, uint16, uint32, uint64]) (x : Nat) (h : x ≤ ty.hi)
    (hbuf : buf.length = 40) (ht : convertFromUint buf x = .ok txt)
    (hq : ((querySection c sec).bind fun m => Section.queryValue m key) = some txt) :
    ∃ c', load [] (toString c) = .ok c' ∧ (do (← getSection c' sec).getValueU ty key) = .ok x := by
  obtain ⟨c', hl, _, hc⟩ := C25_roundtrip_queries c hb hval
  rw [← hc] at hq
  obtain ⟨m, hm, hk⟩ := getSection_of hq
  refine ⟨c', hl, ?_⟩
  rw [hm]
  simp only [Res.ok_bind, Section.getValueU, Section.getValue, hk, getUnsigned,
    C06_unsigned ty hty true buf txt hbuf x h ht]

/-- C97, finding: blanks are allowed before '=' but belong to the value after it: "port = 80" has no integer value, and
the default does not help. -/
theorem C97_finding_blank :
    (do let c ← load [] "port = 80\n".toUTF8.data.toList; (← getSection c []).getValueU uint32 "port".toUTF8.data.toList) = .throw ∧
    (do let c ← load [] "port = 80\n".toUTF8.data.toList
        (← getSection c []).getValueDefU uint32 "port".toUTF8.data.toList 25) = .throw ∧
    (do let c ← load [] "port =80\n".toUTF8.data.toList; (← getSection c []).getValueU uint32 "port".toUTF8.data.toList) = .ok 80 :=
  ⟨by decide +kernel, by decide +kernel, by decide +kernel⟩

/-- C97, finding: the minimum of the type followed by anything is accepted as the minimum. -/
theorem C97_finding_min_then_more (ty : SInt) (W : Nat) (hty : (ty, W) ∈ signedTypes) (s : Section) (key v : Str)
    (hv : s.queryValue key = some v) (hm : MinThenMore W (upToNul v)) :
    s.getValueS ty key = .ok (-W) ∧ answerInt W none (some v) = .throw := by
  have h := C05_min_then_more_accepted ty W hty true (v ++ [0]) v.length (by simp) (by rwa [List.take_left])
  rw [List.take_left] at h
  refine ⟨?_, ?_⟩
  · simp only [Section.getValueS, Section.getValue, hv, Res.ok_bind, getSigned, atoiS, h.1]
  · simp only [answerInt, h.2]

/-- C97, finding: what follows a NUL in the value is ignored. -/
theorem C97_finding_nul :
    (do let c ← load [] ([112, 61, 56, 48, 0, 120, 10]); (← getSection c []).getValueU uint32 [112]) = .ok 80 := by
  decide +kernel

example : Section.getValueS sint16 [([97], [45, 51])] [97] = .ok (-3) ∧ Section.getValueS sint16 [([97], [45, 51, 120])] [97] = .throw ∧
    Section.getValueDefU uint16 [([97], [54, 53, 53, 51, 54])] [97] 7 = .throw ∧
    Section.getValueDefU uint16 [([97], [54, 53, 53, 51, 54])] [98] 7 = .ok 7 := by decide +kernel
/-- A configuration that meets the hypotheses of the round trips. -/
example : ∃ c, Built c ∧ (∀ p ∈ c, ∀ q ∈ p.2, 10 ∉ q.2 ∧ q.2.getLast? ≠ some 13) ∧
    ((querySection c [98]).bind fun m => Section.queryValue m [97]) = some [45, 51] ∧
    convertFromInt (List.replicate 40 0) (-3) = .ok [45, 51] := by
  refine ⟨[([], []), ([98], [([97], [45, 51])])], .load [] _ [91, 98, 93, 10, 97, 61, 45, 51, 10] .empty (by decide +kernel),
    by decide, by decide, by decide +kernel⟩

end Verif.Props.ConfigGet

open Verif.Props.ConfigGet in
#print axioms C97_roundtrip_signed
