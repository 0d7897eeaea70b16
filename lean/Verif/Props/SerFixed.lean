import Verif.Proof.SerFixed
import Verif.Props.Serializer
set_option linter.unusedSimpArgs false

/-!
# C151: objects saved with integers of a fixed size
-/
namespace Verif.Props.SerFixed
open Verif.Stream Verif.Endian Verif.SerFixed Verif.Spec.Serializer Verif.Spec.SerFixed
open Verif.Serializer (Ty Val width default loadVariableInt saveVariableInt savePod loaded_default)

variable (ord same : (t : Ty) → Val t → Val t → Bool)

/-- What was saved is loaded back, for every type, value and fragmentation of the stream, and exactly its bytes are taken; sets and maps
are inserted into what is there, so they are loaded into empty ones. -/
theorem C151_roundtrip (t : Ty) (old x : Val t) (hx : Valid ord same t x) (ho : Clears t ∨ old = default t) (s : Src)
    (rest : List UInt8) (h : s.rest = save t x ++ rest) :
    ∃ s', load ord same t old s = .ok (x, s') ∧ s'.rest = rest := by
  have hg := (load_good ord same t old x hx).ok s rest h
  have e : Serializer.loaded ord same t old x = x := by
    rcases ho with ho | rfl
    · cases t <;> first | rfl | exact absurd ho (by simp [Clears])
    · exact loaded_default ord same t x hx
  rw [e] at hg
  exact hg

/-- A file that ends early is an exception. -/
theorem C151_truncated (t : Ty) (old x : Val t) (hx : Valid ord same t x) (s : Src) (hp : s.rest <+: save t x)
    (hne : s.rest ≠ save t x) : load ord same t old s = .throw :=
  (load_good ord same t old x hx).short s hp hne

/-- On any content at all nothing undefined happens. -/
theorem C151_never_undefined (t : Ty) (old : Val t) (s : Src) : load ord same t old s ≠ .ub :=
  load_safe ord same t old s

/-- The number of bytes is fixed by the types and the numbers of elements: no value of an integer changes it. -/
theorem C151_length (t : Ty) (x : Val t) : (save t x).length = room t x := save_length t x

/-- Two integers of a type take the same room, so one can be overwritten by the other in the file. -/
theorem C151_same_room (l : Bool) (x y : BitVec (width l)) : (save (.int l) x).length = (save (.int l) y).length := by
  rw [C151_length, C151_length]
  rfl

/-- Finding: nothing in a file says how it was saved.  A program built without the macro reads the integers of such a file by their
lowest byte, leaves the other bytes for what comes next and reports nothing, whenever that byte is below 128. -/
theorem C151_finding_other_build (l : Bool) (x : BitVec (width l)) (hx : x.toNat % 256 < 128) (s : Src) (rest : List UInt8)
    (h : s.rest = save (.int l) x ++ rest) :
    ∃ s' more, loadVariableInt (width l) s = .ok (BitVec.ofNat (width l) (x.toNat % 256), s') ∧ s'.rest = more ++ rest ∧
      more.length = bytes l - 1 := by
  have hw : 8 ≤ width l := by cases l <;> decide
  have hb : save (.int l) x = savePod 1 (x.toNat % 256) ++ (savePod (bytes l) x.toNat).drop 1 := by
    have h1 : ∀ n y, memBytes (n + 1) y = memBytes 1 (y % 256) ++ (memBytes (n + 1) y).drop 1 := by
      intro n y
      simp only [memBytes, List.drop_succ_cons, List.drop_zero, List.cons_append, List.nil_append]
      congr 1
      apply UInt8.toNat_inj.mp
      simp
    cases l
    · exact h1 3 _
    · exact h1 7 _
  rw [hb, List.append_assoc] at h
  have g := Serializer.byte_good (width l) (x.toNat % 256) (b := []) (v := BitVec.ofNat (width l) (x.toNat % 256)) (by omega) ?_
  · rw [List.append_nil] at g
    obtain ⟨s', e1, e2⟩ := g.ok s _ h
    refine ⟨s', _, e1, e2, ?_⟩
    simp [savePod]
  · refine (Serializer.Good.pure _).congr ?_
    intro s
    rw [Serializer.loadBody]
    rw [if_neg (by omega), if_neg (by omega), if_neg (by omega), if_neg (by omega), if_neg (by omega), if_neg (by omega),
      if_neg (by omega), if_neg (by omega)]
    congr 2
    generalize x.toNat % 256 = b at hx
    have hm : (BitVec.ofNat 8 b).msb = false := by
      rw [BitVec.msb_eq_false_iff_two_mul_lt, BitVec.toNat_ofNat]
      omega
    rw [BitVec.signExtend_eq_setWidth_of_msb_false hm]
    apply BitVec.eq_of_toNat_eq
    rw [BitVec.toNat_setWidth, BitVec.toNat_ofNat, BitVec.toNat_ofNat]
    have : b < 2 ^ width l := by
      have := Nat.pow_le_pow_right (show 0 < 2 by decide) hw
      omega
    rw [Nat.mod_eq_of_lt (show b < 2 ^ 8 by omega)]

/-- The other way round: an integer from -120 to 127 saved by a program built without the macro is one byte; for one built with it
the file is cut. -/
theorem C151_finding_other_build_back (l : Bool) (old x : BitVec (width l)) (h : -120 ≤ x.toInt ∧ x.toInt ≤ 127) (s : Src)
    (hs : s.rest = saveVariableInt x) : load ord same (.int l) old s = .throw := by
  have h1 := Props.Serializer.C19_short (width l) (by cases l <;> simp [width]) x h
  have hb : 1 < bytes l := by cases l <;> decide
  rw [SerFixed.load, loadInt, Serializer.loadPod, Serializer.loadRange, read_throw _ _ _ (by simp) (by rw [hs, h1]; exact hb)]
  rfl

example : -120 ≤ (5#32).toInt ∧ (5#32).toInt ≤ 127 := by decide

/-! Concrete cases. -/

/-- A vector of strings and numbers. -/
example : save (.seq .str) [[97, 98], []] = [2, 0, 0, 0, 0, 0, 0, 0, 2, 0, 0, 0, 0, 0, 0, 0, 97, 98, 0, 0, 0, 0, 0, 0, 0, 0] := by decide +kernel
example : room (.seq .str) [[97, 98], []] = 26 := by decide +kernel
example : Valid ord same (.seq .str) [[97, 98], []] := ⟨by decide, by simp [Valid]⟩
example : save (.int false) 0x12345678#32 = [0x78, 0x56, 0x34, 0x12] := by decide +kernel
example : (0x12345678#32).toNat % 256 < 128 := by decide
example : (loadVariableInt 32 ⟨save (.int false) 0x12345678#32, fun _ => 9, 0⟩).bind (fun p => .ok (p.1, p.2.rest)) =
    .ok (0x78#32, [0x56, 0x34, 0x12]) := by decide +kernel

end Verif.Props.SerFixed

#print axioms Verif.Props.SerFixed.C151_roundtrip
#print axioms Verif.Props.SerFixed.C151_truncated
#print axioms Verif.Props.SerFixed.C151_never_undefined
#print axioms Verif.Props.SerFixed.C151_length
#print axioms Verif.Props.SerFixed.C151_same_room
#print axioms Verif.Props.SerFixed.C151_finding_other_build
#print axioms Verif.Props.SerFixed.C151_finding_other_build_back
