import Verif.Proof.Endian

/-! # C09: endian load/store -/
namespace Verif.Props.Endian
open Verif Verif.Endian Verif.Spec.Endian

/-- C09.  The little-endian readers return the little-endian value of the bytes at the position, in
both implementations, for every buffer. -/
theorem C09_getLE (src : List UInt8) (off : Nat) :
    (off + 2 ≤ src.length →
      get16LEMem src off = .ok (valueLE ((src.drop off).take 2)) ∧
      get16LEByte src off = .ok (valueLE ((src.drop off).take 2))) ∧
    (off + 4 ≤ src.length →
      get32LEMem src off = .ok (valueLE ((src.drop off).take 4)) ∧
      get32LEByte src off = .ok (valueLE ((src.drop off).take 4))) ∧
    (off + 8 ≤ src.length →
      get64LEMem src off = .ok (valueLE ((src.drop off).take 8)) ∧
      get64LEByte src off = .ok (valueLE ((src.drop off).take 8))) :=
  ⟨fun h => ⟨load_eq h, get16LEByte_eq h⟩, fun h => ⟨load_eq h, get32LEByte_eq h⟩,
    fun h => ⟨load_eq h, get64LEByte_eq h⟩⟩

/-- C09.  The big-endian readers. -/
theorem C09_getBE (src : List UInt8) (off : Nat) :
    (off + 2 ≤ src.length →
      get16BEMem src off = .ok (valueBE ((src.drop off).take 2)) ∧
      get16BEByte src off = .ok (valueBE ((src.drop off).take 2))) ∧
    (off + 4 ≤ src.length →
      get32BEMem src off = .ok (valueBE ((src.drop off).take 4)) ∧
      get32BEByte src off = .ok (valueBE ((src.drop off).take 4))) ∧
    (off + 8 ≤ src.length →
      get64BEMem src off = .ok (valueBE ((src.drop off).take 8)) ∧
      get64BEByte src off = .ok (valueBE ((src.drop off).take 8))) :=
  ⟨fun h => ⟨loadBE_eq h, get16BEByte_eq h⟩, fun h => ⟨loadBE_eq h, get32BEByte_eq h⟩,
    fun h => ⟨loadBE_eq h, get64BEByte_eq h⟩⟩

/-- C09.  The little-endian writers replace exactly the addressed bytes by the little-endian bytes of
the value. -/
theorem C09_setLE (dst : List UInt8) (off x : Nat) :
    (off + 2 ≤ dst.length →
      set16LEMem dst off x = .ok (overwrite dst off (bytesLE 2 x)) ∧
      set16LEByte dst off x = .ok (overwrite dst off (bytesLE 2 x))) ∧
    (off + 4 ≤ dst.length →
      set32LEMem dst off x = .ok (overwrite dst off (bytesLE 4 x)) ∧
      set32LEByte dst off x = .ok (overwrite dst off (bytesLE 4 x))) ∧
    (off + 8 ≤ dst.length →
      set64LEMem dst off x = .ok (overwrite dst off (bytesLE 8 x)) ∧
      set64LEByte dst off x = .ok (overwrite dst off (bytesLE 8 x))) := by
  refine ⟨fun h => ⟨?_, set16LEByte_eq h⟩, fun h => ⟨?_, set32LEByte_eq h⟩,
    fun h => ⟨?_, set64LEByte_eq h⟩⟩
  all_goals
    simp only [set16LEMem, set32LEMem, set64LEMem]
    rw [store_eq (by simpa using h), memBytes_eq]

/-- C09.  The big-endian writers. -/
theorem C09_setBE (dst : List UInt8) (off x : Nat) :
    (off + 2 ≤ dst.length →
      set16BEMem dst off x = .ok (overwrite dst off (bytesBE 2 x)) ∧
      set16BEByte dst off x = .ok (overwrite dst off (bytesBE 2 x))) ∧
    (off + 4 ≤ dst.length →
      set32BEMem dst off x = .ok (overwrite dst off (bytesBE 4 x)) ∧
      set32BEByte dst off x = .ok (overwrite dst off (bytesBE 4 x))) ∧
    (off + 8 ≤ dst.length →
      set64BEMem dst off x = .ok (overwrite dst off (bytesBE 8 x)) ∧
      set64BEByte dst off x = .ok (overwrite dst off (bytesBE 8 x))) := by
  refine ⟨fun h => ⟨?_, set16BEByte_eq h⟩, fun h => ⟨?_, set32BEByte_eq h⟩,
    fun h => ⟨?_, set64BEByte_eq h⟩⟩
  all_goals
    simp only [set16BEMem, set32BEMem, set64BEMem]
    rw [store_eq (by simpa using h), memBytes_bswap]

theorem take_overwrite {dst bs : List UInt8} {off : Nat} (h : off + bs.length ≤ dst.length) :
    ((overwrite dst off bs).drop off).take bs.length = bs := by
  have hl : (dst.take off).length = off := by simp; omega
  simp only [overwrite, List.append_assoc]
  rw [List.drop_append, List.drop_of_length_le (by omega), hl]
  simp

/-- C09.  Reading back what was written gives the value (here for both orders and 64 bits; the
narrower widths below). -/
theorem C09_get_after_set64 (dst dst1 dst2 : List UInt8) (off x : Nat) (hx : x < 2 ^ 64)
    (h : off + 8 ≤ dst.length) (h1 : set64LEMem dst off x = .ok dst1)
    (h2 : set64BEByte dst off x = .ok dst2) :
    get64LEMem dst1 off = .ok x ∧ get64LEByte dst1 off = .ok x ∧
    get64BEMem dst2 off = .ok x ∧ get64BEByte dst2 off = .ok x := by
  have e1 := ((C09_setLE dst off x).2.2 h).1
  have e2 := ((C09_setBE dst off x).2.2 h).2
  rw [h1] at e1; rw [h2] at e2
  cases e1; cases e2
  have l1 : off + 8 ≤ (overwrite dst off (bytesLE 8 x)).length := by
    rw [overwrite_length (by simpa using h)]; exact h
  have l2 : off + 8 ≤ (overwrite dst off (bytesBE 8 x)).length := by
    rw [overwrite_length (by simpa using h)]; exact h
  have g1 := (C09_getLE _ off).2.2 l1
  have g2 := (C09_getBE _ off).2.2 l2
  have t1 := take_overwrite (dst := dst) (bs := bytesLE 8 x) (off := off) (by simpa using h)
  have t2 := take_overwrite (dst := dst) (bs := bytesBE 8 x) (off := off) (by simpa using h)
  simp only [bytesLE_length, bytesBE_length] at t1 t2
  rw [t1, valueLE_bytesLE, Nat.mod_eq_of_lt (by simpa using hx)] at g1
  rw [t2, valueBE_bytesBE, Nat.mod_eq_of_lt (by simpa using hx)] at g2
  exact ⟨g1.1, g1.2, g2.1, g2.2⟩

theorem C09_get_after_set32 (dst dst1 dst2 : List UInt8) (off x : Nat) (hx : x < 2 ^ 32)
    (h : off + 4 ≤ dst.length) (h1 : set32LEMem dst off x = .ok dst1)
    (h2 : set32BEByte dst off x = .ok dst2) :
    get32LEMem dst1 off = .ok x ∧ get32LEByte dst1 off = .ok x ∧
    get32BEMem dst2 off = .ok x ∧ get32BEByte dst2 off = .ok x := by
  have e1 := ((C09_setLE dst off x).2.1 h).1
  have e2 := ((C09_setBE dst off x).2.1 h).2
  rw [h1] at e1; rw [h2] at e2
  cases e1; cases e2
  have l1 : off + 4 ≤ (overwrite dst off (bytesLE 4 x)).length := by
    rw [overwrite_length (by simpa using h)]; exact h
  have l2 : off + 4 ≤ (overwrite dst off (bytesBE 4 x)).length := by
    rw [overwrite_length (by simpa using h)]; exact h
  have g1 := (C09_getLE _ off).2.1 l1
  have g2 := (C09_getBE _ off).2.1 l2
  have t1 := take_overwrite (dst := dst) (bs := bytesLE 4 x) (off := off) (by simpa using h)
  have t2 := take_overwrite (dst := dst) (bs := bytesBE 4 x) (off := off) (by simpa using h)
  simp only [bytesLE_length, bytesBE_length] at t1 t2
  rw [t1, valueLE_bytesLE, Nat.mod_eq_of_lt (by simpa using hx)] at g1
  rw [t2, valueBE_bytesBE, Nat.mod_eq_of_lt (by simpa using hx)] at g2
  exact ⟨g1.1, g1.2, g2.1, g2.2⟩

theorem C09_get_after_set16 (dst dst1 dst2 : List UInt8) (off x : Nat) (hx : x < 2 ^ 16)
    (h : off + 2 ≤ dst.length) (h1 : set16LEMem dst off x = .ok dst1)
    (h2 : set16BEByte dst off x = .ok dst2) :
    get16LEMem dst1 off = .ok x ∧ get16LEByte dst1 off = .ok x ∧
    get16BEMem dst2 off = .ok x ∧ get16BEByte dst2 off = .ok x := by
  have e1 := ((C09_setLE dst off x).1 h).1
  have e2 := ((C09_setBE dst off x).1 h).2
  rw [h1] at e1; rw [h2] at e2
  cases e1; cases e2
  have l1 : off + 2 ≤ (overwrite dst off (bytesLE 2 x)).length := by
    rw [overwrite_length (by simpa using h)]; exact h
  have l2 : off + 2 ≤ (overwrite dst off (bytesBE 2 x)).length := by
    rw [overwrite_length (by simpa using h)]; exact h
  have g1 := (C09_getLE _ off).1 l1
  have g2 := (C09_getBE _ off).1 l2
  have t1 := take_overwrite (dst := dst) (bs := bytesLE 2 x) (off := off) (by simpa using h)
  have t2 := take_overwrite (dst := dst) (bs := bytesBE 2 x) (off := off) (by simpa using h)
  simp only [bytesLE_length, bytesBE_length] at t1 t2
  rw [t1, valueLE_bytesLE, Nat.mod_eq_of_lt (by simpa using hx)] at g1
  rw [t2, valueBE_bytesBE, Nat.mod_eq_of_lt (by simpa using hx)] at g2
  exact ⟨g1.1, g1.2, g2.1, g2.2⟩

/-- C09.  `byteSwap` with shifts agrees with the builtin, and swapping twice is the identity. -/
theorem C09_byteSwap (n x : Nat) (hx : x < 256 ^ n) :
    bswap n (bswap n x) = x ∧ (n = 2 → byteSwap16Shift x = bswap 2 x) ∧
    bytesBE n (bswap n x) = bytesLE n x := by
  refine ⟨?_, fun h => ?_, ?_⟩
  · conv => lhs; rw [bswap]
    rw [memBytes_bswap, ← bytes_reverse, List.reverse_reverse, ← memBytes_eq, memLoad_memBytes,
      Nat.mod_eq_of_lt hx]
  · subst h; exact byteSwap16Shift_eq x (by simpa using hx)
  · rw [← bytes_reverse, ← memBytes_eq, memBytes_bswap, ← bytes_reverse, List.reverse_reverse]

example : get32BEByte [9, 1, 2, 3, 4, 9] 1 = .ok 0x01020304 := by decide
example : get32LEMem [9, 1, 2, 3, 4, 9] 1 = .ok 0x04030201 := by decide
example : set32BEMem [9, 9, 9, 9, 9, 9] 1 0x01020304 = .ok [9, 1, 2, 3, 4, 9] := by decide
example : byteSwap16Shift 0x0102 = 0x0201 := by decide

#print axioms C09_getLE
#print axioms C09_getBE
#print axioms C09_setLE
#print axioms C09_setBE
#print axioms C09_get_after_set64
#print axioms C09_get_after_set32
#print axioms C09_get_after_set16
#print axioms C09_byteSwap

end Verif.Props.Endian
