import Verif.Model.Endian
import Verif.Spec.Endian
set_option linter.unusedSimpArgs false
namespace Verif.Endian
open Verif.Spec.Endian

theorem foldl_append_val (bs : List UInt8) (a : Nat) (b : UInt8) :
    (bs ++ [b]).foldl (fun a b => a * 256 + b.toNat) a =
      bs.foldl (fun a b => a * 256 + b.toNat) a * 256 + b.toNat := by
  simp

theorem valueLE_cons (b : UInt8) (bs : List UInt8) : valueLE (b :: bs) = b.toNat + 256 * valueLE bs := by
  simp only [valueLE, valueBE, List.reverse_cons, foldl_append_val]
  omega

theorem memLoad_eq (bs : List UInt8) : memLoad bs = valueLE bs := by
  induction bs with
  | nil => rfl
  | cons b bs ih => rw [valueLE_cons, memLoad, ih]

theorem ofNat_mod (x : Nat) : UInt8.ofNat (x % 256) = UInt8.ofNat x := by
  apply UInt8.toNat.inj
  simp

theorem memBytes_eq (n : Nat) : ∀ x, memBytes n x = bytesLE n x := by
  induction n with
  | zero => intro x; rfl
  | succ n ih =>
    intro x
    rw [memBytes, ih]
    simp only [bytesLE, List.range_succ_eq_map, List.map_cons, List.map_map, Nat.pow_zero, Nat.div_one]
    rw [ofNat_mod]
    congr 1
    apply List.map_congr_left
    intro i _
    simp only [Function.comp, Nat.pow_succ, Nat.succ_eq_add_one]
    rw [Nat.mul_comm, Nat.div_div_eq_div_mul]

@[simp] theorem memBytes_length (n x : Nat) : (memBytes n x).length = n := by
  rw [memBytes_eq]; simp [bytesLE]

@[simp] theorem bytesLE_length (n x : Nat) : (bytesLE n x).length = n := by simp [bytesLE]
@[simp] theorem bytesBE_length (n x : Nat) : (bytesBE n x).length = n := by simp [bytesBE]

theorem bytes_reverse (n x : Nat) : (bytesLE n x).reverse = bytesBE n x := by
  apply List.ext_getElem
  · simp
  · intro i h1 h2
    simp [bytesLE, bytesBE]

theorem memLoad_memBytes (n : Nat) : ∀ x, memLoad (memBytes n x) = x % 256 ^ n := by
  induction n with
  | zero => intro x; simp [memBytes, memLoad, Nat.mod_one]
  | succ n ih =>
    intro x
    rw [memBytes, memLoad, ih, Nat.pow_succ, Nat.mul_comm (256 ^ n) 256, Nat.mod_mul]
    simp

theorem memBytes_memLoad (bs : List UInt8) : memBytes bs.length (memLoad bs) = bs := by
  induction bs with
  | nil => rfl
  | cons b bs ih =>
    have hb := b.toNat_lt
    simp only [List.length_cons, memBytes, memLoad]
    rw [show (b.toNat + 256 * memLoad bs) / 256 = memLoad bs by omega, ih, ← ofNat_mod,
      show (b.toNat + 256 * memLoad bs) % 256 = b.toNat by omega]
    simp

theorem memLoad_lt (bs : List UInt8) : memLoad bs < 256 ^ bs.length := by
  induction bs with
  | nil => simp [memLoad]
  | cons b bs ih =>
    have hb := b.toNat_lt
    simp only [memLoad, List.length_cons, Nat.pow_succ]
    omega

theorem bswap_load (bs : List UInt8) : bswap bs.length (memLoad bs) = valueBE bs := by
  rw [bswap, memBytes_memLoad, memLoad_eq, valueLE, List.reverse_reverse]

theorem memBytes_bswap (n x : Nat) : memBytes n (bswap n x) = bytesBE n x := by
  have := memBytes_memLoad (memBytes n x).reverse
  simp only [List.length_reverse, memBytes_length] at this
  rw [bswap, this, memBytes_eq, bytes_reverse]

theorem valueBE_bytesBE (n x : Nat) : valueBE (bytesBE n x) = x % 256 ^ n := by
  rw [← bytes_reverse, ← valueLE, ← memBytes_eq, ← memLoad_eq, memLoad_memBytes]

theorem valueLE_bytesLE (n x : Nat) : valueLE (bytesLE n x) = x % 256 ^ n := by
  rw [← memBytes_eq, ← memLoad_eq, memLoad_memBytes]

/-! memcpy branches -/

theorem load_eq {src : List UInt8} {off n : Nat} (h : off + n ≤ src.length) :
    load src off n = .ok (valueLE ((src.drop off).take n)) := by
  rw [load, if_pos h, memLoad_eq]

theorem loadBE_eq {src : List UInt8} {off n : Nat} (h : off + n ≤ src.length) :
    (do return bswap n (← load src off n) : Res Nat) = .ok (valueBE ((src.drop off).take n)) := by
  have hl : ((src.drop off).take n).length = n := by simp; omega
  have := bswap_load ((src.drop off).take n)
  rw [hl] at this
  simp only [load, if_pos h, Res.ok_bind, Res.pure_eq, this]

theorem store_eq {dst : List UInt8} {off : Nat} {bs : List UInt8}
    (h : off + bs.length ≤ dst.length) : store dst off bs = .ok (overwrite dst off bs) := by
  rw [store, if_pos h, overwrite]

/-! byte-wise branches -/

theorem or_shift (a b i : Nat) (h : a < 2 ^ i) : a ||| (b <<< i) = a + b * 2 ^ i := by
  rw [Nat.or_comm, ← Nat.shiftLeft_add_eq_or_of_lt h, Nat.shiftLeft_eq]; omega

theorem rd_eq {src : List UInt8} {i : Nat} (h : i < src.length) : rd src i = .ok src[i].toNat := by
  simp [rd, h]

theorem drop2 {src : List UInt8} {off : Nat} (h : off + 2 ≤ src.length) :
    (src.drop off).take 2 = [src[off], src[off + 1]] := by
  rw [List.drop_eq_getElem_cons (by omega), List.drop_eq_getElem_cons (by omega)]
  rfl

theorem take_split (l : List UInt8) (off a b : Nat) :
    (l.drop off).take (a + b) = (l.drop off).take a ++ (l.drop (off + a)).take b := by
  rw [List.take_add, List.drop_drop]

theorem valueBE_append (a b : List UInt8) : valueBE (a ++ b) = valueBE a * 256 ^ b.length + valueBE b := by
  induction b using List.reverseRecOn' with
  | nil => simp [valueBE]
  | append b x ih =>
    have h1 : valueBE (a ++ (b ++ [x])) = valueBE (a ++ b) * 256 + x.toNat := by
      simp [valueBE]
    have h2 : valueBE (b ++ [x]) = valueBE b * 256 + x.toNat := by simp [valueBE]
    rw [h1, h2, ih]
    simp only [List.length_append, List.length_cons, List.length_nil, Nat.pow_add, Nat.zero_add,
      Nat.pow_one, Nat.add_mul, Nat.mul_assoc]
    omega
where
  List.reverseRecOn' {p : List UInt8 → Prop} (l : List UInt8) (nil : p [])
      (append : ∀ l x, p l → p (l ++ [x])) : p l := by
    have : ∀ r : List UInt8, p r.reverse := by
      intro r
      induction r with
      | nil => exact nil
      | cons x r ih => rw [List.reverse_cons]; exact append _ _ ih
    simpa using this l.reverse

theorem valueLE_append (a b : List UInt8) : valueLE (a ++ b) = valueLE a + 256 ^ a.length * valueLE b := by
  rw [valueLE, List.reverse_append, valueBE_append, ← valueLE, ← valueLE, List.length_reverse]
  rw [Nat.mul_comm]; omega

theorem valueLE_lt (bs : List UInt8) : valueLE bs < 256 ^ bs.length := by
  rw [← memLoad_eq]; exact memLoad_lt bs

theorem valueBE_lt (bs : List UInt8) : valueBE bs < 256 ^ bs.length := by
  have := valueLE_lt bs.reverse
  rwa [valueLE, List.reverse_reverse, List.length_reverse] at this

theorem len_take {src : List UInt8} {off n : Nat} (h : off + n ≤ src.length) :
    ((src.drop off).take n).length = n := by simp; omega

theorem get16LEByte_eq {src : List UInt8} {off : Nat} (h : off + 2 ≤ src.length) :
    get16LEByte src off = .ok (valueLE ((src.drop off).take 2)) := by
  rw [drop2 h]
  simp only [get16LEByte, rd_eq (show off < src.length by omega),
    rd_eq (show off + 1 < src.length by omega), Res.ok_bind, Res.pure_eq]
  have h0 := src[off].toNat_lt
  have h1 := src[off + 1].toNat_lt
  rw [or_shift _ _ 8 h0]
  simp [valueLE, valueBE]; omega

theorem get32LEByte_eq {src : List UInt8} {off : Nat} (h : off + 4 ≤ src.length) :
    get32LEByte src off = .ok (valueLE ((src.drop off).take 4)) := by
  simp only [get32LEByte, get16LEByte_eq (show off + 2 ≤ src.length by omega),
    get16LEByte_eq (show off + 2 + 2 ≤ src.length by omega), Res.ok_bind, Res.pure_eq]
  rw [take_split src off 2 2, valueLE_append]
  have ha := valueLE_lt ((src.drop off).take 2)
  have hb := valueLE_lt ((src.drop (off + 2)).take 2)
  rw [len_take (by omega)] at ha hb ⊢
  generalize valueLE ((src.drop off).take 2) = a at *
  generalize valueLE ((src.drop (off + 2)).take 2) = b at *
  rw [Nat.mod_eq_of_lt (by rw [Nat.shiftLeft_eq]; omega), or_shift _ _ 16 (by omega)]
  simp; omega

theorem get64LEByte_eq {src : List UInt8} {off : Nat} (h : off + 8 ≤ src.length) :
    get64LEByte src off = .ok (valueLE ((src.drop off).take 8)) := by
  simp only [get64LEByte, get32LEByte_eq (show off + 4 ≤ src.length by omega),
    get32LEByte_eq (show off + 4 + 4 ≤ src.length by omega), Res.ok_bind, Res.pure_eq]
  rw [take_split src off 4 4, valueLE_append]
  have ha := valueLE_lt ((src.drop off).take 4)
  have hb := valueLE_lt ((src.drop (off + 4)).take 4)
  rw [len_take (by omega)] at ha hb ⊢
  generalize valueLE ((src.drop off).take 4) = a at *
  generalize valueLE ((src.drop (off + 4)).take 4) = b at *
  rw [Nat.mod_eq_of_lt (by rw [Nat.shiftLeft_eq]; omega), or_shift _ _ 32 (by omega)]
  simp; omega

theorem get16BEByte_eq {src : List UInt8} {off : Nat} (h : off + 2 ≤ src.length) :
    get16BEByte src off = .ok (valueBE ((src.drop off).take 2)) := by
  rw [drop2 h]
  simp only [get16BEByte, rd_eq (show off < src.length by omega),
    rd_eq (show off + 1 < src.length by omega), Res.ok_bind, Res.pure_eq]
  have h0 := src[off].toNat_lt
  have h1 := src[off + 1].toNat_lt
  rw [or_shift _ _ 8 h1]
  simp [valueBE]; omega

theorem get32BEByte_eq {src : List UInt8} {off : Nat} (h : off + 4 ≤ src.length) :
    get32BEByte src off = .ok (valueBE ((src.drop off).take 4)) := by
  simp only [get32BEByte, get16BEByte_eq (show off + 2 ≤ src.length by omega),
    get16BEByte_eq (show off + 2 + 2 ≤ src.length by omega), Res.ok_bind, Res.pure_eq]
  rw [take_split src off 2 2, valueBE_append]
  have ha := valueBE_lt ((src.drop off).take 2)
  have hb := valueBE_lt ((src.drop (off + 2)).take 2)
  rw [len_take (by omega)] at ha hb ⊢
  generalize valueBE ((src.drop off).take 2) = a at *
  generalize valueBE ((src.drop (off + 2)).take 2) = b at *
  rw [Nat.mod_eq_of_lt (by rw [Nat.shiftLeft_eq]; omega), or_shift _ _ 16 (by omega)]
  simp; omega

theorem get64BEByte_eq {src : List UInt8} {off : Nat} (h : off + 8 ≤ src.length) :
    get64BEByte src off = .ok (valueBE ((src.drop off).take 8)) := by
  simp only [get64BEByte, get32BEByte_eq (show off + 4 ≤ src.length by omega),
    get32BEByte_eq (show off + 4 + 4 ≤ src.length by omega), Res.ok_bind, Res.pure_eq]
  rw [take_split src off 4 4, valueBE_append]
  have ha := valueBE_lt ((src.drop off).take 4)
  have hb := valueBE_lt ((src.drop (off + 4)).take 4)
  rw [len_take (by omega)] at ha hb ⊢
  generalize valueBE ((src.drop off).take 4) = a at *
  generalize valueBE ((src.drop (off + 4)).take 4) = b at *
  rw [Nat.mod_eq_of_lt (by rw [Nat.shiftLeft_eq]; omega), or_shift _ _ 32 (by omega)]
  simp; omega

theorem overwrite_length {dst bs : List UInt8} {off : Nat} (h : off + bs.length ≤ dst.length) :
    (overwrite dst off bs).length = dst.length := by
  simp [overwrite]; omega

theorem wr_eq {dst : List UInt8} {off v : Nat} (h : off < dst.length) :
    wr dst off v = .ok (overwrite dst off [UInt8.ofNat v]) := by
  rw [wr, if_pos h, overwrite, List.set_eq_take_append_cons_drop]
  simp [h]

theorem overwrite_overwrite {dst a b : List UInt8} {off k : Nat} (hk : k = off + a.length)
    (h : off + a.length + b.length ≤ dst.length) :
    overwrite (overwrite dst off a) k b = overwrite dst off (a ++ b) := by
  subst hk
  simp only [overwrite]
  have hl : (dst.take off).length = off := by simp; omega
  rw [List.take_append_of_le_length (by simp; omega), List.take_of_length_le (by simp; omega)]
  rw [List.drop_append, List.drop_of_length_le (by simp; omega)]
  simp only [List.length_append, hl, List.nil_append, List.append_assoc, List.drop_drop]
  congr 4
  omega

theorem set16LEByte_eq {dst : List UInt8} {off x : Nat} (h : off + 2 ≤ dst.length) :
    set16LEByte dst off x = .ok (overwrite dst off (bytesLE 2 x)) := by
  rw [← memBytes_eq]
  simp only [set16LEByte, wr_eq (show off < dst.length by omega), Res.ok_bind]
  rw [wr_eq (by rw [overwrite_length (by simp; omega)]; omega),
    overwrite_overwrite (by simp) (by simp; omega)]
  simp [memBytes, Nat.shiftRight_eq_div_pow]

theorem set32LEByte_eq {dst : List UInt8} {off x : Nat} (h : off + 4 ≤ dst.length) :
    set32LEByte dst off x = .ok (overwrite dst off (bytesLE 4 x)) := by
  rw [← memBytes_eq]
  simp only [set32LEByte, wr_eq (show off < dst.length by omega), Res.ok_bind]
  rw [wr_eq (by rw [overwrite_length (by simp; omega)]; omega),
    overwrite_overwrite (by simp) (by simp; omega), Res.ok_bind,
    wr_eq (by rw [overwrite_length (by simp; omega)]; omega),
    overwrite_overwrite (by simp) (by simp; omega), Res.ok_bind,
    wr_eq (by rw [overwrite_length (by simp; omega)]; omega),
    overwrite_overwrite (by simp) (by simp; omega)]
  simp [memBytes, Nat.shiftRight_eq_div_pow, Nat.div_div_eq_div_mul]

theorem set16BEByte_eq {dst : List UInt8} {off x : Nat} (h : off + 2 ≤ dst.length) :
    set16BEByte dst off x = .ok (overwrite dst off (bytesBE 2 x)) := by
  rw [← bytes_reverse, ← memBytes_eq]
  simp only [set16BEByte, wr_eq (show off < dst.length by omega), Res.ok_bind]
  rw [wr_eq (by rw [overwrite_length (by simp; omega)]; omega),
    overwrite_overwrite (by simp) (by simp; omega)]
  simp [memBytes, Nat.shiftRight_eq_div_pow]

theorem set32BEByte_eq {dst : List UInt8} {off x : Nat} (h : off + 4 ≤ dst.length) :
    set32BEByte dst off x = .ok (overwrite dst off (bytesBE 4 x)) := by
  rw [← bytes_reverse, ← memBytes_eq]
  simp only [set32BEByte, wr_eq (show off < dst.length by omega), Res.ok_bind]
  rw [wr_eq (by rw [overwrite_length (by simp; omega)]; omega),
    overwrite_overwrite (by simp) (by simp; omega), Res.ok_bind,
    wr_eq (by rw [overwrite_length (by simp; omega)]; omega),
    overwrite_overwrite (by simp) (by simp; omega), Res.ok_bind,
    wr_eq (by rw [overwrite_length (by simp; omega)]; omega),
    overwrite_overwrite (by simp) (by simp; omega)]
  simp [memBytes, Nat.shiftRight_eq_div_pow, Nat.div_div_eq_div_mul]

theorem memBytes_split (a : Nat) : ∀ b x, memBytes (a + b) x = memBytes a (x % 256 ^ a) ++ memBytes b (x / 256 ^ a) := by
  induction a with
  | zero => intro b x; simp [memBytes]
  | succ a ih =>
    intro b x
    rw [show a + 1 + b = (a + b) + 1 by omega, memBytes, memBytes, ih]
    rw [Nat.pow_succ, Nat.mul_comm (256 ^ a) 256, Nat.mod_mul, ← Nat.div_div_eq_div_mul]
    rw [show (x % 256 + 256 * (x / 256 % 256 ^ a)) / 256 = x / 256 % 256 ^ a by omega]
    simp only [List.cons_append]
    rw [← ofNat_mod x, ← ofNat_mod (x % 256 + _),
      show (x % 256 + 256 * (x / 256 % 256 ^ a)) % 256 = x % 256 by omega]

theorem memBytes8 (x : Nat) : memBytes 8 x = memBytes 4 (x % 2 ^ 32) ++ memBytes 4 ((x >>> 32) % 2 ^ 32) := by
  rw [memBytes_split 4 4, Nat.shiftRight_eq_div_pow]
  congr 1
  have h2 := memBytes_split 4 0 (x / 256 ^ 4)
  simp only [memBytes, List.append_nil, Nat.add_zero] at h2
  simpa [memBytes] using h2

theorem set64LEByte_eq {dst : List UInt8} {off x : Nat} (h : off + 8 ≤ dst.length) :
    set64LEByte dst off x = .ok (overwrite dst off (bytesLE 8 x)) := by
  simp only [set64LEByte]
  rw [set32LEByte_eq (by omega), Res.ok_bind,
    set32LEByte_eq (by rw [overwrite_length (by simp; omega)]; omega),
    overwrite_overwrite (by simp) (by simp; omega)]
  simp only [← memBytes_eq, ← memBytes8]

theorem set64BEByte_eq {dst : List UInt8} {off x : Nat} (h : off + 8 ≤ dst.length) :
    set64BEByte dst off x = .ok (overwrite dst off (bytesBE 8 x)) := by
  simp only [set64BEByte]
  rw [set32BEByte_eq (by omega), Res.ok_bind,
    set32BEByte_eq (by rw [overwrite_length (by simp; omega)]; omega),
    overwrite_overwrite (by simp) (by simp; omega)]
  simp only [← bytes_reverse, ← memBytes_eq, ← List.reverse_append, ← memBytes8]

theorem byteSwap16Shift_eq (x : Nat) (h : x < 2 ^ 16) : byteSwap16Shift x = bswap 2 x := by
  simp only [byteSwap16Shift, bswap, memBytes, memLoad, List.reverse_cons, List.reverse_nil,
    List.nil_append, List.cons_append]
  rw [or_shift _ _ 8 (by rw [Nat.shiftRight_eq_div_pow]; omega), Nat.shiftRight_eq_div_pow]
  simp
  obtain ⟨q, r, hr, rfl⟩ : ∃ q r, r < 256 ∧ x = 256 * q + r := ⟨x / 256, x % 256, by omega, by omega⟩
  rw [show (256 * q + r) / 256 = q by omega,
    show q + (256 * q + r) * 256 = q + 256 * r + 65536 * q by omega, Nat.add_mul_mod_self_left]
  have hq : q < 256 := by omega
  rw [Nat.mod_eq_of_lt (show q + 256 * r < 65536 by omega), Nat.mod_eq_of_lt hq,
    show (256 * q + r) % 256 = r by omega]

end Verif.Endian
