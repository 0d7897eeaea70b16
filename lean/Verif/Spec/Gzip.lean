/-!
# The gzip member header of RFC 1952, section 2.3

```
ID1 ID2 CM FLG MTIME*4 XFL OS | [XLEN*2 extra] | [name 0] | [comment 0] | [CRC16*2]
```
The bits of `FLG`: 0 FTEXT, 1 FHCRC, 2 FEXTRA, 3 FNAME, 4 FCOMMENT, 5-7 reserved.
-/
namespace Verif.Spec.Gzip

/-- A string and the zero byte that ends it. -/
def ZeroTerminated (h : List UInt8) : Prop := ∃ s, h = s ++ [0] ∧ (0 : UInt8) ∉ s

/-- An extra field: its length, little endian, and its content. -/
def Extra (h : List UInt8) : Prop :=
  ∃ (lo hi : UInt8) (data : List UInt8), h = lo :: hi :: data ∧ data.length = lo.toNat + 256 * hi.toNat

/-- A part that is there iff its flag is set. -/
def Part (present : Bool) (P : List UInt8 → Prop) (h : List UInt8) : Prop :=
  if present then P h else h = []

/-- `h` is a complete member header of the method deflate. -/
def IsHeader (h : List UInt8) : Prop :=
  ∃ (flg : UInt8) (six extra name comment crc : List UInt8),
    h = [0x1f, 0x8b, 8, flg] ++ six ++ extra ++ name ++ comment ++ crc ∧
    flg.toNat < 32 ∧ six.length = 6 ∧
    Part (flg.toNat.testBit 2) Extra extra ∧
    Part (flg.toNat.testBit 3) ZeroTerminated name ∧
    Part (flg.toNat.testBit 4) ZeroTerminated comment ∧
    Part (flg.toNat.testBit 1) (fun c => c.length = 2) crc

end Verif.Spec.Gzip
