/-! The Unicode encoding forms, after the Unicode standard, section 3.9. -/
namespace Verif.Spec.Utf

/-- Unicode scalar values (D76). -/
def Scalar (c : Nat) : Prop := c ≤ 0x10FFFF ∧ ¬ (0xD800 ≤ c ∧ c ≤ 0xDFFF)

/-- UTF-8 bit distribution (table 3-6). -/
def utf8 (c : Nat) : List Nat :=
  if c ≤ 0x7F then [c]
  else if c ≤ 0x7FF then [0xC0 + c / 64, 0x80 + c % 64]
  else if c ≤ 0xFFFF then [0xE0 + c / 4096, 0x80 + c / 64 % 64, 0x80 + c % 64]
  else [0xF0 + c / 262144, 0x80 + c / 4096 % 64, 0x80 + c / 64 % 64, 0x80 + c % 64]

/-- UTF-16 bit distribution (table 3-5). -/
def utf16 (c : Nat) : List Nat :=
  if c ≤ 0xFFFF then [c] else [0xD800 + (c - 0x10000) / 1024, 0xDC00 + (c - 0x10000) % 1024]

/-- Is `b` in the range? -/
def In (b lo hi : Nat) : Prop := lo ≤ b ∧ b ≤ hi

/-- Well-formed UTF-8 byte sequences of one character (table 3-7). -/
inductive Table37 : List Nat → Prop
  | r1 (a) : In a 0x00 0x7F → Table37 [a]
  | r2 (a b) : In a 0xC2 0xDF → In b 0x80 0xBF → Table37 [a, b]
  | r3 (b c) : In b 0xA0 0xBF → In c 0x80 0xBF → Table37 [0xE0, b, c]
  | r4 (a b c) : In a 0xE1 0xEC → In b 0x80 0xBF → In c 0x80 0xBF → Table37 [a, b, c]
  | r5 (b c) : In b 0x80 0x9F → In c 0x80 0xBF → Table37 [0xED, b, c]
  | r6 (a b c) : In a 0xEE 0xEF → In b 0x80 0xBF → In c 0x80 0xBF → Table37 [a, b, c]
  | r7 (b c d) : In b 0x90 0xBF → In c 0x80 0xBF → In d 0x80 0xBF → Table37 [0xF0, b, c, d]
  | r8 (a b c d) : In a 0xF1 0xF3 → In b 0x80 0xBF → In c 0x80 0xBF → In d 0x80 0xBF → Table37 [a, b, c, d]
  | r9 (b c d) : In b 0x80 0x8F → In c 0x80 0xBF → In d 0x80 0xBF → Table37 [0xF4, b, c, d]

/-- The UTF-8 form of a sequence of characters. -/
def utf8s (cs : List Nat) : List Nat := (cs.map utf8).flatten

/-- The UTF-16 form of a sequence of characters. -/
def utf16s (cs : List Nat) : List Nat := (cs.map utf16).flatten

end Verif.Spec.Utf
