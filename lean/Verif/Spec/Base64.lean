/-!
# Specification: RFC 4648 base64 and line breaking

Written from the RFC, independently of `Verif.Model.Base64`.
-/
namespace Verif.Spec.Base64

/-- RFC 4648 table 1: the character for a 6-bit value. -/
def char64 (n : Nat) : UInt8 :=
  if n < 26 then UInt8.ofNat (65 + n)            -- A..Z
  else if n < 52 then UInt8.ofNat (97 + (n - 26)) -- a..z
  else if n < 62 then UInt8.ofNat (48 + (n - 52)) -- 0..9
  else if n = 62 then 43                          -- +
  else 47                                         -- /

/-- RFC 4648 section 4: three bytes are one 24-bit number, cut into four 6-bit digits; one or two
trailing bytes are completed with zero bits and `=` signs. -/
def rfc4648 : List UInt8 → List UInt8
  | [] => []
  | [a] =>
    let v := a.toNat * 16
    [char64 (v / 64), char64 (v % 64), 61, 61]
  | [a, b] =>
    let v := (a.toNat * 256 + b.toNat) * 4
    [char64 (v / 4096), char64 (v / 64 % 64), char64 (v % 64), 61]
  | a :: b :: c :: rest =>
    let v := a.toNat * 65536 + b.toNat * 256 + c.toNat
    char64 (v / 262144) :: char64 (v / 4096 % 64) :: char64 (v / 64 % 64) :: char64 (v % 64) ::
      rfc4648 rest

/-- Newline sequence of a mode: CRLF for 1, nothing for 2, LF otherwise. -/
def newline (mode : Int) : List UInt8 :=
  if mode = 2 then [] else if mode = 1 then [13, 10] else [10]

/-- Cut a text into pieces of `n` characters (the last one may be shorter). -/
def pieces (n : Nat) (s : List UInt8) : List (List UInt8) :=
  if h : n = 0 ∨ s = [] then (if s = [] then [] else [s])
  else s.take n :: pieces n (s.drop n)
  termination_by s.length
  decreasing_by
    have : s.length ≠ 0 := by simpa using fun h' => h (Or.inr h')
    have : n ≠ 0 := fun h' => h (Or.inl h')
    simp; omega

/-- Text laid out in lines of `n` characters, each line followed by the newline sequence;
`n = 0` means one endless line without newline. -/
def layout (n : Nat) (mode : Int) (s : List UInt8) : List UInt8 :=
  if n = 0 then s else (pieces n s).flatMap (fun l => l ++ newline mode)

/-- Is the byte one of the 64 alphabet characters? -/
def isAlphabet (b : UInt8) : Bool :=
  (65 ≤ b && b ≤ 90) || (97 ≤ b && b ≤ 122) || (48 ≤ b && b ≤ 57) || b == 43 || b == 47

end Verif.Spec.Base64
