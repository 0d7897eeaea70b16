import Verif.Model.Desymbol
import Verif.Spec.Numeral
/-!
# What finding addresses in a text and replacing them is meant to be
-/
namespace Verif.Spec.Desymbol
open Verif.Desymbol (Lib Section Info Tools)
open Verif.Spec.Numeral

abbrev Bytes := List UInt8

/-- The address lies in the section; no arithmetic of a machine. -/
def Section.covers (s : Section) (pc : Nat) : Prop := s.vma ≤ pc ∧ pc < s.vma + s.size

/-- Section `n` covers the address and knows something near it. -/
def Knows (lib : Lib) (pc n : Nat) (i : Info) : Prop :=
  ∃ s, lib.sections[n]? = some s ∧ Section.covers s pc ∧ lib.nearest n (pc - s.vma) = some i

/-- The first section that covers the address and knows something near it says this. -/
def Lookup (lib : Lib) (pc : Nat) (i : Info) : Prop :=
  ∃ n, Knows lib pc n i ∧ ∀ m < n, ∀ j, ¬ Knows lib pc m j

/-- The numeral that the characters up to a NUL are. -/
def HexText (b : Bytes) (v : Nat) : Prop := parseNat 16 (2 ^ 64 - 1) (upToNul b) = some v

/-- The first `[0x` of the text is closed, and the characters between are the numeral of `v`. -/
def FirstAddr (s : Bytes) (v : Nat) : Prop :=
  ∃ a b c, s = a ++ [91, 48, 120] ++ b ++ [93] ++ c ∧ (∀ a' c', s = a' ++ [91, 48, 120] ++ c' → a.length ≤ a'.length) ∧
    (93 : UInt8) ∉ b ∧ HexText b v

/-- A word `0x…`. -/
def IsAddr (w : Bytes) (v : Nat) : Prop := ∃ b, w = [48, 120] ++ b ∧ HexText b v

/-- The line is a trace on one line. -/
def isOneline (l : Bytes) : Prop := "<<<STACKTRACE>>> ".toUTF8.toList <+: l

/-- A line that opens a trace. -/
def Opens (l : Bytes) : Prop := "<<<STACKTRACE".toUTF8.toList <+: l ∧ ¬ isOneline l

/-- A line that closes a trace. -/
def Closes (l : Bytes) : Prop := ">>>STACKTRACE".toUTF8.toList <+: l

/-- Line `i` is inside a trace: a line before opens one, and no line since then, this one included, closes it. -/
def Inside (ls : List Bytes) (i : Nat) : Prop :=
  ∃ j < i, (∃ l, ls[j]? = some l ∧ Opens l) ∧ ∀ k, j < k → k ≤ i → ∀ l, ls[k]? = some l → ¬ Closes l

/-- `s` without the line feeds and carriage returns at its end. -/
def Stripped (s m : Bytes) : Prop :=
  ∃ e, s = m ++ e ∧ (∀ c ∈ e, c = 10 ∨ c = 13) ∧ (∀ c, m.getLast? = some c → c ≠ 10 ∧ c ≠ 13)

/-- What is put before an address: `file:line function `. -/
def Note (t : Tools) (pc : Nat) (p : Bytes) : Prop :=
  ∃ lib i, t.bfd = some lib ∧ Lookup lib pc i ∧
    p = i.file.getD [] ++ [58] ++ t.dec i.line ++ [32] ++ (t.dem (i.func.getD [])).getD (i.func.getD []) ++ [32]

/-- `p` is the note for the address if there is one, else empty. -/
def NoteOrNot (t : Tools) (pc : Nat) (p : Bytes) : Prop :=
  Note t pc p ∨ (p = [] ∧ ∀ q, ¬ Note t pc q)

/-- What is put before line `s`: a note for its first address, which is not 0, or nothing. -/
def LineNote (t : Tools) (s p : Bytes) : Prop :=
  (∃ v, FirstAddr s v ∧ v ≠ 0 ∧ NoteOrNot t v p) ∨ (p = [] ∧ ∀ v, FirstAddr s v → v = 0)

/-- A blank: space, tab, line feed, vertical tab, form feed, carriage return. -/
def Blank (c : UInt8) : Prop := c ∈ [32, 9, 10, 11, 12, 13]

/-- The words of a text, separated by blanks. -/
inductive Words : Bytes → List Bytes → Prop
  | none (s : Bytes) (h : ∀ c ∈ s, Blank c) : Words s []
  | some (sp w r : Bytes) (ws : List Bytes) (h1 : ∀ c ∈ sp, Blank c) (h2 : ∀ c ∈ w, ¬ Blank c) (h3 : w ≠ [])
      (h4 : ∀ c, r.head? = some c → Blank c) (h : Words r ws) : Words (sp ++ w ++ r) (w :: ws)

/-- The lines for the words: an address each, with its note, up to the first word that is none. -/
inductive AddrLines (t : Tools) : List Bytes → Bytes → Prop
  | nil : AddrLines t [] []
  | stop (w : Bytes) (ws : List Bytes) (h : ∀ v, ¬ IsAddr w v) : AddrLines t (w :: ws) []
  | cons (w p out : Bytes) (ws : List Bytes) (v : Nat) (h : IsAddr w v) (hp : NoteOrNot t v p) (hr : AddrLines t ws out) :
      AddrLines t (w :: ws) (p ++ upToNul w ++ [10] ++ out)

/-- What is printed for a line that is a trace. -/
def OnelineOut (t : Tools) (s out : Bytes) : Prop :=
  ∃ rest ws body, s = "<<<STACKTRACE>>> ".toUTF8.toList ++ rest ∧ Words rest ws ∧ AddrLines t ws body ∧
    out = "<<<STACKTRACE\n".toUTF8.toList ++ body ++ ">>>STACKTRACE\n".toUTF8.toList

/-- What is printed for another line: a note, perhaps, and the line up to a NUL. -/
def LineOut (t : Tools) (decode : Prop) (s out : Bytes) : Prop :=
  ∃ p, out = p ++ upToNul s ++ [10] ∧ (decode → LineNote t s p) ∧ (¬ decode → p = [])

/-- The lines of a text; the last one may lack its line feed. -/
def LinesOf (s : Bytes) (ls : List Bytes) : Prop :=
  (∀ l ∈ ls, (10 : UInt8) ∉ l) ∧
    ((ls.map (· ++ [10])).flatten = s ∨ ((ls.map (· ++ [10])).flatten = s ++ [10] ∧ ∃ l, ls.getLast? = some l ∧ l ≠ []))

/-- The sections end before the end of the memory and the texts are C strings. -/
structure Proper (t : Tools) : Prop where
  low : ∀ lib, t.bfd = some lib → ∀ s ∈ lib.sections, s.vma + s.size < 2 ^ 64
  file : ∀ lib, t.bfd = some lib → ∀ n o i, lib.nearest n o = some i → (0 : UInt8) ∉ i.file.getD [] ∧ (0 : UInt8) ∉ i.func.getD []
  dem : ∀ f g, t.dem f = some g → (0 : UInt8) ∉ g
  dec : ∀ n, (0 : UInt8) ∉ t.dec n

end Verif.Spec.Desymbol
