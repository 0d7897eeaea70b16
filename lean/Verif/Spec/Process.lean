import Verif.Model.Process
/-!
# Specification for `process.hpp`

How a program started on Windows takes its command line apart (the rules Microsoft documents for the C runtime): the first word is
the program name, up to the next quotation mark if it begins with one; then, between blanks, a quotation mark switches quoting on
and off, `2n` backslashes before a quotation mark are `n` backslashes, `2n + 1` backslashes before a quotation mark are `n`
backslashes and a literal quotation mark, any other backslash is literal. (The rule for two quotation marks in a row inside quotes
differs between versions of the runtime; it is not needed here.)
-/
namespace Verif.Process

/-- The words of the rest of the command line. State: in quotes or not, the backslashes just read, the word read so far (`none`:
between words). -/
def words (q : Bool) (bs : Nat) (cur : Option (List UInt8)) : List UInt8 → List (List UInt8)
  | [] => (match cur with | none => [] | some w => [w ++ List.replicate bs 92])
  | c :: cs =>
    if c = 92 then words q (bs + 1) (some (cur.getD [])) cs
    else if c = 34 then
      if bs % 2 = 1 then words q 0 (some (cur.getD [] ++ List.replicate (bs / 2) 92 ++ [34])) cs
      else words (!q) 0 (some (cur.getD [] ++ List.replicate (bs / 2) 92)) cs
    else if (c = 32 ∨ c = 9) ∧ q = false then
      match cur with
      | none => words q 0 none cs
      | some w => (w ++ List.replicate bs 92) :: words q 0 none cs
    else words q 0 (some (cur.getD [] ++ List.replicate bs 92 ++ [c])) cs

/-- The whole line, the program name in quotes. -/
def argvOf (line : List UInt8) : List (List UInt8) :=
  match line with
  | 34 :: rest => rest.takeWhile (· ≠ 34) :: words false 0 none ((rest.dropWhile (· ≠ 34)).drop 1)
  | l => words false 0 none l

/-- No backslash stands directly before a quotation mark or at the end. -/
def Plain : List UInt8 → Prop
  | [] => True
  | [c] => c ≠ 92
  | c :: d :: cs => (c = 92 → d ≠ 34) ∧ Plain (d :: cs)

end Verif.Process
