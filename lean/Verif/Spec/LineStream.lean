/-! What the lines of a byte sequence are. -/
namespace Verif.Spec.LineStream

/-- One CR at the end is not part of a line. -/
def stripCR (l : List UInt8) : List UInt8 := if l.getLast? = some 13 then l.dropLast else l

/-- The lines, the line under construction being `cur`. -/
def linesFrom (cur : List UInt8) : List UInt8 → List (List UInt8)
  | [] => if cur = [] then [] else [cur]
  | c :: cs => if c = 10 then stripCR cur :: linesFrom [] cs else linesFrom (cur ++ [c]) cs

/-- The lines: each ends at an LF and loses one CR before it; what follows the last LF is a line too unless it is empty. -/
def lines (bytes : List UInt8) : List (List UInt8) := linesFrom [] bytes

end Verif.Spec.LineStream
