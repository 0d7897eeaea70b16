/-! How fields may be written in a CSV text. -/
namespace Verif.Spec.Csv

/-- Every quote doubled. -/
def doubled : List UInt8 → List UInt8
  | [] => []
  | c :: cs => if c = 34 then 34 :: 34 :: doubled cs else c :: doubled cs

/-- A field in a text: its content and whether it is quoted. -/
structure Field where
  quoted : Bool
  text : List UInt8

/-- The text of a field. -/
def Field.render (f : Field) : List UInt8 := if f.quoted then [34] ++ doubled f.text ++ [34] else f.text

/-- Characters no field may have: CR (dropped by the reader) and 0xFF (taken for the end of the stream).  A field
without quotes may not start with a quote and may not have a separator or an LF. -/
def Field.Legal (sep : UInt8) (f : Field) : Prop :=
  13 ∉ f.text ∧ 255 ∉ f.text ∧ (f.quoted = false → sep ∉ f.text ∧ 10 ∉ f.text ∧ f.text.head? ≠ some 34)

/-- The text of a row without its line end. -/
def renderRow (sep : UInt8) : List Field → List UInt8
  | [] => []
  | [f] => f.render
  | f :: fs => f.render ++ [sep] ++ renderRow sep fs

/-- A row can be recognised: an empty last field must be quoted. -/
def RowLegal (sep : UInt8) (fs : List Field) : Prop :=
  (∀ f ∈ fs, f.Legal sep) ∧ (∀ f, fs.getLast? = some f → f.quoted = true ∨ f.text ≠ [])

/-- The fields of a row. -/
def fields (fs : List Field) : List (List UInt8) := fs.map (·.text)

/-- Number of bytes in the fields. -/
def size (fs : List Field) : Nat := (fs.map (·.text.length)).sum

end Verif.Spec.Csv
