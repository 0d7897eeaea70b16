import Verif.Proof.Csv
set_option linter.unusedSimpArgs false

/-! # C24: CSV -/
namespace Verif.Props.Csv
open Verif
open Verif.Stream (Src)
open Verif.Csv Verif.Spec.Csv

/-- C24.  Reading what the writer wrote gives back the rows and fields, for every fragmentation of the input, every junk in the
uninitialised buffer, every separator the class accepts and every content without CR and 0xFF whose total size is below the
limit. -/
theorem C24_roundtrip (max : Nat) (sep : UInt8) (rows : List (List (List UInt8)))
    (hc : ∀ row ∈ rows, ∀ f ∈ row, 13 ∉ f ∧ 255 ∉ f) (hs : (rows.map fun row => (row.map List.length).sum).sum < max)
    (src : Src) (hsrc : src.rest = (rows.map (write sep)).flatten) (junk : List UInt8) (hj : 0 < junk.length) (r : Reader)
    (hr : create src sep junk = .ok r) (fuel n : Nat) (hf : src.rest.length + 1 ≤ fuel) (hn : rows.length + 1 ≤ n) :
    readAll max sep fuel n r = .ok rows := by
  rw [create] at hr
  by_cases hsep : isValidSeparator sep = true
  · rw [if_neg (by simp [hsep])] at hr
    injection hr with hr
    subst hr
    have h := readAll_rows max sep hsep (rows.map fun row => (row.map fun t => ⟨true, t⟩, [13, 10])) ?_
      { src, line := 0, lineSize := 0, buf := junk, pos := 0, bufSize := 0, eof := false } fuel n
      ⟨by simp, by simp, hj⟩ rfl ?_ ?_ ?_ (by simpa using hn)
    · rw [h]
      congr 1
      simp [fields, Function.comp_def]
    · intro p hp
      simp only [List.mem_map] at hp
      obtain ⟨row, hrow, rfl⟩ := hp
      refine ⟨⟨?_, ?_⟩, .inr rfl⟩
      · intro f hf
        simp only [List.mem_map] at hf
        obtain ⟨t, ht, rfl⟩ := hf
        exact ⟨(hc row hrow t ht).1, (hc row hrow t ht).2, by simp⟩
      · intro f hf
        have := List.mem_of_getLast? hf
        simp only [List.mem_map] at this
        obtain ⟨t, ht, rfl⟩ := this
        exact .inl rfl
    · simp only [pending, textOf, List.take_zero, List.drop_nil, List.nil_append, hsrc, List.map_map]
      congr 2
      funext row
      simp [write_eq]
    · simpa [size, Function.comp_def] using hs
    · simpa [pending] using hf
  · rw [if_pos (by simpa using hsep)] at hr
    cases hr

/-- C24.  The class accepts exactly comma, tab, semicolon and space as a separator and throws for any other. -/
theorem C24_separators (src : Src) (sep : UInt8) (junk : List UInt8) :
    (sep = ','.toUInt8 ∨ sep = '\t'.toUInt8 ∨ sep = ';'.toUInt8 ∨ sep = ' '.toUInt8 → ∃ r, create src sep junk = .ok r) ∧
    (¬ (sep = ','.toUInt8 ∨ sep = '\t'.toUInt8 ∨ sep = ';'.toUInt8 ∨ sep = ' '.toUInt8) → create src sep junk = .throw) := by
  have h : isValidSeparator sep = true ↔ (sep = ','.toUInt8 ∨ sep = '\t'.toUInt8 ∨ sep = ';'.toUInt8 ∨ sep = ' '.toUInt8) := by
    simp only [isValidSeparator, Bool.or_eq_true, decide_eq_true_eq, or_assoc]
    exact Iff.rfl
  rw [← h, create]
  cases isValidSeparator sep
  · simp
  · simp

/-- C24 for texts of other writers: fields quoted or not, rows ended by LF or CR LF.  A field without quotes may contain quotes
except at its start; the last field of a row must not be empty without quotes. -/
theorem C24_reads_foreign_text (max : Nat) (sep : UInt8) (rows : List (List Field × List UInt8))
    (hl : ∀ p ∈ rows, RowLegal sep p.1 ∧ (p.2 = [10] ∨ p.2 = [13, 10])) (hs : (rows.map fun p => size p.1).sum < max)
    (src : Src) (hsrc : src.rest = (rows.map fun p => renderRow sep p.1 ++ p.2).flatten) (junk : List UInt8) (hj : 0 < junk.length)
    (r : Reader) (hr : create src sep junk = .ok r) (fuel n : Nat) (hf : src.rest.length + 1 ≤ fuel) (hn : rows.length + 1 ≤ n) :
    readAll max sep fuel n r = .ok (rows.map fun p => fields p.1) := by
  rw [create] at hr
  by_cases hsep : isValidSeparator sep = true
  · rw [if_neg (by simp [hsep])] at hr
    injection hr with hr
    subst hr
    exact readAll_rows max sep hsep rows hl _ fuel n ⟨by simp, by simp, hj⟩ rfl (by simpa [pending, textOf] using hsrc)
      (by simpa using hs) (by simpa [pending] using hf) hn
  · rw [if_pos (by simpa using hsep)] at hr
    cases hr

/-- C24.  On any bytes whatever, well formed or not, the outcome does not depend on how the stream fragments them nor on the
junk in the buffer, and the reader never leaves its buffer. -/
theorem C24_fragmentation_invisible (max : Nat) (sep : UInt8) (src src' : Src) (h : src.rest = src'.rest) (junk junk' : List UInt8)
    (hj : 0 < junk.length) (hj' : 0 < junk'.length) (r r' : Reader) (hr : create src sep junk = .ok r)
    (hr' : create src' sep junk' = .ok r') (n fuel fuel' : Nat) (hf : src.rest.length + 1 ≤ fuel) (hf' : src.rest.length + 1 ≤ fuel')
    (hn : src.rest.length + 1 ≤ n) :
    readAll max sep fuel n r = readAll max sep fuel' n r' ∧ readAll max sep fuel n r ≠ .ub := by
  rw [create] at hr hr'
  split at hr
  · cases hr
  · rw [if_neg ‹_›] at hr'
    injection hr with hr
    injection hr' with hr'
    subst hr; subst hr'
    refine readAll_same max sep n ⟨src, 0, 0, junk, 0, 0, false⟩ ⟨src', 0, 0, junk', 0, 0, false⟩ fuel fuel' ⟨by simp, by simp, hj⟩
      ⟨by simp, by simp, hj'⟩ (by simpa [pending] using h) rfl rfl ?_ ?_ ?_
      <;> simpa [pending]

/-- What `readAll` makes of a text (separator comma, limit `max`). -/
def parse (max : Nat) (bytes : List UInt8) : Res (List (List (List UInt8))) :=
  readAll max 44 99 99 ⟨⟨bytes, fun _ => 99, 0⟩, 0, 0, List.replicate 64 0, 0, 0, false⟩

/-- Finding: a last row without line end whose last field is empty is lost ("a," at the end of the file). -/
theorem C24_last_row_lost : parse 1000 [97, 44] = .ok [] ∧ parse 1000 [97, 44, 98] = .ok [[[97], [98]]] := by decide +kernel

/-- Finding: a quote that is never closed is not reported when nothing follows it. -/
theorem C24_open_quote_unreported : parse 1000 [97, 44, 34] = .ok [] ∧ parse 1000 [97, 44, 34, 98] = .throw := by decide +kernel

/-- Finding: an empty last field without quotes is dropped, an empty first one is not. -/
theorem C24_trailing_empty_field_dropped :
    parse 1000 [97, 44, 10] = .ok [[[97]]] ∧ parse 1000 [44, 97, 10] = .ok [[[], [97]]] := by decide +kernel

/-- Finding: byte 0xFF is taken for the end of the stream, so the round trip needs its absence. -/
theorem C24_ff_ends_stream : parse 1000 (write 44 [[255]] ++ write 44 [[97]]) ≠ .ok [[[255]], [[97]]] := by decide +kernel

/-- Finding: CR is dropped even inside quotes. -/
theorem C24_cr_dropped : parse 1000 (write 44 [[97, 13, 98]]) = .ok [[[97, 98]]] := by decide +kernel

/-- Finding: the limit called `MAX_LINE_SIZE` is on the whole file, not on a line: `lineSize_` is never reset. -/
theorem C24_limit_is_on_file :
    parse 4 (write 44 [[97, 98]]) = .ok [[[97, 98]]] ∧ parse 4 (write 44 [[97, 98]] ++ write 44 [[97, 98]]) = .throw := by decide +kernel

/-! Concrete cases. -/
example : write 44 [[34, 97], [], [44, 10]] = [34, 34, 34, 97, 34, 44, 34, 34, 44, 34, 44, 10, 34, 13, 10] := by decide
example : ∀ row ∈ [[[34, 97], [], [44, 10]], []], ∀ f ∈ row, (13 : UInt8) ∉ f ∧ (255 : UInt8) ∉ f := by decide
example : (create ⟨[], fun _ => 0, 0⟩ 44 [0]).bind (fun r => .ok r.pos) = .ok 0 ∧
    (create ⟨[], fun _ => 0, 0⟩ 97 [0]).bind (fun r => .ok r.pos) = .throw := by decide
example : RowLegal 44 [⟨false, [97, 34]⟩, ⟨false, []⟩, ⟨true, [44, 10, 34]⟩] := by
  refine ⟨?_, ?_⟩
  · intro f hf
    simp only [List.mem_cons, List.not_mem_nil, or_false] at hf
    rcases hf with rfl | rfl | rfl <;> simp [Field.Legal]
  · intro f hf; simp at hf; left; rw [← hf]

#print axioms C24_roundtrip
#print axioms C24_separators
#print axioms C24_reads_foreign_text
#print axioms C24_fragmentation_invisible

end Verif.Props.Csv
