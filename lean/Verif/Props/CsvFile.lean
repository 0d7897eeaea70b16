import Verif.Model.CsvFile
import Verif.Props.Csv
/-!
# C110: CSV files: what is on the disk, what is reported
-/
set_option linter.unusedSimpArgs false
namespace Verif.Props.CsvFile
open Verif Verif.CsvFile Verif.Csv
/-- The text of the rows. -/
def text (sep : UInt8) (rows : List (List (List UInt8))) : List UInt8 := (rows.map (Csv.write sep)).flatten

/-- The stream is good and holds `t` in file and buffer; or it failed, the device is full and the file is a proper prefix of `t`. -/
def Inv (o : OFile) (room : Nat) (t : List UInt8) : Prop :=
  (o.good = true ∧ o.file ++ o.buf = t ∧ o.file.length + o.room = room) ∨
  (o.good = false ∧ o.room = 0 ∧ o.file = t.take room ∧ room < t.length)

/-- After a write: reported as done and then held, or not. -/
def After (r : Bool × OFile) (room : Nat) (flush : Nat → Bool) (t bs : List UInt8) : Prop :=
  Inv r.2 room (t ++ bs) ∧ r.1 = r.2.good ∧ r.2.flush = flush

theorem put_inv (o : OFile) (room : Nat) (t bs : List UInt8) (h : Inv o room t) : After (put o bs) room o.flush t bs := by
  obtain ⟨good, buf, file, rm, flush, calls⟩ := o
  unfold put After
  rcases h with ⟨g, e, l⟩ | ⟨g, e, f, l⟩
  · simp only at g e l
    subst g
    simp only [Bool.not_true, Bool.false_eq_true, if_false]
    by_cases hf : flush calls = true
    · rw [if_pos hf]
      unfold transfer
      have hlen : (t ++ bs).length = file.length + (buf ++ bs).length := by
        rw [← e]; simp [Nat.add_assoc]
      by_cases hr : (buf ++ bs).length ≤ rm
      · simp only [hr, if_true]
        refine ⟨Or.inl ⟨rfl, ?_, ?_⟩, trivial, trivial⟩
        · rw [← e]; simp
        · simp only [List.length_append] at hr ⊢; omega
      · simp only [hr, if_false]
        refine ⟨Or.inr ⟨rfl, rfl, ?_, by omega⟩, trivial, trivial⟩
        simp only
        rw [← e, ← l, List.append_assoc, List.take_length_add_append]
    · rw [if_neg hf]
      exact ⟨Or.inl ⟨rfl, by rw [← e]; simp, l⟩, rfl, rfl⟩
  · simp only at g e f l
    subst g
    simp only [Bool.not_false, if_true]
    refine ⟨Or.inr ⟨rfl, e, ?_, by simp; omega⟩, trivial, trivial⟩
    simp only
    rw [f, List.take_append_of_le_length (by omega)]

theorem put_sticky (o : OFile) (bs : List UInt8) (h : o.good = false) :
    (put o bs).1 = false ∧ (put o bs).2.good = false ∧ (put o bs).2.file = o.file ∧ (put o bs).2.room = o.room ∧
      (put o bs).2.buf = o.buf := by
  simp [put, h]

theorem andThen_inv (r : Bool × OFile) (k : OFile → Bool × OFile) (room : Nat) (flush : Nat → Bool) (t a b : List UInt8)
    (hr : After r room flush t a) (hk : ∀ o, Inv o room (t ++ a) → o.flush = flush → After (k o) room flush (t ++ a) b) :
    After (andThen r k) room flush t (a ++ b) := by
  obtain ⟨h1, h2, h3⟩ := hr
  unfold andThen
  by_cases h : r.1 = true
  · rw [if_pos h]
    have := hk r.2 h1 h3
    simpa [After, List.append_assoc] using this
  · rw [if_neg h]
    refine ⟨?_, h2, h3⟩
    have hg : r.2.good = false := by rw [← h2]; simpa using h
    rcases h1 with ⟨g, _⟩ | ⟨g, e, f, l⟩
    · rw [hg] at g; cases g
    · refine Or.inr ⟨g, e, ?_, by simp at l ⊢; omega⟩
      rw [f, ← List.append_assoc, List.take_append_of_le_length (l₁ := t ++ a) (by omega)]

theorem writeLoop_inv (sep : UInt8) (row : List (List UInt8)) : ∀ (b : Bool) (o : OFile) (room : Nat) (t : List UInt8), Inv o room t →
    After (CsvFile.writeLoop sep b row o) room o.flush t (Csv.writeLoop sep b row ++ [13, 10]) := by
  induction row with
  | nil => intro b o room t h; exact put_inv o room t _ h
  | cons f fs ih =>
    intro b o room t h
    have tail : ∀ (o1 : OFile) (t : List UInt8), Inv o1 room t →
        After (andThen (put o1 (append f)) (CsvFile.writeLoop sep false fs)) room o1.flush t
          (append f ++ (Csv.writeLoop sep false fs ++ [13, 10])) := by
      intro o1 t h1
      refine andThen_inv _ _ room _ _ _ _ (put_inv o1 room _ _ h1) ?_
      intro o2 h2 f2
      rw [← f2]
      exact ih false o2 room _ h2
    unfold CsvFile.writeLoop Csv.writeLoop
    rw [List.append_assoc, List.append_assoc]
    cases b with
    | true => simpa [andThen] using tail o t h
    | false =>
      refine andThen_inv _ _ room _ t _ _ (put_inv o room t _ h) ?_
      intro o1 h1 f1
      rw [← f1]
      exact tail o1 _ h1

theorem write_inv (sep : UInt8) (row : List (List UInt8)) (o : OFile) (room : Nat) (t : List UInt8) (h : Inv o room t) :
    After (CsvFile.write sep row o) room o.flush t (Csv.write sep row) := writeLoop_inv sep row true o room t h

theorem writeAll_inv (sep : UInt8) (rows : List (List (List UInt8))) : ∀ (o : OFile) (room : Nat) (t : List UInt8), Inv o room t →
    Inv (writeAll sep rows o).2 room (t ++ text sep rows) ∧ (writeAll sep rows o).2.flush = o.flush ∧
    (writeAll sep rows o).1.length = rows.length ∧
    (∀ b ∈ (writeAll sep rows o).1.getLast?, b = (writeAll sep rows o).2.good) := by
  induction rows with
  | nil => intro o room t h; exact ⟨by simpa [text, writeAll] using h, rfl, rfl, by simp [writeAll]⟩
  | cons row rows ih =>
    intro o room t h
    obtain ⟨a, b, c⟩ := write_inv sep row o room t h
    obtain ⟨x, y, z, w⟩ := ih _ room _ a
    refine ⟨by simpa [text, writeAll, List.append_assoc] using x, by simpa [writeAll, c] using y, by simpa [writeAll] using z, ?_⟩
    simp only [writeAll]
    cases rows with
    | nil => simp [writeAll, b]
    | cons r rs =>
      rw [List.getLast?_cons_of_ne_nil (by simp [writeAll])]
      exact w

theorem inv_open (room : Nat) (flush : Nat → Bool) (old : List UInt8) : Inv (openOut true old room flush) room [] :=
  Or.inl ⟨rfl, rfl, by simp [openOut]⟩

theorem close_inv (o : OFile) (room : Nat) (t : List UInt8) (h : Inv o room t) : close o = t.take room := by
  unfold close
  rcases h with ⟨_, e, l⟩ | ⟨_, e, f, l⟩
  · rw [← e, ← l, List.take_length_add_append]
  · rw [e, f]; simp

/-- Whatever the buffer does and whenever the device is full, the file has in the end the beginning of the text of all rows that fits
on the device. -/
theorem C110_file (sep : UInt8) (rows : List (List (List UInt8))) (old : List UInt8) (room : Nat) (flush : Nat → Bool) :
    close (writeAll sep rows (openOut true old room flush)).2 = (text sep rows).take room := by
  have := (writeAll_inv sep rows _ room [] (inv_open room flush old)).1
  simpa using close_inv _ _ _ this

theorem writeLoop_bad (sep : UInt8) (row : List (List UInt8)) : ∀ (b : Bool) (o : OFile), o.good = false →
    (CsvFile.writeLoop sep b row o).1 = false ∧ (CsvFile.writeLoop sep b row o).2.good = false ∧
    close (CsvFile.writeLoop sep b row o).2 = close o := by
  induction row with
  | nil => intro b o h; simp [CsvFile.writeLoop, put, h, close]
  | cons f fs ih => intro b o h; cases b <;> simp [CsvFile.writeLoop, put, h, close, andThen]

theorem writeAll_bad (sep : UInt8) (rows : List (List (List UInt8))) : ∀ (o : OFile), o.good = false →
    (∀ b ∈ (writeAll sep rows o).1, b = false) ∧ close (writeAll sep rows o).2 = close o := by
  induction rows with
  | nil => intro o h; simp [writeAll]
  | cons row rows ih =>
    intro o h
    obtain ⟨a, b, c⟩ := writeLoop_bad sep row true o h
    obtain ⟨x, y⟩ := ih _ b
    refine ⟨?_, by simp only [writeAll]; rw [← c]; exact y⟩
    intro d hd
    simp only [writeAll, List.mem_cons] at hd
    rcases hd with rfl | hd
    · exact a
    · exact x d hd

/-- Once a write has thrown, all later ones throw. -/
theorem C110_failure_stays (sep : UInt8) (rows more : List (List (List UInt8))) (row : List (List UInt8)) (canOpen : Bool)
    (old : List UInt8) (room : Nat) (flush : Nat → Bool)
    (hf : (CsvFile.write sep row (writeAll sep rows (openOut canOpen old room flush)).2).1 = false) :
    ∀ b ∈ (writeAll sep more (CsvFile.write sep row (writeAll sep rows (openOut canOpen old room flush)).2).2).1, b = false := by
  refine (writeAll_bad sep more _ ?_).1
  cases canOpen with
  | true =>
    obtain ⟨a, _⟩ := writeAll_inv sep rows _ room _ (inv_open room flush old)
    obtain ⟨_, b, _⟩ := write_inv sep row _ room _ a
    rw [← b, hf]
  | false =>
    have : ∀ (rows : List (List (List UInt8))) (o : OFile), o.good = false → (writeAll sep rows o).2.good = false := by
      intro rows
      induction rows with
      | nil => intro o h; exact h
      | cons row rows ih => intro o h; exact ih _ (writeLoop_bad sep row true o h).2.1
    exact (writeLoop_bad sep row true _ (this rows _ rfl)).2.1

/-- A file that cannot be opened is noticed: not by the constructor, but by every write; the old file stays. -/
theorem C110_unopenable (sep : UInt8) (rows : List (List (List UInt8))) (old : List UInt8) (room : Nat) (flush : Nat → Bool) :
    (∀ b ∈ (writeAll sep rows (openOut false old room flush)).1, b = false) ∧
    close (writeAll sep rows (openOut false old room flush)).2 = old := by
  obtain ⟨a, b⟩ := writeAll_bad sep rows (openOut false old room flush) rfl
  exact ⟨a, by rw [b]; simp [close, openOut]⟩

/-- A stream that is good holds everything; in particular if the device is large enough, no write throws and the file is complete. -/
theorem C110_enough_room (sep : UInt8) (rows : List (List (List UInt8))) (old : List UInt8) (room : Nat) (flush : Nat → Bool)
    (h : (text sep rows).length ≤ room) :
    (∀ b ∈ (writeAll sep rows (openOut true old room flush)).1, b = true) ∧
    close (writeAll sep rows (openOut true old room flush)).2 = text sep rows := by
  refine ⟨?_, by rw [C110_file, List.take_of_length_le h]⟩
  have key : ∀ (rows : List (List (List UInt8))) (o : OFile) (t : List UInt8), Inv o room t → (t ++ text sep rows).length ≤ room →
      ∀ b ∈ (writeAll sep rows o).1, b = true := by
    intro rows
    induction rows with
    | nil => intro o t _ _ b hb; simp [writeAll] at hb
    | cons row rows ih =>
      intro o t ho hl b hb
      obtain ⟨x, y, z⟩ := write_inv sep row o room t ho
      simp only [writeAll, List.mem_cons] at hb
      rcases hb with rfl | hb
      · rw [y]
        rcases x with ⟨g, _⟩ | ⟨_, _, _, l⟩
        · exact g
        · simp [text] at hl l; omega
      · exact ih _ _ x (by simpa [text, List.append_assoc] using hl) b hb
  exact key rows _ [] (inv_open room flush old) (by simpa using h)

/-- What every `put` keeps, the rows keep. -/
theorem writeAll_keeps (P : OFile → Prop) (hP : ∀ o bs, P o → P (put o bs).2) (sep : UInt8) (rows : List (List (List UInt8))) :
    ∀ o, P o → P (writeAll sep rows o).2 := by
  have hrow : ∀ (row : List (List UInt8)) (b : Bool) (o : OFile), P o → P (CsvFile.writeLoop sep b row o).2 := by
    intro row
    induction row with
    | nil => intro b o h; exact hP o _ h
    | cons f fs ih =>
      intro b o h
      have hthen : ∀ (r : Bool × OFile) (k : OFile → Bool × OFile), P r.2 → (∀ o, P o → P (k o).2) → P (andThen r k).2 := by
        intro r k h1 h2
        unfold andThen
        by_cases hr : r.1 = true
        · rw [if_pos hr]; exact h2 _ h1
        · rw [if_neg hr]; exact h1
      unfold CsvFile.writeLoop
      refine hthen _ _ ?_ (fun o1 h1 => hthen _ _ (hP o1 _ h1) (fun o2 h2 => ih false o2 h2))
      cases b
      · exact hP o _ h
      · exact h
  induction rows with
  | nil => intro o h; exact h
  | cons row rows ih => intro o h; exact ih _ (hrow row true o h)

/-- Without a buffer nothing is lost silently: if no write threw, the whole text is in the file. -/
theorem C110_unbuffered (sep : UInt8) (rows : List (List (List UInt8))) (old : List UInt8) (room : Nat)
    (h : ∀ b ∈ (writeAll sep rows (openOut true old room fun _ => true)).1, b = true) :
    close (writeAll sep rows (openOut true old room fun _ => true)).2 = text sep rows := by
  obtain ⟨a, _, l, g⟩ := writeAll_inv sep rows _ room [] (inv_open room (fun _ => true) old)
  have k := writeAll_keeps (fun o => o.flush = (fun _ => true) ∧ (o.good = true → o.buf = [])) (by
    intro o bs ⟨f, hb⟩
    unfold put transfer
    simp only [f, if_true]
    split
    · exact ⟨rfl, hb⟩
    · split
      · exact ⟨rfl, fun _ => rfl⟩
      · exact ⟨rfl, fun hg => by cases hg⟩) sep rows (openOut true old room fun _ => true) ⟨rfl, fun _ => rfl⟩
  generalize writeAll sep rows (openOut true old room fun _ => true) = w at *
  cases hl : w.1.getLast? with
  | none =>
    have : w.1 = [] := by simpa using hl
    rw [this] at l
    have : rows = [] := List.length_eq_zero_iff.mp l.symm
    subst this
    rw [close_inv _ _ _ a]
    simp [text]
  | some b =>
    have hb : w.2.good = true := by
      rw [← g b (by rw [hl]; rfl)]
      exact h b (List.mem_of_getLast? hl)
    rcases a with ⟨_, e, _⟩ | ⟨g', _⟩
    · rw [k.2 hb] at e
      simp only [List.append_nil, List.nil_append] at e
      simp [close, k.2 hb, e]
    · rw [hb] at g'; cases g'

/-- Rows written to a file are read back from it. -/
theorem C110_roundtrip (max : Nat) (sep : UInt8) (rows : List (List (List UInt8))) (old : List UInt8) (room : Nat) (flush : Nat → Bool)
    (hsep : (createWriter true old room flush sep).1 = false)
    (hc : ∀ row ∈ rows, ∀ f ∈ row, 13 ∉ f ∧ 255 ∉ f) (hs : (rows.map fun row => (row.map List.length).sum).sum < max)
    (hroom : (text sep rows).length ≤ room) (junk : List UInt8) (hj : 0 < junk.length) (upto fuel n : Nat)
    (hu : (text sep rows).length ≤ upto) (hf : (text sep rows).length + 1 ≤ fuel) (hn : rows.length + 1 ≤ n) :
    readFile max sep (some (close (writeAll sep rows (createWriter true old room flush sep).2).2)) upto junk fuel n = .ok rows := by
  have e : close (writeAll sep rows (createWriter true old room flush sep).2).2 = text sep rows :=
    (C110_enough_room sep rows old room flush hroom).2
  rw [e]
  have hv : isValidSeparator sep = true := by simpa [createWriter] using hsep
  have hrest : (openIn (some (text sep rows)) upto).rest = text sep rows := by
    simp [openIn, List.take_of_length_le hu]
  unfold readFile
  have hcr : create (openIn (some (text sep rows)) upto) sep junk = .ok { src := openIn (some (text sep rows)) upto, line := 0, lineSize := 0, buf := junk, pos := 0, bufSize := 0, eof := false } := by
    simp [create, hv]
  rw [hcr, Res.ok_bind]
  exact Verif.Props.Csv.C24_roundtrip max sep rows hc hs _ hrest junk hj _ hcr fuel n (by rw [hrest]; exact hf) hn

/-- With a buffer a full device can go unnoticed: as long as the buffer keeps everything, all writes succeed, whatever the device takes. -/
theorem C110_finding_lost_silently (sep : UInt8) (rows : List (List (List UInt8))) (old : List UInt8) (room : Nat) :
    (∀ b ∈ (writeAll sep rows (openOut true old room fun _ => false)).1, b = true) ∧
    close (writeAll sep rows (openOut true old room fun _ => false)).2 = (text sep rows).take room := by
  refine ⟨?_, C110_file sep rows old room _⟩
  have hput : ∀ (o : OFile) (bs : List UInt8), o.good = true ∧ o.flush = (fun _ => false) →
      (put o bs).1 = true ∧ (put o bs).2.good = true ∧ (put o bs).2.flush = (fun _ => false) := by
    intro o bs ⟨g, f⟩
    simp [put, g, f]
  have hrow : ∀ (row : List (List UInt8)) (b : Bool) (o : OFile), o.good = true ∧ o.flush = (fun _ => false) →
      (CsvFile.writeLoop sep b row o).1 = true ∧ (CsvFile.writeLoop sep b row o).2.good = true ∧
      (CsvFile.writeLoop sep b row o).2.flush = (fun _ => false) := by
    intro row
    induction row with
    | nil => intro b o h; exact hput o _ h
    | cons f fs ih =>
      intro b o h
      unfold CsvFile.writeLoop
      cases b
      · obtain ⟨a1, a2⟩ := hput o [sep] h
        obtain ⟨b1, b2⟩ := hput _ (append f) a2
        simp only [andThen, Bool.false_eq_true, if_false, a1, b1, if_true]
        exact ih false _ b2
      · obtain ⟨b1, b2⟩ := hput o (append f) h
        simp only [andThen, b1, if_true]
        exact ih false _ b2
  have key : ∀ (rows : List (List (List UInt8))) (o : OFile), o.good = true ∧ o.flush = (fun _ => false) →
      ∀ b ∈ (writeAll sep rows o).1, b = true := by
    intro rows
    induction rows with
    | nil => intro o _ b hb; simp [writeAll] at hb
    | cons row rows ih =>
      intro o h b hb
      obtain ⟨x, y⟩ := hrow row true o h
      simp only [writeAll, List.mem_cons] at hb
      rcases hb with rfl | hb
      · exact x
      · exact ih _ y b hb
  exact key rows _ ⟨rfl, rfl⟩

/-- A separator that is refused costs the old file its contents. -/
theorem C110_finding_truncated (sep : UInt8) (old : List UInt8) (room : Nat) (flush : Nat → Bool)
    (h : sep ≠ ','.toUInt8 ∧ sep ≠ '\t'.toUInt8 ∧ sep ≠ ';'.toUInt8 ∧ sep ≠ ' '.toUInt8) :
    (createWriter true old room flush sep).1 = true ∧ close (createWriter true old room flush sep).2 = [] := by
  have : isValidSeparator sep = false := by
    obtain ⟨a, b, c, d⟩ := h
    have a' : sep ≠ 44 := a
    have b' : sep ≠ 9 := b
    have c' : sep ≠ 59 := c
    have d' : sep ≠ 32 := d
    simp [isValidSeparator, a', b', c', d']
  simp [createWriter, this, close, openOut]

/-- A file that does not exist or cannot be read is read as one without rows. -/
theorem C110_finding_missing (max : Nat) (sep : UInt8) (junk : List UInt8) (upto fuel n : Nat) (hv : isValidSeparator sep = true)
    (hj : 0 < junk.length) :
    readFile max sep none upto junk (fuel + 1) (n + 1) = .ok [] ∧
    ∀ content, readFile max sep (some content) 0 junk (fuel + 1) (n + 1) = .ok [] := by
  have key : ∀ c upto, (openIn c upto).rest = [] → readFile max sep c upto junk (fuel + 1) (n + 1) = .ok [] := by
    intro c upto hr
    unfold readFile
    simp only [create, hv, Bool.not_true, Bool.false_eq_true, if_false, Res.ok_bind]
    have ha : (openIn c upto).amount junk.length = 0 := by simp [Stream.Src.amount, hr]
    simp [readAll, Csv.read, Csv.readLoop, getchar, Stream.readSome, ha, Endian.store, body]
  exact ⟨key none upto (by simp [openIn]), fun c => key (some c) 0 (by simp [openIn])⟩

/-- If reading fails in the middle of the file, the part of the row before is given as a row. -/
theorem C110_finding_cut_row : readFile 1000 44 (some [97, 98, 99, 44, 100, 10]) 2 [0, 0, 0, 0] 100 100 = .ok [[[97, 98]]] := by
  decide +kernel

/-! Concrete cases. -/
example : text 44 [[[97], [98, 34]], []] = [34, 97, 34, 44, 34, 98, 34, 34, 34, 13, 10, 13, 10] := by decide
example : (writeAll 44 [[[97]], [[98]]] (openOut true [] 7 fun k => k == 2)).1 = [true, false] := by decide
example : close (writeAll 44 [[[97]], [[98]]] (openOut true [] 7 fun k => k == 2)).2 = [34, 97, 34, 13, 10, 34, 98] := by decide
example : (writeAll 44 [[[97]], [[98]]] (openOut true [1] 7 fun k => k == 1)).1 = [true, true] ∧
    close (writeAll 44 [[[97]], [[98]]] (openOut true [1] 7 fun k => k == 1)).2 = [34, 97, 34, 13, 10, 34, 98] := by decide
example : (createWriter true [1] 5 (fun _ => true) 44).1 = false ∧ isValidSeparator 9 = true := by decide

#print axioms C110_file
#print axioms C110_failure_stays
#print axioms C110_unopenable
#print axioms C110_enough_room
#print axioms C110_unbuffered
#print axioms C110_roundtrip
#print axioms C110_finding_lost_silently
#print axioms C110_finding_truncated
#print axioms C110_finding_missing
#print axioms C110_finding_cut_row

end Verif.Props.CsvFile
