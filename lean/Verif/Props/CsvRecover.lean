import Verif.Model.CsvRecover
import Verif.Proof.Csv

/-!
# C163: reading on after an exception of `CsvReader`
-/
set_option linter.unusedSimpArgs false

namespace Verif.Props.CsvRecover
open Verif.CsvRecover
open Verif.Csv (State sext)

/-- A step as one of C24, where an exception ends everything. -/
def plain : Step → Res Verif.Csv.Step
  | .ret b out => .ok (.ret b out)
  | .go st str out n => .ok (.go st str out n)
  | .threw .. => .throw

/-- C163: a round is the round of C24, with what is left after an exception added. -/
theorem C163_round (max : Nat) (sep : UInt8) (st : State) (str : List UInt8) (out : List (List UInt8)) (n : Nat) (c : Int) :
    Verif.Csv.body max sep st str out n c = plain (body max sep st str out n c) := by
  cases st <;> simp only [Verif.Csv.body, body, Verif.Csv.addChar, addChar] <;> grind [plain]

/-- The input is used from the front: what is left is a suffix, and a call that took nothing has found the end. -/
theorem loop_rest (max : Nat) (sep : UInt8) (rest : List UInt8) : ∀ (st : State) (str : List UInt8) (out : List (List UInt8)) (n : Nat),
    let x := readLoop max sep rest st str out n
    (x.2.2.eof = true ∧ x.2.2.rest = [] ∨ x.2.2.eof = false ∧ ∃ p, p ≠ [] ∧ rest = p ++ x.2.2.rest) ∧ n ≤ x.2.2.lineSize := by
  induction rest with
  | nil =>
    intro st str out n
    have hb : body max sep st str out n (-1) = body max sep st str out n (-1) := rfl
    cases st <;> simp only [readLoop, body] <;> grind
  | cons b rest ih =>
    intro st str out n
    simp only [readLoop]
    have hm : ∀ st' str' out' n', body max sep st str out n (sext b) = .go st' str' out' n' → n ≤ n' := by
      intro st' str' out' n' h
      cases st <;> simp only [body, addChar] at h <;> grind
    have ht : ∀ w out' n', body max sep st str out n (sext b) = .threw w out' n' → n ≤ n' := by
      intro w out' n' h
      cases st <;> simp only [body, addChar] at h <;> grind
    cases h : body max sep st str out n (sext b) with
    | ret v o => exact ⟨.inr ⟨rfl, [b], by simp, by simp⟩, Nat.le_refl _⟩
    | threw w o m => exact ⟨.inr ⟨rfl, [b], by simp, by simp⟩, ht w o m h⟩
    | go st' str' out' n' =>
      have := hm _ _ _ _ h
      obtain ⟨h1, h2⟩ := ih st' str' out' n'
      refine ⟨?_, Nat.le_trans this h2⟩
      rcases h1 with h1 | ⟨h1, p, hp, he⟩
      · exact .inl h1
      · exact .inr ⟨h1, b :: p, by simp, by simp only [List.cons_append]; rw [← he]⟩

theorem loop_ends (max : Nat) (sep : UInt8) (rest : List UInt8) : ∀ (st : State) (str : List UInt8) (out : List (List UInt8)) (n : Nat),
    (readLoop max sep rest st str out n).1 ≠ .endless := by
  induction rest with
  | nil => intro st str out n; cases st <;> simp only [readLoop, body] <;> grind
  | cons b rest ih =>
    intro st str out n
    simp only [readLoop]
    cases h : body max sep st str out n (sext b) with
    | go st' str' out' n' => exact ih st' str' out' n'
    | _ => simp

/-- The loop of C24 on the bytes that are left, and the loop here. -/
theorem pure_same (max : Nat) (sep : UInt8) (rest : List UInt8) : ∀ (st : State) (str : List UInt8) (out : List (List UInt8)) (n : Nat),
    match readLoop max sep rest st str out n with
    | (.ret b, o, r) => Verif.Csv.pureRead max sep rest st str out n = .ok (b, o, r.lineSize, r.rest, r.eof)
    | (.threw _, _, _) => Verif.Csv.pureRead max sep rest st str out n = .throw
    | (.endless, _, _) => True := by
  induction rest with
  | nil =>
    intro st str out n
    rw [Verif.Csv.pureRead, C163_round, readLoop]
    cases body max sep st str out n (-1) <;> simp [plain, Res.ok_bind, Res.pure_eq] <;> rfl
  | cons b rest ih =>
    intro st str out n
    rw [Verif.Csv.pureRead, C163_round, readLoop]
    cases h : body max sep st str out n (sext b) with
    | ret v o => rfl
    | threw w o m => rfl
    | go st' str' out' n' => exact ih st' str' out' n'

/-- C163: a call is the call of C24 with what is left after an exception added, for every buffer and every way the stream fragments its data: same answer,
same row, and the same bytes are left. -/
theorem C163_call (max : Nat) (sep : UInt8) (fuel : Nat) (old : List (List UInt8)) (r : Verif.Csv.Reader) (hi : Verif.Csv.Inv r)
    (hf : (Verif.Csv.pending r).length + 1 ≤ fuel) :
    match readRow max sep old ⟨Verif.Csv.pending r, r.lineSize, r.eof⟩ with
    | (.ret b, o, r1) => ∃ r', Verif.Csv.read max sep fuel old r = .ok (b, o, r') ∧ Verif.Csv.Inv r' ∧ r1 = ⟨Verif.Csv.pending r', r'.lineSize, r'.eof⟩
    | (.threw _, _, _) => Verif.Csv.read max sep fuel old r = .throw
    | (.endless, _, _) => False := by
  rw [readRow, Verif.Csv.read]
  cases he : r.eof with
  | true =>
    simp only [if_true]
    exact ⟨r, rfl, hi, by rw [he]⟩
  | false =>
    simp only [Bool.false_eq_true, if_false]
    have h1 := pure_same max sep (Verif.Csv.pending r) .top [] [] r.lineSize
    have h2 := loop_ends max sep (Verif.Csv.pending r) .top [] [] r.lineSize
    have h3 := Verif.Csv.readLoop_pure max sep fuel { r with line := r.line + 1 } .top [] [] ⟨hi.pos, hi.size, hi.buf⟩ he hf
    rw [show Verif.Csv.pending { r with line := r.line + 1 } = Verif.Csv.pending r from rfl] at h3
    simp only [he] at h3
    generalize readLoop max sep (Verif.Csv.pending r) .top [] [] r.lineSize = x at h1 h2
    obtain ⟨e, o, r1⟩ := x
    cases e with
    | ret b =>
      simp only at h1
      rw [h1] at h3
      rcases h3 with ⟨h, _⟩ | ⟨b', o', n', rest', e', r', g1, g2, g3, g4, g5, g6⟩
      · cases h
      · cases g1
        exact ⟨r', g2, g3, by rw [g4, g5, g6]⟩
    | threw w =>
      simp only at h1
      rw [h1] at h3
      rcases h3 with ⟨_, h⟩ | ⟨b', o', n', rest', e', r', g1, _⟩
      · exact h
      · cases g1
    | endless => exact h2 rfl

/-- C163: every call ends, whatever was thrown before, and uses up at least one byte or finds the end of the input; bytes are never read twice. -/
theorem C163_progress (max : Nat) (sep : UInt8) (old : List (List UInt8)) (r : Reader) (he : r.eof = false) :
    let x := readRow max sep old r
    x.1 ≠ .endless ∧ (x.2.2.eof = true ∧ x.2.2.rest = [] ∨ x.2.2.eof = false ∧ ∃ p, p ≠ [] ∧ r.rest = p ++ x.2.2.rest) := by
  simp only [readRow, he, Bool.false_eq_true, if_false]
  exact ⟨loop_ends max sep _ _ _ _ _, (loop_rest max sep r.rest _ _ _ _).1⟩

theorem finite (max : Nat) (sep : UInt8) (n : Nat) : ∀ r : Reader, r.rest.length < n → (reads max sep n r).2.eof = true := by
  have stay : ∀ n (r : Reader), r.eof = true → (reads max sep n r).2.eof = true := by
    intro n
    induction n with
    | zero => intro r h; exact h
    | succ n ih => intro r h; simp only [reads]; exact ih _ (by simp [readRow, h])
  induction n with
  | zero => intro r h; omega
  | succ n ih =>
    intro r h
    cases he : r.eof with
    | true => exact stay _ _ he
    | false =>
      simp only [reads]
      rcases (C163_progress max sep [] r he).2 with ⟨h1, -⟩ | ⟨-, p, hp, h2⟩
      · exact stay _ _ h1
      · refine ih _ ?_
        have h3 : r.rest.length = p.length + (readRow max sep [] r).2.2.rest.length := by rw [← List.length_append, ← h2]
        have := List.length_pos_iff.2 hp
        omega

/-- C163: a program that catches exceptions and goes on comes to the end: of any number of calls, at most one more than there are bytes do something
else than return false because the end was found before. -/
theorem C163_finite (max : Nat) (sep : UInt8) (n : Nat) (r : Reader) (h : r.rest.length < n) (m : Nat) :
    (reads max sep m (reads max sep n r).2).1 = List.replicate m (.ret false) := by
  have stay : ∀ m (r : Reader), r.eof = true → (reads max sep m r).1 = List.replicate m (.ret false) := by
    intro m
    induction m with
    | zero => intro r _; rfl
    | succ m ih =>
      intro r he
      have hr : readRow max sep [] r = (.ret false, [], r) := by simp [readRow, he]
      simp only [reads, hr, ih r he]
      rfl
  exact stay m _ (finite max sep n r h)

theorem quoted_loop (max : Nat) (sep : UInt8) (f : List UInt8) (x : UInt8) (suffix : List UInt8)
    (hf : ∀ c ∈ f, c ≠ 34 ∧ c ≠ 13 ∧ c ≠ 255) (hx : x ≠ 34 ∧ x ≠ 13 ∧ x ≠ 10 ∧ x ≠ 255 ∧ x ≠ sep) :
    ∀ (str : List UInt8) (n : Nat), n + f.length < max →
    readLoop max sep (f ++ 34 :: x :: suffix) .inQuote str [] n = (.threw .badChar, [], ⟨suffix, n + f.length, false⟩) := by
  have hs : ∀ a b : UInt8, sext a = sext b ↔ a = b := by
    intro a b
    constructor
    · intro h
      apply UInt8.toNat.inj
      have := a.toNat_lt; have := b.toNat_lt
      simp only [sext] at h
      split at h <;> split at h <;> omega
    · rintro rfl; rfl
  have h34 : sext 34 = 34 := by decide
  have hm1 : sext 255 = -1 := by decide
  have h13 : sext 13 = 13 := by decide
  have h10 : sext 10 = 10 := by decide
  induction f with
  | nil =>
    intro str n _
    have e1 : sext x ≠ 34 := by rw [← h34, Ne, hs]; exact hx.1
    have e2 : sext x ≠ 13 := by rw [← h13, Ne, hs]; exact hx.2.1
    have e3 : sext x ≠ 10 := by rw [← h10, Ne, hs]; exact hx.2.2.1
    have e4 : sext x ≠ -1 := by rw [← hm1, Ne, hs]; exact hx.2.2.2.1
    have e5 : sext x ≠ sext sep := by rw [Ne, hs]; exact hx.2.2.2.2
    simp [readLoop, body, h34, e1, e2, e3, e4, e5]
  | cons c f ih =>
    intro str n hn
    obtain ⟨c1, c2, c3⟩ := hf c (by simp)
    have e1 : sext c ≠ 34 := by rw [← h34, Ne, hs]; exact c1
    have e2 : sext c ≠ 13 := by rw [← h13, Ne, hs]; exact c2
    have e4 : sext c ≠ -1 := by rw [← hm1, Ne, hs]; exact c3
    simp only [List.length_cons] at hn
    have hl : ¬ n + 1 = max := by omega
    have := ih (fun d hd => hf d (by simp [hd])) (str ++ [Verif.Csv.toChar (sext c)]) (n + 1) (by omega)
    simp only [List.cons_append, readLoop, body, e1, e2, e4, false_and, if_false, addChar, hl]
    rw [this]
    simp; omega

/-- C163, finding: after "bad character after quote" the reader does not skip the line: the next call begins in the middle of it, behind the bad
character, as if a line began there. -/
theorem C163_finding_middle (max : Nat) (sep : UInt8) (f : List UInt8) (x : UInt8) (suffix : List UInt8)
    (hf : ∀ c ∈ f, c ≠ 34 ∧ c ≠ 13 ∧ c ≠ 255) (hx : x ≠ 34 ∧ x ≠ 13 ∧ x ≠ 10 ∧ x ≠ 255 ∧ x ≠ sep) (n : Nat) (hn : n + f.length < max)
    (old : List (List UInt8)) :
    readRow max sep old ⟨34 :: f ++ 34 :: x :: suffix, n, false⟩ = (.threw .badChar, [], ⟨suffix, n + f.length, false⟩) := by
  have h := quoted_loop max sep f x suffix hf hx [] n hn
  have h34 : sext 34 = 34 := by decide
  simp only [readRow, Bool.false_eq_true, if_false, List.cons_append, readLoop, body, h34]
  simpa using h

theorem loop_limit (max : Nat) (sep : UInt8) (rest : List UInt8) : ∀ (st : State) (str : List UInt8) (out : List (List UInt8)) (n : Nat), max ≤ n →
    (readLoop max sep rest st str out n).1 ≠ .threw .tooLarge := by
  induction rest with
  | nil => intro st str out n hn; cases st <;> simp only [readLoop, body] <;> grind
  | cons b rest ih =>
    intro st str out n hn
    simp only [readLoop]
    cases h : body max sep st str out n (sext b) with
    | go st' str' out' n' =>
      refine ih st' str' out' n' ?_
      cases st <;> simp only [body, addChar] at h <;> grind
    | ret v o => simp
    | threw w o m =>
      cases st <;> simp only [body, addChar] at h <;> grind

theorem loop_at_limit (max : Nat) (sep : UInt8) (rest : List UInt8) : ∀ (st : State) (str : List UInt8) (out : List (List UInt8)) (n : Nat),
    (readLoop max sep rest st str out n).1 = .threw .tooLarge → (readLoop max sep rest st str out n).2.2.lineSize = max := by
  induction rest with
  | nil => intro st str out n; cases st <;> simp only [readLoop, body] <;> grind
  | cons b rest ih =>
    intro st str out n
    simp only [readLoop]
    cases h : body max sep st str out n (sext b) with
    | go st' str' out' n' => exact ih st' str' out' n'
    | ret v o => simp
    | threw w o m =>
      intro hw
      cases st <;> simp only [body, addChar] at h <;> grind

/-- C163, finding: the limit of the size works once: after the exception that says so has been caught, no later call ever throws it again, however
long the lines are. -/
theorem C163_finding_limit_once (max : Nat) (sep : UInt8) (old : List (List UInt8)) (r : Reader)
    (h : (readRow max sep old r).1 = .threw .tooLarge) (k : Nat) :
    ∀ e ∈ (reads max sep k (readRow max sep old r).2.2).1, e ≠ .threw .tooLarge := by
  have key : ∀ k (r : Reader), max ≤ r.lineSize → ∀ e ∈ (reads max sep k r).1, e ≠ .threw .tooLarge := by
    intro k
    induction k with
    | zero => intro r _ e he; simp [reads] at he
    | succ k ih =>
      intro r hr e he
      simp only [reads, List.mem_cons] at he
      rcases he with rfl | he
      · simp only [readRow]; split
        · simp
        · exact loop_limit max sep _ _ _ _ _ hr
      · refine ih _ ?_ e he
        simp only [readRow]; split
        · exact hr
        · exact Nat.le_trans hr (loop_rest max sep r.rest _ _ _ _).2
  refine key k _ ?_
  simp only [readRow] at h ⊢
  split at h
  · simp at h
  · rename_i he
    rw [if_neg he]
    exact Nat.le_of_eq (loop_at_limit max sep _ _ _ _ _ h).symm

/-- The hypotheses are met: the rest of a bad line is taken for a row, and a reader that may take 3 bytes takes more after the exception. -/
example : readRow 100 44 [] ⟨[34, 97, 34, 98, 44, 99, 10], 0, false⟩ = (.threw .badChar, [], ⟨[44, 99, 10], 1, false⟩) ∧
    (readRow 100 44 [] ⟨[44, 99, 10], 1, false⟩).2.1 = [[], [99]] ∧
    (reads 3 44 3 ⟨[97, 98, 99, 97, 98, 99, 97, 98, 99, 97, 98, 99, 10], 0, false⟩).1 = [.threw .tooLarge, .ret true, .ret false] := by decide +kernel

/-- The hypotheses of `C163_call`: a reader in the middle of its buffer, with more to come from the stream. -/
example : ∃ r : Verif.Csv.Reader, Verif.Csv.Inv r ∧ Verif.Csv.pending r = [98, 44, 99, 10] ∧ r.eof = false ∧
    (Verif.Csv.pending r).length + 1 ≤ 5 :=
  ⟨⟨⟨[99, 10], fun _ => 1, 1⟩, 0, 1, [97, 98, 44, 7], 1, 3, false⟩, ⟨by decide, by decide, by decide⟩, by decide, rfl, by decide⟩

#print axioms C163_round
#print axioms C163_call
#print axioms C163_progress
#print axioms C163_finite
#print axioms C163_finding_middle
#print axioms C163_finding_limit_once

end Verif.Props.CsvRecover
