import Verif.Spec.SvdText
set_option linter.unusedSimpArgs false

/-!
# C100: text files of matrices
-/
namespace Verif.Props.SvdText
open Verif.SvdText Verif.Spec.SvdText Verif.Spec.Numeral

/-! ## Spaces, digits, numerals -/

theorem isSp_iff (c : UInt8) : isSp c = true ↔ Space c := by
  simp only [isSp, Space, Bool.or_eq_true, Bool.and_eq_true, decide_eq_true_eq, UInt8.le_iff_toNat_le, ← UInt8.toNat_inj]
  simp only [show (32 : UInt8).toNat = 32 from rfl, show (9 : UInt8).toNat = 9 from rfl, show (10 : UInt8).toNat = 10 from rfl,
    show (11 : UInt8).toNat = 11 from rfl, show (12 : UInt8).toNat = 12 from rfl, show (13 : UInt8).toNat = 13 from rfl]
  omega

theorem drop_spaces {w s : Str} (hw : ∀ c ∈ w, isSp c = true) : (w ++ s).dropWhile isSp = s.dropWhile isSp :=
  List.dropWhile_append_of_pos hw

theorem not_drop {s : Str} (h : ∀ c, s.head? = some c → isSp c = false) : s.dropWhile isSp = s := by
  cases s with
  | nil => rfl
  | cons c s => simp [List.dropWhile_cons, h c rfl]

theorem dig_of_digit {c : UInt8} {d : Nat} (h : digit? c = some d) (hd : d < 10) : isDig c = true ∧ c.toNat - 48 = d := by
  simp only [digit?] at h
  simp only [isDig, Bool.and_eq_true, decide_eq_true_eq]
  split at h
  · rename_i hc
    exact ⟨hc, by simpa using h⟩
  · split at h
    · rename_i hc
      simp only [UInt8.le_iff_toNat_le, show (65 : UInt8).toNat = 65 from rfl] at hc
      simp only [Option.some.injEq] at h
      omega
    · split at h
      · rename_i hc
        simp only [UInt8.le_iff_toNat_le, show (97 : UInt8).toNat = 97 from rfl] at hc
        simp only [Option.some.injEq] at h
        omega
      · cases h

theorem value_none (s : List UInt8) : s.foldl (fun acc c =>
    match acc, digit? c with
    | some v, some d => if d < 10 then some (v * 10 + d) else none
    | _, _ => none) (none : Option Nat) = none := by
  induction s with
  | nil => rfl
  | cons c s ih => exact ih

theorem value_dec_from (s : List UInt8) : ∀ (a n : Nat), s.foldl (fun acc c =>
    match acc, digit? c with
    | some v, some d => if d < 10 then some (v * 10 + d) else none
    | _, _ => none) (some a) = some n →
    (∀ c ∈ s, isDig c = true) ∧ s.foldl (fun n c => n * 10 + (c.toNat - 48)) a = n := by
  induction s with
  | nil => intro a n h; simpa using h
  | cons c s ih =>
    intro a n h
    rw [List.foldl_cons] at h
    cases hd : digit? c with
    | none =>
      simp only [hd] at h
      rw [value_none] at h; cases h
    | some d =>
      simp only [hd] at h
      by_cases hl : d < 10
      · rw [if_pos hl] at h
        obtain ⟨h1, h2⟩ := ih _ _ h
        obtain ⟨e1, e2⟩ := dig_of_digit hd hl
        refine ⟨fun x hx => ?_, ?_⟩
        · rcases List.mem_cons.1 hx with rfl | hx
          · exact e1
          · exact h1 x hx
        · rw [List.foldl_cons, e2]; exact h2
      · rw [if_neg hl, value_none] at h; cases h

theorem canon_dec {s : List UInt8} {n : Nat} (h : Canonical 10 s n) : s ≠ [] ∧ (∀ c ∈ s, isDig c = true) ∧ decVal s = n :=
  ⟨h.1, value_dec_from s 0 n h.2.1⟩

theorem dig_facts {c : UInt8} (h : isDig c = true) : isSp c = false ∧ c ≠ 45 ∧ c ≠ 43 ∧ c ≠ 10 := by
  simp only [isDig, Bool.and_eq_true, decide_eq_true_eq, UInt8.le_iff_toNat_le, show (48 : UInt8).toNat = 48 from rfl,
    show (57 : UInt8).toNat = 57 from rfl] at h
  refine ⟨?_, ?_, ?_, ?_⟩
  · cases hs : isSp c with
    | false => rfl
    | true =>
      rcases (isSp_iff c).1 hs with rfl | rfl | rfl | rfl | rfl | rfl <;> simp at h
  all_goals rintro rfl; simp at h

/-- `is >> x` on a numeral. -/
theorem int_numeral {w s rest : Str} {n : Nat} (hw : ∀ c ∈ w, isSp c = true) (hs : Canonical 10 s n) (hn : n ≤ 2147483647)
    (hr : ∀ c, rest.head? = some c → isDig c = false) (v : Int) : In.int ⟨w ++ (s ++ rest), true⟩ v = (⟨rest, true⟩, (n : Int)) := by
  obtain ⟨h1, h2, h3⟩ := canon_dec hs
  cases s with
  | nil => exact absurd rfl h1
  | cons c s =>
    have hf := dig_facts (h2 c (by simp))
    have e1 : (w ++ (c :: s ++ rest)).dropWhile isSp = c :: (s ++ rest) := by
      rw [drop_spaces hw, not_drop]
      · rfl
      · intro x hx
        simp only [List.cons_append, List.head?_cons, Option.some.injEq] at hx
        rw [← hx]; exact hf.1
    have e2 : (c :: (s ++ rest)).takeWhile isDig = c :: s := by
      rw [← List.cons_append, List.takeWhile_append_of_pos h2]
      cases rest with
      | nil => simp
      | cons x r => simp [List.takeWhile_cons, hr x rfl]
    have e3 : (c :: (s ++ rest)).dropWhile isDig = rest := by
      rw [← List.cons_append, List.dropWhile_append_of_pos h2]
      cases rest with
      | nil => simp
      | cons x r => simp [List.dropWhile_cons, hr x rfl]
    simp only [In.int, Bool.not_true, Bool.false_eq_true, if_false, e1]
    rw [if_neg hf.2.1, if_neg hf.2.2.1, intTail]
    simp only [e2, e3, h3, reduceCtorEq, if_false, Bool.false_eq_true]
    rw [if_neg (by omega), if_neg (by omega)]

theorem char_next {w r : Str} {c : UInt8} (hw : ∀ c ∈ w, isSp c = true) (hc : isSp c = false) (v : Option UInt8) :
    In.char ⟨w ++ c :: r, true⟩ v = (⟨r, true⟩, some c) := by
  simp only [In.char, Bool.not_true, Bool.false_eq_true, if_false, drop_spaces hw, List.dropWhile_cons, hc]

/-- `is >> v` on a number written by `<<`. -/
theorem num_next {V : Type} {io : NumIO V} {x x' : V} (h : Readable io x x') {w rest : Str} (hw : ∀ c ∈ w, isSp c = true)
    (hr : ∀ c, rest.head? = some c → Space c) : In.num io ⟨w ++ (io.print x ++ rest), true⟩ = some (x', ⟨rest, true⟩) := by
  obtain ⟨h1, h2, h3⟩ := h
  have h3 := h3 rest hr
  cases hp : io.print x with
  | nil => exact absurd hp h1
  | cons c s =>
    rw [hp] at h3
    have hc : isSp c = false := by
      cases hs : isSp c with
      | false => rfl
      | true => exact absurd ((isSp_iff c).1 hs) (h2 c (by rw [hp]; simp))
    simp only [In.num, Bool.not_true, Bool.false_eq_true, if_false, drop_spaces hw, List.cons_append, List.dropWhile_cons, hc]
    rw [← List.cons_append, h3]

theorem getline_next {a rest : Str} (ha : 10 ∉ a) : getline (a ++ 10 :: rest) = some (a, rest) := by
  have hp : ∀ c ∈ a, (decide (c ≠ 10)) = true := by
    intro c hc
    simp only [decide_eq_true_eq]
    rintro rfl
    exact ha hc
  rw [getline, if_neg (by simp)]
  rw [List.takeWhile_append_of_pos hp, List.dropWhile_append_of_pos hp]
  simp

/-! ## The first line -/

theorem nat_no_newline {V : Type} {io : NumIO V} (hw : WritesNat io) (n : Nat) : (10 : UInt8) ∉ io.nat n := by
  intro h
  exact (dig_facts ((canon_dec (hw n)).2.1 10 h)).2.2.2 rfl

theorem header_matrix {V : Type} {io : NumIO V} (hw : WritesNat io) (t : UInt8) (ht : t = 83 ∨ t = 68) (r c : Nat)
    (hr : 1 ≤ r ∧ r ≤ 2147483647) (hc : 1 ≤ c ∧ c ≤ 2147483647) (rest : Str) :
    loadHeader (some ([35, 32, 77, 32, t, 32] ++ io.nat r ++ 32 :: io.nat c ++ 10 :: rest)) =
      .ok (some (⟨true, decide (t = 83), r, c⟩, rest)) := by
  have hsp : ∀ c ∈ ([32] : Str), isSp c = true := by simp [isSp]
  have ht10 : t ≠ 10 := by rcases ht with rfl | rfl <;> decide
  have htsp : isSp t = false := by rcases ht with rfl | rfl <;> decide
  have hg : getline (([35, 32, 77, 32, t, 32] ++ io.nat r ++ 32 :: io.nat c) ++ 10 :: rest) =
      some ([35, 32, 77, 32, t, 32] ++ io.nat r ++ 32 :: io.nat c, rest) := by
    apply getline_next
    simp only [List.mem_append, List.mem_cons, not_or, List.not_mem_nil]
    refine ⟨⟨⟨by decide, by decide, by decide, by decide, fun e => ht10 e.symm, by decide, fun h => h⟩, nat_no_newline hw r⟩,
      by decide, nat_no_newline hw c⟩
  have e1 := int_numeral hsp (hw r) hr.2 (rest := 32 :: io.nat c) (by simp [isDig]) 0
  have e2 := int_numeral hsp (hw c) hc.2 (rest := []) (by simp) 0
  have hl : headerLine ([35, 32, 77, 32, t, 32] ++ io.nat r ++ 32 :: io.nat c) = .ok (some ⟨true, decide (t = 83), r, c⟩) := by
    rw [headerLine]
    have a1 := char_next (w := []) (c := 35) (r := 32 :: 77 :: 32 :: t :: 32 :: (io.nat r ++ 32 :: io.nat c)) (by simp) (by decide) none
    have a2 := char_next (w := [32]) (c := 77) (r := 32 :: t :: 32 :: (io.nat r ++ 32 :: io.nat c)) hsp (by decide) none
    have a3 := char_next (w := [32]) (c := t) (r := 32 :: (io.nat r ++ 32 :: io.nat c)) hsp htsp none
    simp only [List.nil_append, List.cons_append, List.append_assoc, List.append_nil] at a1 a2 a3 e1 e2 ⊢
    rw [a1]
    simp only
    rw [a2]
    simp only
    rw [a3]
    simp only
    rw [e1]
    simp only
    rw [e2]
    simp only [checkHeader]
    rw [if_neg (by decide), if_neg (by omega), if_neg (by rcases ht with rfl | rfl <;> simp), if_pos trivial, if_neg (by omega)]
  rw [loadHeader, hg]
  simp only
  rw [hl]
  rfl

theorem header_vector {V : Type} {io : NumIO V} (hw : WritesNat io) (r : Nat) (hr : 1 ≤ r ∧ r ≤ 2147483647) (rest : Str) :
    loadHeader (some ([35, 32, 86, 32, 68, 32] ++ io.nat r ++ 10 :: rest)) = .ok (some (⟨false, false, r, 1⟩, rest)) := by
  have hsp : ∀ c ∈ ([32] : Str), isSp c = true := by simp [isSp]
  have hg : getline (([35, 32, 86, 32, 68, 32] ++ io.nat r) ++ 10 :: rest) = some ([35, 32, 86, 32, 68, 32] ++ io.nat r, rest) := by
    apply getline_next
    simp only [List.mem_append, not_or]
    exact ⟨by decide, nat_no_newline hw r⟩
  have e1 := int_numeral hsp (hw r) hr.2 (rest := []) (by simp) 0
  have hl : headerLine ([35, 32, 86, 32, 68, 32] ++ io.nat r) = .ok (some ⟨false, false, r, 1⟩) := by
    rw [headerLine]
    have a1 := char_next (w := []) (c := 35) (r := 32 :: 86 :: 32 :: 68 :: 32 :: io.nat r) (by simp) (by decide) none
    have a2 := char_next (w := [32]) (c := 86) (r := 32 :: 68 :: 32 :: io.nat r) hsp (by decide) none
    have a3 := char_next (w := [32]) (c := 68) (r := 32 :: io.nat r) hsp (by decide) none
    simp only [List.nil_append, List.cons_append, List.append_assoc, List.append_nil] at a1 a2 a3 e1 ⊢
    rw [a1]
    simp only
    rw [a2]
    simp only
    rw [a3]
    simp only
    rw [e1]
    simp only [checkHeader]
    rw [if_neg (by decide), if_neg (by omega), if_neg (by decide), if_neg (by decide), if_pos trivial]
    rfl
  rw [loadHeader, hg]
  simp only
  rw [hl]
  rfl

/-! ## Dense matrices and vectors -/

theorem readNums_row {V : Type} {io : NumIO V} (r : V → V) (xs : List V) : ∀ (w rest : Str), xs ≠ [] → (∀ c ∈ w, isSp c = true) →
    (∀ x ∈ xs, Readable io x (r x)) →
    readNums io xs.length ⟨w ++ (spaced (xs.map io.print) ++ 10 :: rest), true⟩ = some (xs.map r, ⟨10 :: rest, true⟩) := by
  induction xs with
  | nil => intro w rest h; exact absurd rfl h
  | cons x xs ih =>
    intro w rest _ hw hx
    cases xs with
    | nil =>
      have := num_next (hx x (by simp)) hw (rest := 10 :: rest) (by simp [Space])
      simp only [List.map_cons, List.map_nil, spaced, List.length_cons, List.length_nil, readNums, this]
      rfl
    | cons y ys =>
      have h1 := num_next (hx x (by simp)) hw (rest := [32] ++ (spaced ((y :: ys).map io.print) ++ 10 :: rest)) (by simp [Space])
      have h2 := ih [32] rest (by simp) (by simp [isSp]) (fun z hz => hx z (List.mem_cons_of_mem _ hz))
      rw [List.length_cons, readNums]
      simp only [List.map_cons, spaced, List.cons_append, List.append_assoc, List.nil_append] at h1 h2 ⊢
      rw [h1]
      simp only [Option.bind_eq_bind, Option.bind_some]
      rw [h2]
      rfl

theorem readRows_all {V : Type} {io : NumIO V} (r : V → V) (cols : Nat) (hc : 1 ≤ cols) (M : List (List V)) : ∀ (w : Str), (∀ c ∈ w, isSp c = true) →
    (∀ row ∈ M, row.length = cols) → (∀ row ∈ M, ∀ x ∈ row, Readable io x (r x)) →
    readRows io cols M.length ⟨w ++ M.flatMap (fun r => spaced (r.map io.print) ++ [10]), true⟩ = some (M.map (·.map r)) := by
  induction M with
  | nil => intro w _ _ _; rfl
  | cons row M ih =>
    intro w hw hl hx
    have e := hl row (by simp)
    have hne : row ≠ [] := by rintro rfl; simp at e; omega
    have h1 := readNums_row r row w (M.flatMap fun r => spaced (r.map io.print) ++ [10]) hne hw (hx row (by simp))
    have h2 := ih [10] (by simp [isSp]) (fun x hxm => hl x (List.mem_cons_of_mem _ hxm)) (fun x hxm => hx x (List.mem_cons_of_mem _ hxm))
    rw [e] at h1
    rw [List.length_cons, readRows]
    simp only [List.flatMap_cons, List.append_assoc, List.cons_append, List.nil_append] at h1 h2 ⊢
    rw [h1]
    simp only [Option.bind_eq_bind, Option.bind_some]
    rw [h2]
    rfl

/-- C100: a matrix that `SaveMatrix` has written is read back by `LoadMatrix`, each number as its eight digits are read. -/
theorem C100_dense {V : Type} (io : NumIO V) (hw : WritesNat io) (r : V → V) (cols : Nat) (M : List (List V))
    (hc : 1 ≤ cols ∧ cols < 2 ^ 31) (hr : 1 ≤ M.length ∧ M.length < 2 ^ 31) (hl : ∀ row ∈ M, row.length = cols)
    (hx : ∀ row ∈ M, ∀ x ∈ row, Readable io x (r x)) :
    loadMatrix io (some (saveMatrix io cols M)) = .ok (some (M.map (·.map r))) := by
  have hh := header_matrix hw 68 (.inr rfl) M.length cols ⟨hr.1, by omega⟩ ⟨hc.1, by omega⟩
    (M.flatMap fun r => spaced (r.map io.print) ++ [10])
  have h2 := readRows_all r cols hc.1 M [] (by simp) hl hx
  rw [loadMatrix, saveMatrix, hh]
  simp only [Res.ok_bind, Bool.not_true, Bool.false_eq_true, if_false, Res.pure_eq, Int.toNat_natCast]
  rw [if_neg (by decide)]
  simp only [List.nil_append] at h2
  rw [h2]

theorem readNums_column {V : Type} {io : NumIO V} (r : V → V) (v : List V) : ∀ (w : Str), (∀ c ∈ w, isSp c = true) →
    (∀ x ∈ v, Readable io x (r x)) →
    ∃ i, readNums io v.length ⟨w ++ v.flatMap (fun x => io.print x ++ [10]), true⟩ = some (v.map r, i) := by
  induction v with
  | nil => intro w _ _; exact ⟨_, rfl⟩
  | cons x v ih =>
    intro w hw hx
    have h1 := num_next (hx x (by simp)) hw (rest := [10] ++ v.flatMap (fun x => io.print x ++ [10])) (by simp [Space])
    obtain ⟨i, h2⟩ := ih [10] (by simp [isSp]) (fun y hy => hx y (List.mem_cons_of_mem _ hy))
    refine ⟨i, ?_⟩
    rw [List.length_cons, readNums]
    simp only [List.flatMap_cons, List.append_assoc, List.cons_append, List.nil_append] at h1 h2 ⊢
    rw [h1]
    simp only [Option.bind_eq_bind, Option.bind_some]
    rw [h2]
    rfl

/-- C100: the same for vectors. -/
theorem C100_vector {V : Type} (io : NumIO V) (hw : WritesNat io) (r : V → V) (v : List V) (hr : 1 ≤ v.length ∧ v.length < 2 ^ 31)
    (hx : ∀ x ∈ v, Readable io x (r x)) : loadVector io (some (saveVector io v)) = .ok (some (v.map r)) := by
  have hh := header_vector hw v.length ⟨hr.1, by omega⟩ (v.flatMap fun x => io.print x ++ [10])
  obtain ⟨i, h2⟩ := readNums_column r v [] (by simp) hx
  rw [loadVector, saveVector, hh]
  simp only [Res.ok_bind, Bool.false_eq_true, if_false, Res.pure_eq, Int.toNat_natCast]
  simp only [List.nil_append] at h2
  rw [h2]
  rfl

/-! ## Sparse matrices -/

/-- The text of an entry. -/
def entryText {V : Type} (io : NumIO V) (e : Nat × V) : Str := io.nat e.1 ++ 58 :: io.print e.2

theorem rowLoop_entries {V σ : Type} {io : NumIO V} (hw : WritesNat io) (r : V → V) (cols : Nat) (hcols : cols < 2 ^ 31)
    (f : σ → Nat → V → Res σ) (g : σ → Nat × V → σ) (es : List (Nat × V)) :
    ∀ (fuel : Nat) (w : Str) (s : σ), es.length < fuel → (∀ c ∈ w, isSp c = true) → (∀ e ∈ es, e.1 < cols) →
    (∀ e ∈ es, Readable io e.2 (r e.2)) → (∀ pre e post, es = pre ++ e :: post →
      f (pre.foldl g s) e.1 (r e.2) = .ok (g (pre.foldl g s) e)) →
    rowLoop io cols f fuel ⟨w ++ spaced (es.map (entryText io)), true⟩ s = .ok (some (es.foldl g s)) := by
  induction es with
  | nil =>
    intro fuel w s hf hs _ _ _
    cases fuel with
    | zero => simp at hf
    | succ fuel =>
      have : (w ++ spaced ([].map (entryText io))).dropWhile isSp = [] := by
        rw [drop_spaces hs]; rfl
      rw [List.map_nil] at this ⊢
      rw [rowLoop]
      simp [In.int, this, In.char, In.num]
  | cons e es ih =>
    intro fuel w s hf hs hp hx hg
    cases fuel with
    | zero => simp at hf
    | succ fuel =>
      obtain ⟨tail, wtail, ht1, ht2, ht3⟩ : ∃ tail wtail : Str, spaced ((e :: es).map (entryText io)) = entryText io e ++ tail ∧
          tail = wtail ++ spaced (es.map (entryText io)) ∧ (∀ c ∈ wtail, isSp c = true) ∧ (es ≠ [] → wtail ≠ []) ∧ (es = [] → wtail = []) := by
        cases es with
        | nil => exact ⟨[], [], by simp [spaced], by simp [spaced], by simp, by simp, by simp⟩
        | cons y ys => exact ⟨32 :: spaced ((y :: ys).map (entryText io)), [32], by simp [spaced], by simp, by simp [isSp], by simp, by simp⟩
      have htail : ∀ c, tail.head? = some c → Space c := by
        intro c hc
        rw [ht2] at hc
        cases hwt : wtail with
        | nil =>
          have : es = [] := by
            apply Classical.byContradiction
            intro hne
            exact ht3.2.1 hne hwt
          rw [hwt, this] at hc
          simp [spaced] at hc
        | cons d l =>
          rw [hwt] at hc
          simp only [List.cons_append, List.head?_cons, Option.some.injEq] at hc
          rw [← hc]
          exact (isSp_iff d).1 (ht3.1 d (by rw [hwt]; simp))
      have hlt := hp e (by simp)
      have a1 := int_numeral hs (hw e.1) (by omega) (rest := 58 :: (io.print e.2 ++ tail)) (by simp [isDig]) 0
      have a2 := char_next (w := []) (c := 58) (r := io.print e.2 ++ tail) (by simp) (by decide) none
      have a3 := num_next (hx e (by simp)) (w := []) (rest := tail) (by simp) htail
      have hf1 := hg [] e es rfl
      simp only [List.foldl_nil] at hf1
      have h2 := ih fuel wtail (g s e) (by simp at hf; omega) ht3.1 (fun x hxm => hp x (List.mem_cons_of_mem _ hxm))
        (fun x hxm => hx x (List.mem_cons_of_mem _ hxm)) (by
          intro pre e' post he
          have := hg (e :: pre) e' post (by rw [he]; rfl)
          simpa using this)
      rw [rowLoop, ht1, entryText]
      simp only [List.append_assoc, List.cons_append, List.nil_append] at a1 a2 a3 ⊢
      rw [a1]
      simp only
      rw [a2]
      simp only
      rw [a3]
      simp only
      rw [if_neg (by simp; omega)]
      simp only [Int.toNat_natCast]
      rw [hf1]
      simp only [Res.ok_bind]
      rw [ht2, h2]
      rfl

theorem spaced_length {V : Type} {io : NumIO V} (hw : WritesNat io) (es : List (Nat × V)) :
    es.length ≤ (spaced (es.map (entryText io))).length := by
  induction es with
  | nil => simp
  | cons e es ih =>
    have he : 1 ≤ (entryText io e).length := by simp [entryText]; omega
    cases es with
    | nil => simpa [spaced] using he
    | cons y ys =>
      simp only [List.map_cons, spaced, List.length_append, List.length_cons] at ih ⊢
      omega

theorem entries_no_newline {V : Type} {io : NumIO V} (hw : WritesNat io) (es : List (Nat × V))
    (hx : ∀ e ∈ es, ∀ c ∈ io.print e.2, ¬ Space c) : (10 : UInt8) ∉ spaced (es.map (entryText io)) := by
  have h1 : ∀ e ∈ es, (10 : UInt8) ∉ entryText io e := by
    intro e he
    rw [entryText, List.mem_append, List.mem_cons, not_or, not_or]
    exact ⟨nat_no_newline hw e.1, by decide, fun h => hx e he 10 h (by simp [Space])⟩
  clear hx
  induction es with
  | nil => simp [spaced]
  | cons e es ih =>
    cases es with
    | nil => simpa [spaced] using h1 e (by simp)
    | cons y ys =>
      have ih' := ih (fun z hz => h1 z (List.mem_cons_of_mem _ hz))
      simp only [List.map_cons, spaced, List.mem_append, List.mem_cons, not_or] at ih' ⊢
      exact ⟨h1 e (by simp), by decide, ih'⟩

theorem lineLoop_rows {V σ : Type} {io : NumIO V} (hw : WritesNat io) (r : V → V) (cols : Nat) (hcols : cols < 2 ^ 31)
    (f : σ → Nat → V → Res σ) (g : σ → Nat × V → σ) (s0 : σ) (M : List (List (Nat × V)))
    (hp : ∀ es ∈ M, ∀ e ∈ es, e.1 < cols) (hx : ∀ es ∈ M, ∀ e ∈ es, Readable io e.2 (r e.2))
    (hg : ∀ es ∈ M, ∀ pre e post, es = pre ++ e :: post → f (pre.foldl g s0) e.1 (r e.2) = .ok (g (pre.foldl g s0) e)) :
    lineLoop io cols f s0 M.length (M.flatMap fun es => spaced (es.map (entryText io)) ++ [10]) = .ok (some (M.map (·.foldl g s0))) := by
  induction M with
  | nil => rfl
  | cons es M ih =>
    have h2 := ih (fun x hxm => hp x (List.mem_cons_of_mem _ hxm)) (fun x hxm => hx x (List.mem_cons_of_mem _ hxm))
      (fun x hxm => hg x (List.mem_cons_of_mem _ hxm))
    have hgl := getline_next (rest := M.flatMap fun es => spaced (es.map (entryText io)) ++ [10])
      (entries_no_newline hw es (fun e he => (hx es (by simp) e he).2.1))
    have h1 := rowLoop_entries hw r cols hcols f g es ((spaced (es.map (entryText io))).length + 1) [] s0
      (by have := spaced_length hw es; omega) (by simp) (hp es (by simp)) (hx es (by simp)) (hg es (by simp))
    rw [List.length_cons, lineLoop]
    simp only [List.flatMap_cons, List.append_assoc, List.cons_append, List.nil_append] at h1 h2 hgl ⊢
    rw [hgl]
    simp only
    rw [h1]
    simp only [Res.ok_bind]
    rw [h2]
    rfl

theorem save_rows {V : Type} (io : NumIO V) (M : List (List (Nat × V))) : ∀ k,
    ((M.zipIdx k).flatMap fun x => sparseLine io (fun inner => if true then inner else x.2) x.1) =
      M.flatMap fun es => spaced (es.map (entryText io)) ++ [10] := by
  induction M with
  | nil => intro k; rfl
  | cons es M ih =>
    intro k
    rw [List.zipIdx_cons, List.flatMap_cons, List.flatMap_cons, ih]
    rfl

/-- C100: a row-major sparse matrix that `SaveSparseMatrix` has written is read back by `LoadSparseMatrix`. -/
theorem C100_sparse {V : Type} (io : NumIO V) (hw : WritesNat io) (r : V → V) (cols : Nat) (M : List (List (Nat × V)))
    (hc : 1 ≤ cols ∧ cols < 2 ^ 31) (hr : 1 ≤ M.length ∧ M.length < 2 ^ 31) (ha : ∀ es ∈ M, Ascending cols es)
    (hx : ∀ es ∈ M, ∀ e ∈ es, Readable io e.2 (r e.2)) :
    loadSparseMatrix io (some (saveSparseMatrix io true M.length cols M)) = .ok (some (M.map (·.map fun e => (e.1, r e.2)))) := by
  have hh := header_matrix hw 83 (.inl rfl) M.length cols ⟨hr.1, by omega⟩ ⟨hc.1, by omega⟩
    (M.flatMap fun es => spaced (es.map (entryText io)) ++ [10])
  have hfold : ∀ (es : List (Nat × V)) (s : List (Nat × V)),
      es.foldl (fun s e => s ++ [(e.1, r e.2)]) s = s ++ es.map (fun e => (e.1, r e.2)) := by
    intro es
    induction es with
    | nil => intro s; simp
    | cons e es ih => intro s; rw [List.foldl_cons, ih]; simp
  have h2 := lineLoop_rows hw r cols hc.2 (insertBack (V := V)) (fun s e => s ++ [(e.1, r e.2)]) [] M (fun es he => (ha es he).2) hx (by
    intro es hes pre e post he
    rw [hfold, insertBack, if_pos]
    have hp := (ha es hes).1
    rw [he, List.map_append, List.map_cons, List.pairwise_append] at hp
    rw [List.nil_append, List.getLast?_map]
    cases hl : pre.getLast? with
    | none => rfl
    | some y =>
      have := hp.2.2 y.1 (List.mem_map.2 ⟨y, List.mem_of_getLast? hl, rfl⟩) e.1 (by simp)
      simpa using this)
  rw [loadSparseMatrix, saveSparseMatrix, save_rows]
  rw [hh]
  simp only [Res.ok_bind, Bool.not_true, decide_true, Bool.or_self, Bool.false_eq_true, if_false, Int.toNat_natCast]
  rw [h2]
  simp only [hfold, List.nil_append]

theorem foldl_set {V : Type} (r : V → V) (es : List (Nat × V)) : ∀ (row : List V), (es.map (·.1)).Pairwise (· < ·) → (∀ e ∈ es, e.1 < row.length) →
    (es.foldl (fun row e => row.set e.1 (r e.2)) row).length = row.length ∧
    (∀ e ∈ es, (es.foldl (fun row e => row.set e.1 (r e.2)) row)[e.1]? = some (r e.2)) ∧
    ∀ j, (∀ e ∈ es, e.1 ≠ j) → (es.foldl (fun row e => row.set e.1 (r e.2)) row)[j]? = row[j]? := by
  induction es with
  | nil => intro row _ _; simp
  | cons e es ih =>
    intro row hp hl
    rw [List.map_cons, List.pairwise_cons] at hp
    obtain ⟨h1, h2, h3⟩ := ih (row.set e.1 (r e.2)) hp.2 (fun x hx => by rw [List.length_set]; exact hl x (List.mem_cons_of_mem _ hx))
    rw [List.foldl_cons]
    refine ⟨by rw [h1, List.length_set], ?_, ?_⟩
    · intro x hx
      rcases List.mem_cons.1 hx with rfl | hx
      · rw [h3 x.1 (fun y hy hxy => by
          have := hp.1 y.1 (List.mem_map.2 ⟨y, hy, rfl⟩)
          omega)]
        rw [List.getElem?_set_self (hl x (by simp))]
      · exact h2 x hx
    · intro j hj
      rw [h3 j (fun y hy => hj y (List.mem_cons_of_mem _ hy)), List.getElem?_set_ne (hj e (by simp))]

/-- C100: `LoadMatrix` reads such a file too, and gives the dense form of the matrix. -/
theorem C100_sparse_as_dense {V : Type} (io : NumIO V) (hw : WritesNat io) (r : V → V) (cols : Nat) (M : List (List (Nat × V)))
    (hc : 1 ≤ cols ∧ cols < 2 ^ 31) (hr : 1 ≤ M.length ∧ M.length < 2 ^ 31) (ha : ∀ es ∈ M, Ascending cols es)
    (hx : ∀ es ∈ M, ∀ e ∈ es, Readable io e.2 (r e.2)) :
    ∃ D, loadMatrix io (some (saveSparseMatrix io true M.length cols M)) = .ok (some D) ∧ D.length = M.length ∧
      ∀ (i : Nat) (es : List (Nat × V)), M[i]? = some es → ∃ row, D[i]? = some row ∧ DenseRow io.zero cols (es.map fun e => (e.1, r e.2)) row := by
  have hh := header_matrix hw 83 (.inl rfl) M.length cols ⟨hr.1, by omega⟩ ⟨hc.1, by omega⟩
    (M.flatMap fun es => spaced (es.map (entryText io)) ++ [10])
  have h2 := lineLoop_rows hw r cols hc.2 (fun (row : List V) j v => .ok (row.set j v)) (fun row e => row.set e.1 (r e.2))
    (List.replicate cols io.zero) M (fun es he => (ha es he).2) hx (fun _ _ _ _ _ _ => rfl)
  refine ⟨M.map (·.foldl (fun row e => row.set e.1 (r e.2)) (List.replicate cols io.zero)), ?_, by simp, ?_⟩
  · rw [loadMatrix, saveSparseMatrix, save_rows]
    rw [hh]
    simp only [Res.ok_bind, Bool.not_true, decide_true, Bool.false_eq_true, if_false, Int.toNat_natCast, if_true]
    rw [h2]
  · intro i es hi
    refine ⟨_, by rw [List.getElem?_map, hi]; rfl, ?_⟩
    have hm := List.mem_of_getElem? hi
    obtain ⟨f1, f2, f3⟩ := foldl_set r es (List.replicate cols io.zero) (ha es hm).1 (fun e he => by simpa using (ha es hm).2 e he)
    refine ⟨by rw [f1]; simp, ?_, ?_⟩
    · intro e he
      obtain ⟨e0, h0, rfl⟩ := List.mem_map.1 he
      exact f2 e0 h0
    · intro j hj hne
      rw [f3 j (fun e he => hne (e.1, r e.2) (List.mem_map.2 ⟨e, he, rfl⟩))]
      simp [hj]

/-! ## Any file -/

theorem len_drop (p : UInt8 → Bool) (s : Str) : (s.dropWhile p).length ≤ s.length := (List.dropWhile_suffix p).length_le

theorem drop_nil {p : UInt8 → Bool} {s : Str} (h : s.dropWhile p = []) : ∀ c ∈ s, p c = true := by
  induction s with
  | nil => simp
  | cons x s ih =>
    rw [List.dropWhile_cons] at h
    split at h
    · rename_i hx
      intro c hc
      rcases List.mem_cons.1 hc with rfl | hc
      · exact hx
      · exact ih h c hc
    · cases h

theorem char_failed {i : In} (h : i.ok = false) (v : Option UInt8) : i.char v = (i, v) := by simp [In.char, h]

theorem char_none {i : In} (h : (i.char none).2 = none) : (i.char none).1.ok = false := by
  rw [In.char] at h ⊢
  cases hk : i.ok with
  | false => simp [hk]
  | true =>
    rw [hk] at h
    cases hd : i.rest.dropWhile isSp with
    | nil => simp [hd]
    | cons c r => rw [hd] at h; simp at h

theorem char_progress {i : In} {v : Option UInt8} (h : (i.char v).1.ok = true) : i.ok = true ∧ (i.char v).1.rest.length < i.rest.length := by
  rw [In.char] at h ⊢
  cases hk : i.ok with
  | false => rw [hk] at h; simp [hk] at h
  | true =>
    rw [hk] at h
    have hl := len_drop isSp i.rest
    cases hd : i.rest.dropWhile isSp with
    | nil => rw [hd] at h; simp at h
    | cons c r =>
      rw [hd] at hl
      simp only [List.length_cons] at hl
      simp; omega

theorem intTail_range (neg : Bool) (s : Str) : -2147483648 ≤ (intTail neg s).2 ∧ (intTail neg s).2 ≤ 2147483647 := by
  rw [intTail]
  simp only
  split
  · simp
  · generalize (if neg = true then -(decVal (List.takeWhile isDig s) : Int) else (decVal (List.takeWhile isDig s) : Int)) = n
    split
    · simp
    · split
      · simp
      · simp only; omega

theorem int_range (i : In) : -2147483648 ≤ (i.int 0).2 ∧ (i.int 0).2 ≤ 2147483647 := by
  rw [In.int]
  split
  · simp
  · split
    · simp
    · split
      · exact intTail_range _ _
      · split <;> exact intTail_range _ _

theorem intTail_progress {neg : Bool} {s : Str} (h : (intTail neg s).1.ok = true) : (intTail neg s).1.rest.length < s.length := by
  rw [intTail] at h ⊢
  simp only at h ⊢
  split at h
  · simp at h
  · rename_i hd
    have hlen : (s.dropWhile isDig).length < s.length := by
      have := List.takeWhile_append_dropWhile (p := isDig) (l := s)
      have h2 := congrArg List.length this
      rw [List.length_append] at h2
      have h3 : 1 ≤ (s.takeWhile isDig).length := by
        cases hq : s.takeWhile isDig with
        | nil => exact absurd hq hd
        | cons => simp
      omega
    rw [if_neg hd]
    generalize (if neg = true then -(decVal (List.takeWhile isDig s) : Int) else (decVal (List.takeWhile isDig s) : Int)) = n
    split
    · exact hlen
    · split <;> exact hlen

theorem int_progress {i : In} {v : Int} (h : (i.int v).1.ok = true) : i.ok = true ∧ (i.int v).1.rest.length < i.rest.length := by
  rw [In.int] at h ⊢
  cases hk : i.ok with
  | false => rw [hk] at h; simp [hk] at h
  | true =>
    rw [hk] at h
    have hl := len_drop isSp i.rest
    cases hd : i.rest.dropWhile isSp with
    | nil => rw [hd] at h; simp at h
    | cons c r =>
      rw [hd] at hl h
      simp only [List.length_cons, Bool.not_true, Bool.false_eq_true, if_false] at hl h ⊢
      refine ⟨trivial, ?_⟩
      split at h
      · rename_i hc
        rw [if_pos hc]
        have := intTail_progress h; omega
      · rename_i hc
        rw [if_neg hc]
        split at h
        · rename_i hc2
          rw [if_pos hc2]
          have := intTail_progress h; omega
        · rename_i hc2
          rw [if_neg hc2]
          have := intTail_progress h
          simp only [List.length_cons] at this
          omega

theorem num_progress {V : Type} {io : NumIO V} (hf : Forward io) {i i' : In} {v : V} (h : i.num io = some (v, i')) :
    i.ok = true ∧ i'.rest.length ≤ i.rest.length := by
  rw [In.num] at h
  cases hk : i.ok with
  | false => rw [hk] at h; simp at h
  | true =>
    rw [hk] at h
    have hl := len_drop isSp i.rest
    cases hd : i.rest.dropWhile isSp with
    | nil => rw [hd] at h; simp at h
    | cons c r =>
      rw [hd] at h hl
      simp only [Bool.not_true, Bool.false_eq_true, if_false] at h
      cases hs : io.scan (c :: r) with
      | none => rw [hs] at h; simp at h
      | some q =>
        obtain ⟨v', r'⟩ := q
        rw [hs] at h
        simp only [Option.some.injEq, Prod.mk.injEq] at h
        have := hf _ _ _ hs
        rw [← h.2]
        exact ⟨rfl, by simp only; omega⟩

/-- A first line without any character but spaces. -/
def BlankFirst (s : Str) : Prop := s ≠ [] ∧ ∀ c ∈ s.takeWhile (· ≠ 10), Space c

theorem headerLine_spec (line : Str) :
    (headerLine line = .ub ∧ (∀ c ∈ line, isSp c = true)) ∨
    ((∃ c ∈ line, isSp c = false) ∧ (headerLine line = .ok none ∨ ∃ h, headerLine line = .ok (some h) ∧ 1 ≤ h.row ∧ h.row ≤ 2147483647 ∧
      1 ≤ h.col ∧ h.col ≤ 2147483647)) := by
  rw [headerLine]
  simp only
  generalize e1 : In.char ⟨line, true⟩ none = p1
  obtain ⟨i1, c⟩ := p1
  simp only
  generalize e2 : i1.char none = p2
  obtain ⟨i2, vec⟩ := p2
  simp only
  generalize e3 : i2.char none = p3
  obtain ⟨i3, type⟩ := p3
  simp only
  generalize e4 : i3.int 0 = p4
  obtain ⟨i4, row⟩ := p4
  simp only
  generalize e5 : i4.int 0 = p5
  obtain ⟨i5, col⟩ := p5
  simp only
  have rr := int_range i3
  have rc := int_range i4
  rw [e4] at rr
  rw [e5] at rc
  simp only at rr rc
  cases hd : line.dropWhile isSp with
  | nil =>
    left
    simp only [In.char, Bool.not_true, Bool.false_eq_true, if_false, hd, Prod.mk.injEq] at e1
    rw [← e1.2]
    exact ⟨rfl, drop_nil hd⟩
  | cons x r =>
    right
    refine ⟨⟨x, ?_, ?_⟩, ?_⟩
    · exact (List.dropWhile_suffix isSp).subset (by rw [hd]; simp)
    · have := List.head?_dropWhile_not isSp line
      rw [hd] at this
      simpa using this
    · simp only [In.char, Bool.not_true, Bool.false_eq_true, if_false, hd, Prod.mk.injEq] at e1
      rw [← e1.2]
      unfold checkHeader
      simp only
      split
      · exact .inl rfl
      · split
        · exact .inl rfl
        · rename_i hrow
          have hok : i3.ok = true := by
            cases hk : i3.ok with
            | true => rfl
            | false =>
              rw [In.int, hk] at e4
              simp only [Bool.not_false, if_true, Prod.mk.injEq] at e4
              omega
          have ht : type ≠ none := by
            rintro rfl
            have := char_none (i := i2) (by rw [e3])
            rw [e3] at this
            rw [this] at hok; cases hok
          have hok2 : i2.ok = true := by
            have := char_progress (i := i2) (v := none) (by rw [e3]; exact hok)
            exact this.1
          have hv : vec ≠ none := by
            rintro rfl
            have := char_none (i := i1) (by rw [e2])
            rw [e2] at this
            rw [this] at hok2; cases hok2
          cases type with
          | none => exact absurd rfl ht
          | some type =>
            cases vec with
            | none => exact absurd rfl hv
            | some vec =>
              simp only
              split
              · exact .inl rfl
              · split
                · split
                  · exact .inl rfl
                  · exact .inr ⟨_, rfl, by simp only; omega, by simp only; omega, by simp only; omega, by simp only; omega⟩
                · split
                  · exact .inr ⟨_, rfl, by simp only; omega, by simp only; omega, by simp, by simp⟩
                  · exact .inl rfl

theorem loadHeader_spec (file : Option Str) :
    (loadHeader file = .ub ∧ ∃ s, file = some s ∧ BlankFirst s) ∨
    ((∀ s, file = some s → ¬ BlankFirst s) ∧ (loadHeader file = .ok none ∨ ∃ h rest, loadHeader file = .ok (some (h, rest)) ∧
      1 ≤ h.row ∧ h.row ≤ 2147483647 ∧ 1 ≤ h.col ∧ h.col ≤ 2147483647)) := by
  cases file with
  | none => exact .inr ⟨by simp, .inl rfl⟩
  | some s =>
    by_cases hs : s = []
    · subst hs
      exact .inr ⟨by simp [BlankFirst], .inl rfl⟩
    · rw [loadHeader, getline, if_neg hs]
      simp only
      rcases headerLine_spec (s.takeWhile (· ≠ 10)) with ⟨h1, h2⟩ | ⟨⟨x, hx, hn⟩, h2⟩
      · left
        rw [h1]
        exact ⟨rfl, s, rfl, hs, fun c hc => (isSp_iff c).1 (h2 c hc)⟩
      · right
        refine ⟨?_, ?_⟩
        · rintro s' e ⟨-, hb⟩
          simp only [Option.some.injEq] at e
          subst e
          rw [(isSp_iff x).2 (hb x hx)] at hn
          cases hn
        · rcases h2 with h2 | ⟨h, h2, h3⟩
          · rw [h2]; exact .inl rfl
          · rw [h2]; exact .inr ⟨h, _, rfl, h3⟩

theorem rowLoop_total {V σ : Type} {io : NumIO V} (hf : Forward io) (col : Int) (f : σ → Nat → V → Res σ) (ht : ∀ s (j : Nat) v, ∃ s', f s j v = .ok s') :
    ∀ (fuel : Nat) (i : In) (s : σ), i.rest.length < fuel → ∃ x, rowLoop io col f fuel i s = .ok x := by
  intro fuel
  induction fuel with
  | zero => intro i s h; omega
  | succ fuel ih =>
    intro i s h
    rw [rowLoop]
    simp only
    cases hn : ((i.int 0).1.char none).1.num io with
    | none => exact ⟨_, rfl⟩
    | some q =>
      obtain ⟨v, i'⟩ := q
      simp only
      split
      · exact ⟨_, rfl⟩
      · obtain ⟨p1, p2⟩ := num_progress hf hn
        obtain ⟨p3, p4⟩ := char_progress p1
        obtain ⟨p5, p6⟩ := int_progress p3
        obtain ⟨s', hs⟩ := ht s (i.int 0).2.toNat v
        rw [hs]
        simp only [Res.ok_bind]
        exact ih i' s' (by omega)

theorem rowLoop_inv {V σ : Type} {io : NumIO V} (col : Int) (f : σ → Nat → V → Res σ) (P : σ → Prop)
    (hP : ∀ s (j : Nat) v s', P s → (j : Int) < col → f s j v = .ok s' → P s') :
    ∀ (fuel : Nat) (i : In) (s s' : σ), P s → rowLoop io col f fuel i s = .ok (some s') → P s' := by
  intro fuel
  induction fuel with
  | zero => intro i s s' _ h; cases h
  | succ fuel ih =>
    intro i s s' hs h
    rw [rowLoop] at h
    simp only at h
    cases hn : ((i.int 0).1.char none).1.num io with
    | none =>
      rw [hn] at h
      simp only [Res.ok.injEq, Option.some.injEq] at h
      rw [← h]; exact hs
    | some q =>
      obtain ⟨v, i'⟩ := q
      rw [hn] at h
      simp only at h
      split at h
      · simp at h
      · rename_i hc
        simp only [not_or, Int.not_lt, Int.not_le] at hc
        cases hq : f s (i.int 0).2.toNat v with
        | throw => rw [hq] at h; simp at h
        | ub => rw [hq] at h; simp at h
        | ok s1 =>
          rw [hq] at h
          simp only [Res.ok_bind] at h
          exact ih i' s1 s' (hP _ _ _ _ hs (by omega) hq) h

theorem lineLoop_total {V σ : Type} {io : NumIO V} (hf : Forward io) (col : Int) (f : σ → Nat → V → Res σ) (ht : ∀ s (j : Nat) v, ∃ s', f s j v = .ok s')
    (s0 : σ) : ∀ (n : Nat) (file : Str), ∃ x, lineLoop io col f s0 n file = .ok x := by
  intro n
  induction n with
  | zero => intro file; exact ⟨_, rfl⟩
  | succ n ih =>
    intro file
    rw [lineLoop]
    cases getline file with
    | none => exact ⟨_, rfl⟩
    | some q =>
      obtain ⟨line, rest⟩ := q
      obtain ⟨x, hx⟩ := rowLoop_total hf col f ht (line.length + 1) ⟨line, true⟩ s0 (by simp)
      simp only
      rw [hx]
      simp only [Res.ok_bind]
      cases x with
      | none => exact ⟨_, rfl⟩
      | some s =>
        obtain ⟨y, hy⟩ := ih rest
        simp only
        rw [hy]
        exact ⟨_, rfl⟩

theorem lineLoop_inv {V σ : Type} {io : NumIO V} (col : Int) (f : σ → Nat → V → Res σ) (P : σ → Prop)
    (hP : ∀ s (j : Nat) v s', P s → (j : Int) < col → f s j v = .ok s' → P s') (s0 : σ) (h0 : P s0) :
    ∀ (n : Nat) (file : Str) (rows : List σ), lineLoop io col f s0 n file = .ok (some rows) → rows.length = n ∧ ∀ s ∈ rows, P s := by
  intro n
  induction n with
  | zero =>
    intro file rows h
    simp only [lineLoop, Res.ok.injEq, Option.some.injEq] at h
    subst h
    simp
  | succ n ih =>
    intro file rows h
    rw [lineLoop] at h
    cases hg : getline file with
    | none => rw [hg] at h; simp at h
    | some q =>
      obtain ⟨line, rest⟩ := q
      rw [hg] at h
      simp only at h
      cases hr : rowLoop io col f (line.length + 1) ⟨line, true⟩ s0 with
      | throw => rw [hr] at h; simp at h
      | ub => rw [hr] at h; simp at h
      | ok x =>
        rw [hr] at h
        simp only [Res.ok_bind] at h
        cases x with
        | none => simp at h
        | some s =>
          simp only at h
          cases hl : lineLoop io col f s0 n rest with
          | throw => rw [hl] at h; simp at h
          | ub => rw [hl] at h; simp at h
          | ok y =>
            rw [hl] at h
            cases y with
            | none => simp at h
            | some rs =>
              simp only [Res.ok_bind, Option.map_some, Res.pure_eq, Res.ok.injEq, Option.some.injEq] at h
              subst h
              obtain ⟨h1, h2⟩ := ih rest rs hl
              refine ⟨by simp [h1], fun z hz => ?_⟩
              rcases List.mem_cons.1 hz with rfl | hz
              · exact rowLoop_inv col f P hP _ _ _ _ h0 hr
              · exact h2 z hz

theorem readNums_length {V : Type} {io : NumIO V} : ∀ (n : Nat) (i i' : In) (vs : List V), readNums io n i = some (vs, i') → vs.length = n := by
  intro n
  induction n with
  | zero => intro i i' vs h; simp [readNums] at h; simp [← h.1]
  | succ n ih =>
    intro i i' vs h
    rw [readNums] at h
    cases hn : i.num io with
    | none => rw [hn] at h; simp at h
    | some q =>
      rw [hn] at h
      simp only [Option.bind_eq_bind, Option.bind_some] at h
      cases hr : readNums io n q.2 with
      | none => rw [hr] at h; simp at h
      | some p =>
        rw [hr] at h
        simp only [Option.bind_some, Option.pure_def, Option.some.injEq, Prod.mk.injEq] at h
        rw [← h.1, List.length_cons, ih q.2 p.2 p.1 hr]

theorem readRows_length {V : Type} {io : NumIO V} (col : Nat) : ∀ (n : Nat) (i : In) (rs : List (List V)), readRows io col n i = some rs →
    rs.length = n ∧ ∀ r ∈ rs, r.length = col := by
  intro n
  induction n with
  | zero => intro i rs h; simp [readRows] at h; simp [h]
  | succ n ih =>
    intro i rs h
    rw [readRows] at h
    cases hn : readNums io col i with
    | none => rw [hn] at h; simp at h
    | some q =>
      rw [hn] at h
      simp only [Option.bind_eq_bind, Option.bind_some] at h
      cases hr : readRows io col n q.2 with
      | none => rw [hr] at h; simp at h
      | some p =>
        rw [hr] at h
        simp only [Option.bind_some, Option.pure_def, Option.some.injEq] at h
        subst h
        obtain ⟨h1, h2⟩ := ih q.2 p hr
        refine ⟨by simp [h1], fun z hz => ?_⟩
        rcases List.mem_cons.1 hz with rfl | hz
        · exact readNums_length col i q.2 _ hn
        · exact h2 z hz

/-- C100: `LoadMatrix` of any file whatsoever answers `false` or gives a matrix of the size that the first line says, every element
being set.  The exception is a file that begins with a blank line: an indeterminate character is read (finding). -/
theorem C100_any_matrix {V : Type} (io : NumIO V) (hf : Forward io) (file : Option Str) :
    (loadMatrix io file = .ub ↔ ∃ s, file = some s ∧ BlankFirst s) ∧ loadMatrix io file ≠ .throw ∧
    ∀ D, loadMatrix io file = .ok (some D) → ∃ h rest, loadHeader file = .ok (some (h, rest)) ∧ h.isMatrix = true ∧
      1 ≤ h.row ∧ 1 ≤ h.col ∧ (D.length : Int) = h.row ∧ ∀ r ∈ D, (r.length : Int) = h.col := by
  have hset : ∀ (s : List V) (j : Nat) (v : V), ∃ s', (fun (r : List V) j v => Res.ok (r.set j v)) s j v = .ok s' := fun s j v => ⟨_, rfl⟩
  rw [loadMatrix]
  rcases loadHeader_spec file with ⟨h1, h2⟩ | ⟨h1, h2 | ⟨h, rest, h2, h3, h4, h5, h6⟩⟩
  · rw [h1]
    refine ⟨⟨fun _ => h2, fun _ => rfl⟩, by simp, by simp⟩
  · rw [h2]
    refine ⟨⟨by simp, ?_⟩, by simp, by simp⟩
    rintro ⟨s, e, hb⟩
    exact absurd hb (h1 s e)
  · rw [h2]
    have nb : ¬ ∃ s, file = some s ∧ BlankFirst s := by
      rintro ⟨s, e, hb⟩
      exact h1 s e hb
    simp only [Res.ok_bind]
    cases hm : h.isMatrix with
    | false => exact ⟨⟨by simp, fun hb => absurd hb nb⟩, by simp, by simp⟩
    | true =>
      simp only [Bool.not_true, Bool.false_eq_true, if_false]
      cases hs : h.isSparse with
      | true =>
        simp only [if_true]
        obtain ⟨x, hx⟩ := lineLoop_total hf h.col _ hset (List.replicate h.col.toNat io.zero) h.row.toNat rest
        rw [hx]
        refine ⟨⟨by simp, fun hb => absurd hb nb⟩, by simp, fun D hD => ?_⟩
        simp only [Res.ok.injEq] at hD
        subst hD
        obtain ⟨l1, l2⟩ := lineLoop_inv h.col _ (fun r : List V => r.length = h.col.toNat) (by
          intro s j v s' p _ e
          simp only [Res.ok.injEq] at e
          rw [← e, List.length_set, p]) _ (by simp) h.row.toNat rest D hx
        exact ⟨h, rest, rfl, hm, h3, h5, by omega, fun r hr => by rw [l2 r hr]; omega⟩
      | false =>
        simp only [Bool.false_eq_true, if_false]
        refine ⟨⟨by simp, fun hb => absurd hb nb⟩, by simp, fun D hD => ?_⟩
        simp only [Res.pure_eq, Res.ok.injEq] at hD
        obtain ⟨l1, l2⟩ := readRows_length h.col.toNat h.row.toNat _ D hD
        exact ⟨h, rest, rfl, hm, h3, h5, by omega, fun r hr => by rw [l2 r hr]; omega⟩

/-- C100: the matrix `LoadSparseMatrix` gives, for any file, has rows with ascending positions inside the matrix. -/
theorem C100_any_sparse {V : Type} (io : NumIO V) (file : Option Str) (M : List (List (Nat × V)))
    (hM : loadSparseMatrix io file = .ok (some M)) : ∃ h rest, loadHeader file = .ok (some (h, rest)) ∧ h.isMatrix = true ∧ h.isSparse = true ∧
      (M.length : Int) = h.row ∧ ∀ es ∈ M, Ascending h.col.toNat es := by
  rw [loadSparseMatrix] at hM
  rcases loadHeader_spec file with ⟨h1, h2⟩ | ⟨h1, h2 | ⟨h, rest, h2, h3, h4, h5, h6⟩⟩
  · rw [h1] at hM; simp at hM
  · rw [h2] at hM; simp at hM
  · rw [h2] at hM
    simp only [Res.ok_bind] at hM
    split at hM
    · simp at hM
    · rename_i hc
      simp only [Bool.or_eq_true, Bool.not_eq_true', not_or, Bool.not_eq_false] at hc
      obtain ⟨l1, l2⟩ := lineLoop_inv h.col _ (Ascending (V := V) h.col.toNat) (by
        intro s j v s' p hj e
        rw [insertBack] at e
        split at e
        · rename_i ha
          simp only [Res.ok.injEq] at e
          subst e
          refine ⟨?_, ?_⟩
          · rw [List.map_append, List.pairwise_append]
            refine ⟨p.1, by simp, ?_⟩
            intro a hma b hb
            simp only [List.map_cons, List.map_nil, List.mem_singleton] at hb
            subst hb
            cases hl : s.getLast? with
            | none =>
              rw [List.getLast?_eq_none_iff] at hl
              subst hl
              simp at hma
            | some y =>
              rw [hl] at ha
              simp only [Option.all_some, decide_eq_true_eq] at ha
              obtain ⟨pre, rfl⟩ := List.getLast?_eq_some_iff.1 hl
              rw [List.map_append, List.mem_append] at hma
              rcases hma with hma | hma
              · have pp := p.1
                rw [List.map_append, List.pairwise_append] at pp
                have := pp.2.2 a hma y.1 (by simp)
                omega
              · simp only [List.map_cons, List.map_nil, List.mem_singleton] at hma
                omega
          · intro x hx
            rcases List.mem_append.1 hx with hx | hx
            · exact p.2 x hx
            · simp only [List.mem_singleton] at hx
              subst hx
              simp only
              omega
        · cases e) [] ⟨by simp, by simp⟩ h.row.toNat rest M hM
      exact ⟨h, rest, h2, hc.1, hc.2, by omega, l2⟩

/-! ## Numbers that meet the hypotheses: the integers that are not negative -/

/-- The decimal digits. -/
def digs (n : Nat) : Str := if n < 10 then [UInt8.ofNat (48 + n)] else digs (n / 10) ++ [UInt8.ofNat (48 + n % 10)]

/-- Reading and writing of integers. -/
def natIO : NumIO Nat where
  zero := 0
  scan s := if s.takeWhile isDig = [] then none else some (decVal (s.takeWhile isDig), s.dropWhile isDig)
  print := digs
  nat := digs

theorem digit_ofNat (d : Nat) (h : d < 10) : digit? (UInt8.ofNat (48 + d)) = some d := by
  have : ∀ d < 10, digit? (UInt8.ofNat (48 + d)) = some d := by decide
  exact this d h

theorem digs_spec (n : Nat) : digs n ≠ [] ∧ value? 10 (digs n) = some n ∧ ((digs n).head? = some 48 → n = 0) ∧ (n = 0 → digs n = [48]) := by
  induction n using Nat.strongRecOn with
  | _ n ih =>
    rw [digs]
    by_cases h : n < 10
    · rw [if_pos h]
      refine ⟨by simp, ?_, ?_, ?_⟩
      · simp only [value?, List.foldl_cons, List.foldl_nil, digit_ofNat n h, if_pos h]
        simp
      · have : ∀ d < 10, [UInt8.ofNat (48 + d)].head? = some 48 → d = 0 := by decide
        exact this n h
      · rintro rfl; rfl
    · rw [if_neg h]
      obtain ⟨h1, h2, h3, h4⟩ := ih (n / 10) (by omega)
      refine ⟨by simp, ?_, ?_, by omega⟩
      · simp only [value?] at h2
        simp only [value?, List.foldl_append, h2, List.foldl_cons, List.foldl_nil, digit_ofNat (n % 10) (by omega)]
        rw [if_pos (by omega)]
        congr 1
        omega
      · intro hh
        have := h3 (by
          cases hq : digs (n / 10) with
          | nil => exact absurd hq h1
          | cons y ys => rw [hq] at hh; exact hh)
        omega

theorem natIO_writes : WritesNat natIO := by
  intro n
  obtain ⟨h1, h2, h3, h4⟩ := digs_spec n
  refine ⟨h1, h2, fun hh => ?_⟩
  show (digs n).length = 1
  rw [h4 (h3 hh)]
  rfl

theorem natIO_readable (n : Nat) : Readable natIO n n := by
  obtain ⟨c1, c2, c3⟩ := canon_dec (natIO_writes n)
  change digs n ≠ [] at c1
  change ∀ c ∈ digs n, isDig c = true at c2
  change decVal (digs n) = n at c3
  refine ⟨c1, fun c hc hs => ?_, fun rest hr => ?_⟩
  · have := (dig_facts (c2 c hc)).1
    rw [(isSp_iff c).2 hs] at this
    cases this
  · have hnd : ∀ c, rest.head? = some c → isDig c = false := by
      intro c hc
      cases hd : isDig c with
      | false => rfl
      | true =>
        have := (dig_facts hd).1
        rw [(isSp_iff c).2 (hr c hc)] at this
        cases this
    have e2 : (digs n ++ rest).takeWhile isDig = digs n := by
      rw [List.takeWhile_append_of_pos c2]
      cases rest with
      | nil => simp
      | cons x r => simp [List.takeWhile_cons, hnd x rfl]
    have e3 : (digs n ++ rest).dropWhile isDig = rest := by
      rw [List.dropWhile_append_of_pos c2]
      cases rest with
      | nil => simp
      | cons x r => simp [List.dropWhile_cons, hnd x rfl]
    show (if (digs n ++ rest).takeWhile isDig = [] then none else some (decVal ((digs n ++ rest).takeWhile isDig), (digs n ++ rest).dropWhile isDig)) = _
    rw [e2, e3, if_neg c1, c3]

theorem natIO_forward : Forward natIO := by
  intro s v r h
  simp only [natIO] at h
  split at h
  · cases h
  · simp only [Option.some.injEq, Prod.mk.injEq] at h
    rw [← h.2]
    exact len_drop _ _

example : loadMatrix natIO (some (saveMatrix natIO 2 [[1, 20], [3, 4], [500, 6]])) = .ok (some [[1, 20], [3, 4], [500, 6]]) :=
  C100_dense natIO natIO_writes id 2 [[1, 20], [3, 4], [500, 6]] (by decide) (by decide) (by decide) (fun _ _ x _ => natIO_readable x)

example : loadSparseMatrix natIO (some (saveSparseMatrix natIO true 2 30 [[(0, 5), (29, 7)], []])) = .ok (some [[(0, 5), (29, 7)], []]) :=
  C100_sparse natIO natIO_writes id 30 [[(0, 5), (29, 7)], []] (by decide) (by decide) (by simp [Ascending]; omega) (fun _ _ e _ => natIO_readable e.2)

/-! ## Findings -/

/-- The bytes of a text. -/
def bytes (s : String) : Str := s.toList.map fun c => UInt8.ofNat c.toNat

/-- C100 finding: an empty first line makes the loaders read an indeterminate character. -/
theorem C100_finding_blank {V : Type} (io : NumIO V) (rest : Str) :
    loadMatrix io (some (10 :: rest)) = .ub ∧ loadVector io (some (10 :: rest)) = .ub ∧ loadSparseMatrix io (some (10 :: rest)) = .ub :=
  ⟨rfl, rfl, rfl⟩

/-- C100: an integer in a header or an index may have a sign, which means what it says. -/
theorem C100_signs {w s rest : Str} {n : Nat} (hw : ∀ c ∈ w, isSp c = true) (hs : Canonical 10 s n) (hn : n ≤ 2147483647)
    (hr : ∀ c, rest.head? = some c → isDig c = false) (v : Int) :
    In.int ⟨w ++ 43 :: (s ++ rest), true⟩ v = (⟨rest, true⟩, (n : Int)) ∧
    In.int ⟨w ++ 45 :: (s ++ rest), true⟩ v = (⟨rest, true⟩, -(n : Int)) := by
  obtain ⟨h1, h2, h3⟩ := canon_dec hs
  have e2 : (s ++ rest).takeWhile isDig = s := by
    rw [List.takeWhile_append_of_pos h2]
    cases rest with
    | nil => simp
    | cons x r => simp [List.takeWhile_cons, hr x rfl]
  have e3 : (s ++ rest).dropWhile isDig = rest := by
    rw [List.dropWhile_append_of_pos h2]
    cases rest with
    | nil => simp
    | cons x r => simp [List.dropWhile_cons, hr x rfl]
  have p1 : isSp 43 = false := by decide
  have p2 : isSp 45 = false := by decide
  constructor
  · simp only [In.int, Bool.not_true, Bool.false_eq_true, if_false, drop_spaces hw, List.dropWhile_cons, p1]
    rw [if_neg (by decide), if_pos trivial, intTail]
    simp only [e2, e3, h3, h1, if_false, Bool.false_eq_true]
    rw [if_neg (by omega), if_neg (by omega)]
  · simp only [In.int, Bool.not_true, Bool.false_eq_true, if_false, drop_spaces hw, List.dropWhile_cons, p2]
    rw [if_pos trivial, intTail]
    simp only [e2, e3, h3, h1, if_false, if_true]
    rw [if_neg (by omega), if_neg (by omega)]

example : loadHeader (some (bytes "# M D +2 3\n")) = .ok (some (⟨true, false, 2, 3⟩, [])) := by decide +kernel

/-- C100 finding: what cannot be read in a line of a sparse file is ignored with the rest of the line, and the answer is still `true`. -/
theorem C100_finding_garbage : loadMatrix natIO (some (bytes "# M S 1 3\n0:5 x 2:7\n")) = .ok (some [[5, 0, 0]]) := by decide +kernel

/-- C100 finding: entries that are not in ascending order are handed to `insertBack`, which demands it. -/
theorem C100_finding_order : loadSparseMatrix natIO (some (bytes "# M S 1 3\n2:7 0:5\n")) = .ub := by decide +kernel

/-- C100 finding: `LoadVector` reads a sparse vector as if it were dense. -/
theorem C100_finding_sparse_vector : loadVector natIO (some (bytes "# V S 1\n3:7\n")) = .ok (some [3]) := by decide +kernel

/-- C100 finding: a number of columns that does not fit an `int` is taken for the largest `int`. -/
theorem C100_finding_columns : loadHeader (some (bytes "# M D 1 99999999999\n")) = .ok (some (⟨true, false, 1, 2147483647⟩, [])) := by
  decide +kernel

/-- C100 finding: `SaveSparseMatrix` of a column-major matrix (Eigen's default) writes the number of the column for every entry, so different
matrices give the same file. -/
theorem C100_finding_column_major {V : Type} (io : NumIO V) (x : V) :
    saveSparseMatrix io false 2 1 [[(0, x)]] = saveSparseMatrix io false 2 1 [[(1, x)]] := rfl

#print axioms C100_dense
#print axioms C100_vector
#print axioms C100_signs
#print axioms C100_sparse
#print axioms C100_sparse_as_dense
#print axioms C100_any_matrix
#print axioms C100_any_sparse
#print axioms C100_finding_blank
#print axioms C100_finding_garbage
#print axioms C100_finding_order
#print axioms C100_finding_sparse_vector
#print axioms C100_finding_columns
#print axioms C100_finding_column_major

end Verif.Props.SvdText
