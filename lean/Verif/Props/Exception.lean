import Verif.Model.Exception
import Verif.Spec.Exception
import Verif.Proof.Itoa

set_option linter.unusedSimpArgs false

/-!
# C81, C82: texts of exceptions and stack traces
-/
namespace Verif.Props.Exception
open Verif Verif.Exception Verif.Spec.Exception Verif.Spec.Numeral

/-! ## C strings -/

theorem cstr_of {s : Bytes} (h : (0 : UInt8) ∉ s) : cstr s = s := by
  have := List.takeWhile_append_of_pos (p := fun x : UInt8 => decide (x ≠ 0)) (l₁ := s) (l₂ := []) (by
    intro x hx
    have : x ≠ 0 := fun e => h (e ▸ hx)
    simpa using this)
  simpa [cstr] using this

theorem cstr_append {s t : Bytes} (h : (0 : UInt8) ∉ s) : cstr (s ++ 0 :: t) = s := by
  rw [cstr, List.takeWhile_append_of_pos]
  · simp
  · intro x hx
    have : x ≠ 0 := fun e => h (e ▸ hx)
    simpa using this

/-- The texts given to `<<`, in order. -/
def texts : List Op → List Bytes
  | [] => []
  | .add s :: l => s :: texts l
  | .what _ :: l => texts l

theorem joined_snoc (x : Bytes) (l : List Bytes) (t : Bytes) : joined (x :: (l ++ [t])) = joined (x :: l) ++ [58] ++ t := by
  induction l generalizing x with
  | nil => simp [joined]
  | cons y l ih => simp only [List.cons_append, joined, ih, List.append_assoc]

theorem joined_cons_append (x : Bytes) (l m : List Bytes) :
    joined (x :: (l ++ m)) = joined (joined (x :: l) :: m) := by
  induction l generalizing x with
  | nil => simp [joined]
  | cons y l ih =>
    cases m with
    | nil => simp [joined]
    | cons z m => simp only [List.cons_append, joined, ih, List.append_assoc]

theorem run_noTrace (one : Bool) (l : List Op) (s : Bytes) (h : ∀ t ∈ texts l, (0 : UInt8) ∉ t) :
    Exc.run one ⟨s, []⟩ l = ⟨joined (s :: texts l), []⟩ := by
  induction l generalizing s with
  | nil => simp [Exc.run, texts, joined]
  | cons o l ih =>
    rw [Exc.run, List.foldl_cons]
    change Exc.run one (Exc.step one ⟨s, []⟩ o) l = _
    cases o with
    | add t =>
      have ht : (0 : UInt8) ∉ t := h t (by simp [texts])
      have : Exc.step one ⟨s, []⟩ (.add t) = ⟨s ++ [58] ++ t, []⟩ := by simp [Exc.step, Exc.add, cstr_of ht]
      rw [this, ih _ (fun u hu => h u (by simp [texts, hu]))]
      have hj := joined_cons_append s [t] (texts l)
      simp only [List.singleton_append, joined] at hj
      rw [texts, ← hj]; simp only [joined]
    | what room =>
      have : Exc.step one ⟨s, []⟩ (.what room) = ⟨s, []⟩ := by simp [Exc.step, Exc.what, Exc.toStr]
      rw [this, ih _ (fun u hu => h u (by simpa [texts] using hu))]
      rw [texts]

/-- The text of an exception without stack trace: after any sequence of `<<` and of calls of `what`, `what` is the name and all the
texts, joined by colons, in order. -/
theorem C81_text (one : Bool) (name trace : Bytes) (enable : Bool) (l : List Op) (room : Nat)
    (htr : enable = false ∨ trace = []) (hn : (0 : UInt8) ∉ name)
    (h : ∀ t ∈ texts l, (0 : UInt8) ∉ t) :
    (((Exc.new name enable trace).run one l).what one room).1 = joined (name :: texts l) := by
  have h0 : Exc.new name enable trace = ⟨name, []⟩ := by
    rcases htr with h | h <;> simp [Exc.new, h]
  rw [h0, run_noTrace one l name h]
  simp only [Exc.what, Exc.toStr]
  rw [if_neg (by simp)]
  apply cstr_of
  have : ∀ (x : Bytes) (m : List Bytes), (0 : UInt8) ∉ x → (∀ t ∈ m, (0 : UInt8) ∉ t) → (0 : UInt8) ∉ joined (x :: m) := by
    intro x m
    induction m generalizing x with
    | nil => intro hx _; simpa [joined] using hx
    | cons y m ih =>
      intro hx hm
      simp only [joined, List.mem_append, not_or]
      exact ⟨⟨hx, by decide⟩, ih y (hm y (by simp)) (fun t ht => hm t (by simp [ht]))⟩
  exact this name _ hn h

theorem run_adds (one : Bool) (l : List Op) (e : Exc) (hl : ∀ r, Op.what r ∉ l) (h : ∀ t ∈ texts l, (0 : UInt8) ∉ t) :
    Exc.run one e l = ⟨joined (e.str :: texts l), e.trace⟩ := by
  induction l generalizing e with
  | nil => simp [Exc.run, texts, joined]
  | cons o l ih =>
    rw [Exc.run, List.foldl_cons]
    change Exc.run one (Exc.step one e o) l = _
    cases o with
    | add t =>
      have ht : (0 : UInt8) ∉ t := h t (by simp [texts])
      have : Exc.step one e (.add t) = ⟨e.str ++ [58] ++ t, e.trace⟩ := by simp [Exc.step, Exc.add, cstr_of ht]
      rw [this, ih _ (fun r hr => hl r (by simp [hr])) (fun u hu => h u (by simp [texts, hu]))]
      have hj := joined_cons_append e.str [t] (texts l)
      simp only [List.singleton_append, joined] at hj
      rw [texts, ← hj]; simp only [joined]
    | what room => exact absurd (by simp) (hl room)

/-- With a stack trace: texts given before the first `what` come before the trace, the trace appears exactly once however often
`what` is called, and texts given later stand behind it.  If memory runs out the trace is cut (`room`), the rest stays. -/
theorem C81_trace (one : Bool) (name trace : Bytes) (htr : trace ≠ []) (l : List Op) (room : Nat) (m : List Op)
    (hl : ∀ r, Op.what r ∉ l) (h : ∀ t ∈ texts l ++ texts m, (0 : UInt8) ∉ t) :
    ((Exc.new name true trace).run one (l ++ .what room :: m)).str =
      joined ((joined (name :: texts l) ++ ((pieces one trace).take room).flatten) :: texts m) ∧
    ∀ r, (((Exc.new name true trace).run one (l ++ .what room :: m)).toStr one r).str =
      ((Exc.new name true trace).run one (l ++ .what room :: m)).str := by
  have hk : (Exc.new name true trace).run one (l ++ .what room :: m) =
      ⟨joined ((joined (name :: texts l) ++ ((pieces one trace).take room).flatten) :: texts m), []⟩ := by
    rw [Exc.run, List.foldl_append, List.foldl_cons]
    change Exc.run one (Exc.step one (Exc.run one _ l) (.what room)) m = _
    rw [run_adds one l _ hl (fun t ht => h t (by simp [ht]))]
    have : Exc.step one ⟨joined ((Exc.new name true trace).str :: texts l), (Exc.new name true trace).trace⟩ (.what room) =
        ⟨joined (name :: texts l) ++ ((pieces one trace).take room).flatten, []⟩ := by
      simp [Exc.step, Exc.what, Exc.toStr, Exc.new, htr]
    rw [this, run_noTrace one m _ (fun t ht => h t (by simp [ht]))]
  rw [hk]
  exact ⟨rfl, fun r => by simp [Exc.toStr]⟩

/-- Finding: a NUL inside a text drops the rest of that text; a NUL in the name hides everything behind it. -/
theorem C81_finding_nul (one : Bool) (e : Exc) (a b : Bytes) (ha : (0 : UInt8) ∉ a) (room : Nat) :
    e.add (a ++ 0 :: b) = e.add a ∧
    ∀ (l : List Op), (((Exc.new (a ++ 0 :: b) false []).run one l).what one room).1 = a := by
  refine ⟨by rw [Exc.add, Exc.add, cstr_append ha, cstr_of ha], fun l => ?_⟩
  have : ∀ (l : List Op) (t : Bytes), ∃ u, Exc.run one ⟨a ++ 0 :: t, []⟩ l = ⟨a ++ 0 :: u, []⟩ := by
    intro l
    induction l with
    | nil => exact fun t => ⟨t, rfl⟩
    | cons o l ih =>
      intro t
      rw [Exc.run, List.foldl_cons]
      cases o with
      | add s =>
        have : Exc.step one ⟨a ++ 0 :: t, []⟩ (.add s) = ⟨a ++ 0 :: (t ++ [58] ++ cstr s), []⟩ := by simp [Exc.step, Exc.add]
        rw [this]; exact ih _
      | what r =>
        have : Exc.step one ⟨a ++ 0 :: t, []⟩ (.what r) = ⟨a ++ 0 :: t, []⟩ := by simp [Exc.step, Exc.what, Exc.toStr]
        rw [this]; exact ih _
  obtain ⟨u, hu⟩ := this l b
  simp only [Exc.new, Bool.false_eq_true, if_false]
  rw [hu]
  simp only [Exc.what, Exc.toStr]
  rw [if_neg (by simp)]
  exact cstr_append ha

/-- `makeString` gives at most 16 bytes, the first ones, and never reads behind the `size` bytes it was given. -/
theorem C81_makeString (s : Bytes) (rest : Bytes) : makeString (s ++ rest) s.length = .ok (s.take 16) := by
  rw [makeString, if_pos (by simp; omega)]
  by_cases h : s.length ≤ 16
  · rw [Nat.min_eq_left h, List.take_append_of_le_length (by omega), List.take_length, List.take_of_length_le h]
  · rw [Nat.min_eq_right (by omega), List.take_append_of_le_length (by omega)]

/-! ## Error numbers -/

theorem digit_ne {c d : UInt8} (hd : digit? d = none) {b : Nat} {s : Bytes} {v : Nat} (h : value? b s = some v) (hc : c ∈ s) :
    c ≠ d := by
  intro e
  subst e
  have hn : ∀ (t : Bytes), t.foldl (fun acc c => match acc, digit? c with
      | some v, some d => if d < b then some (v * b + d) else none
      | _, _ => none) none = none := by
    intro t
    induction t with
    | nil => rfl
    | cons x t ih => rw [List.foldl_cons]; exact ih
  obtain ⟨s1, s2, rfl⟩ := List.append_of_mem hc
  rw [value?, List.foldl_append, List.foldl_cons, hd] at h
  generalize List.foldl _ (some 0) s1 = acc at h
  cases acc <;> exact absurd (h.symm.trans (hn s2)) (by simp)

theorem canonicalInt_inj {s : Bytes} {x y : Int} (hx : CanonicalInt s x) (hy : CanonicalInt s y) : x = y := by
  unfold CanonicalInt at hx hy
  have hm : ∀ (t : Bytes) v, ¬ Canonical 10 (45 :: t) v := by
    intro t v ⟨_, h, _⟩
    exact digit_ne (c := 45) (d := 45) (by decide) h (by simp) rfl
  split at hx <;> split at hy
  · obtain ⟨t, e, ht⟩ := hx
    obtain ⟨u, e', hu⟩ := hy
    rw [e, List.cons.injEq] at e'
    have h1 := ht.2.1
    have h2 := hu.2.1
    rw [← e'.2, h1] at h2
    simp only [Option.some.injEq] at h2
    omega
  · obtain ⟨t, e, ht⟩ := hx
    rw [e] at hy
    exact absurd hy (hm t _)
  · obtain ⟨t, e, ht⟩ := hy
    rw [e] at hx
    exact absurd hx (hm t _)
  · have h1 := hx.2.1
    have h2 := hy.2.1
    rw [h1] at h2
    simp only [Option.some.injEq] at h2
    omega

theorem canonicalInt_noParen {s : Bytes} {x : Int} (h : CanonicalInt s x) : (40 : UInt8) ∉ s := by
  unfold CanonicalInt at h
  intro hc
  split at h
  · obtain ⟨t, e, ht⟩ := h
    rw [e] at hc
    simp only [List.mem_cons] at hc
    rcases hc with hc | hc
    · exact absurd hc (by decide)
    · exact digit_ne (c := 40) (d := 40) (by decide) ht.2.1 hc rfl
  · exact digit_ne (c := 40) (d := 40) (by decide) h.2.1 hc rfl

theorem last_paren {a b x y : Bytes} (hx : (40 : UInt8) ∉ x) (hy : (40 : UInt8) ∉ y) (h : a ++ [40] ++ x = b ++ [40] ++ y) :
    a = b ∧ x = y := by
  have key : ∀ {x a : Bytes}, (40 : UInt8) ∉ x → (a ++ [40] ++ x).reverse.dropWhile (· ≠ 40) = 40 :: a.reverse := by
    intro x a hx
    rw [List.reverse_append, List.reverse_append, List.dropWhile_append_of_pos]
    · simp
    · intro c hc
      have : c ≠ 40 := fun e => hx (by rw [e] at hc; simpa using hc)
      simpa using this
  have h1 := key (a := a) hx
  rw [h, key hy] at h1
  simp only [List.cons.injEq, true_and, List.reverse_inj] at h1
  subst h1
  exact ⟨rfl, by simpa using h⟩

/-- The text of an error number is the system's message (or "err") and the number in parentheses; message and number can be read
back from it, whatever the message contains. -/
theorem C81_errorNo (f : Int → Bytes) (hf : WritesInt f) (m m' : Option Bytes) (e e' : Int)
    (h : convertErrorNo f m e = convertErrorNo f m' e') : e = e' ∧ m.getD "err".toUTF8.toList = m'.getD "err".toUTF8.toList := by
  have hd : ([101, 114, 114] : List UInt8) = "err".toUTF8.toList := by decide +kernel
  simp only [convertErrorNo, hd] at h
  have hp : ∀ x, (40 : UInt8) ∉ f x ++ [41] := by
    intro x
    simp only [List.mem_append, List.mem_singleton, not_or]
    exact ⟨canonicalInt_noParen (hf x), by decide⟩
  simp only [List.append_assoc] at h
  have := last_paren (a := m.getD "err".toUTF8.toList) (b := m'.getD "err".toUTF8.toList) (hp e) (hp e') (by simpa using h)
  refine ⟨?_, this.1⟩
  have h2 : f e = f e' := by simpa using this.2
  exact canonicalInt_inj (hf e) (by rw [h2]; exact hf e')

/-! ## Wide texts -/

/-- The text of one wide character. -/
def wide1 (hex4 : Nat → Bytes) (c : UInt16) : Bytes :=
  if c < 0x80 then [UInt8.ofNat c.toNat] else [92, 117] ++ hex4 c.toNat

theorem hex_noNul {b : Nat} {s : Bytes} {v : Nat} (h : value? b s = some v) : (0 : UInt8) ∉ s :=
  fun hc => digit_ne (c := 0) (d := 0) (by decide) h hc rfl

theorem wstr_eq (hex4 : Nat → Bytes) (hh : WritesHex4 hex4) (w : List UInt16) :
    wstr2str hex4 w = w.flatMap (wide1 hex4) := by
  have : ∀ (w : List UInt16) (s : Bytes), w.foldl (fun s c => if c < 0x80 then s ++ [UInt8.ofNat c.toNat] else
      s ++ cstr ([92, 117] ++ hex4 c.toNat)) s = s ++ w.flatMap (wide1 hex4) := by
    intro w
    induction w with
    | nil => intro s; simp
    | cons c w ih =>
      intro s
      rw [List.foldl_cons, ih, List.flatMap_cons, wide1]
      have hc := hh c.toNat c.toNat_lt
      have h0 : (0 : UInt8) ∉ ([92, 117] ++ hex4 c.toNat : Bytes) := by
        simp only [List.mem_append, List.mem_cons, List.not_mem_nil, or_false, not_or]
        exact ⟨⟨by decide, by decide⟩, hex_noNul hc.2⟩
      rw [cstr_of h0]
      split <;> simp
  rw [wstr2str, this w [], List.nil_append]

theorem digit_ascii {c : UInt8} {d : Nat} (h : digit? c = some d) : c < 128 := by
  unfold digit? at h
  split at h
  · rename_i hc; exact UInt8.lt_of_le_of_lt hc.2 (by decide)
  · split at h
    · rename_i hc; exact UInt8.lt_of_le_of_lt hc.2 (by decide)
    · split at h
      · rename_i hc; exact UInt8.lt_of_le_of_lt hc.2 (by decide)
      · cases h

/-- The byte text of a wide text is plain ASCII, and for texts without backslash it determines the wide text. -/
theorem C81_wide (hex4 : Nat → Bytes) (hh : WritesHex4 hex4) :
    (∀ w, ∀ c ∈ wstr2str hex4 w, c < 128) ∧
    (∀ w v, 92 ∉ w → 92 ∉ v → wstr2str hex4 w = wstr2str hex4 v → w = v) := by
  refine ⟨?_, ?_⟩
  · intro w c hc
    rw [wstr_eq hex4 hh, List.mem_flatMap] at hc
    obtain ⟨x, _, hx⟩ := hc
    rw [wide1] at hx
    split at hx
    · rename_i hlt
      simp only [List.mem_singleton] at hx
      have h1 : x.toNat < 128 := by simpa using UInt16.lt_iff_toNat_lt.1 hlt
      rw [hx, UInt8.lt_iff_toNat_lt]
      simp only [UInt8.toNat_ofNat', UInt8.reduceToNat]
      omega
    · simp only [List.mem_append, List.mem_cons, List.not_mem_nil, or_false] at hx
      rcases hx with (h | h) | h
      · rw [h]; decide
      · rw [h]; decide
      · cases hd : digit? c with
        | none => exact absurd rfl (digit_ne hd (hh x.toNat x.toNat_lt).2 h)
        | some d => exact digit_ascii hd
  · intro w v hw hv h
    rw [wstr_eq hex4 hh, wstr_eq hex4 hh] at h
    have ne1 : ∀ c, wide1 hex4 c ≠ [] := by intro c; rw [wide1]; split <;> simp
    have hlt : ∀ {c : UInt16}, c < 0x80 → UInt8.ofNat c.toNat = UInt8.ofNat 92 → c = 92 := by
      intro c hc he
      have h1 : c.toNat < 128 := by simpa using UInt16.lt_iff_toNat_lt.1 hc
      have h2 := congrArg UInt8.toNat he
      simp only [UInt8.toNat_ofNat'] at h2
      apply UInt16.toNat_inj.1
      simp only [UInt16.reduceToNat]
      omega
    induction w generalizing v with
    | nil =>
      cases v with
      | nil => rfl
      | cons c v =>
        simp only [List.flatMap_nil, List.flatMap_cons] at h
        have := congrArg List.length h
        have hp : 0 < (wide1 hex4 c).length := List.length_pos_iff.2 (ne1 c)
        simp only [List.length_nil, List.length_append] at this
        omega
    | cons c w ih =>
      cases v with
      | nil =>
        simp only [List.flatMap_nil, List.flatMap_cons] at h
        have := congrArg List.length h
        have hp : 0 < (wide1 hex4 c).length := List.length_pos_iff.2 (ne1 c)
        simp only [List.length_nil, List.length_append] at this
        omega
      | cons d v =>
        simp only [List.flatMap_cons] at h
        have hw' : 92 ∉ w := fun hm => hw (by simp [hm])
        have hv' : 92 ∉ v := fun hm => hv (by simp [hm])
        have hc92 : c ≠ 92 := fun e => hw (by simp [e])
        have hd92 : d ≠ 92 := fun e => hv (by simp [e])
        simp only [wide1] at h
        split at h <;> split at h
        · rename_i h1 h2
          simp only [List.singleton_append, List.cons.injEq] at h
          have he : c = d := by
            have e := congrArg UInt8.toNat h.1
            have l1 : c.toNat < 128 := by simpa using UInt16.lt_iff_toNat_lt.1 h1
            have l2 : d.toNat < 128 := by simpa using UInt16.lt_iff_toNat_lt.1 h2
            simp only [UInt8.toNat_ofNat'] at e
            apply UInt16.toNat_inj.1
            omega
          rw [he, ih v hw' hv' h.2]
        · rename_i h1 h2
          simp only [List.singleton_append, List.cons_append, List.cons.injEq] at h
          exact absurd (hlt h1 h.1) hc92
        · rename_i h1 h2
          simp only [List.singleton_append, List.cons_append, List.cons.injEq] at h
          exact absurd (hlt h2 h.1.symm) hd92
        · simp only [List.append_assoc, List.cons_append, List.nil_append, List.cons.injEq, true_and] at h
          have hc := hh c.toNat c.toNat_lt
          have hd := hh d.toNat d.toNat_lt
          obtain ⟨e1, e2⟩ := List.append_inj h (by rw [hc.1, hd.1])
          have he : c = d := by
            apply UInt16.toNat_inj.1
            have := hc.2
            rw [e1, hd.2] at this
            simpa using this.symm
          rw [he, ih v hw' hv' e2]

/-- Finding: a backslash is not escaped; the six characters of the escape of a character and the character itself look the same. -/
theorem C81_finding_backslash (hex4 : Nat → Bytes) (hh : WritesHex4 hex4) (c : UInt16) (hc : 0x80 ≤ c) :
    ∃ w, w ≠ [c] ∧ wstr2str hex4 w = wstr2str hex4 [c] := by
  have hx := hh c.toNat c.toNat_lt
  have hn : ¬ c < 0x80 := by
    simp only [UInt16.lt_iff_toNat_lt, UInt16.le_iff_toNat_le] at *
    omega
  refine ⟨[92, 117] ++ (hex4 c.toNat).map (fun b => UInt16.ofNat b.toNat), ?_, ?_⟩
  · intro h
    have := congrArg List.length h
    simp at this
  · have key : ∀ l : Bytes, (∀ b ∈ l, b < 128) →
        (l.map (fun b => UInt16.ofNat b.toNat)).flatMap (wide1 hex4) = l := by
      intro l
      induction l with
      | nil => intro _; rfl
      | cons b l ih =>
        intro hl
        have hb : b.toNat < 128 := by simpa using UInt8.lt_iff_toNat_lt.1 (hl b (by simp))
        rw [List.map_cons, List.flatMap_cons, ih (fun x hx => hl x (by simp [hx])), wide1]
        have h16 : (UInt16.ofNat b.toNat).toNat = b.toNat := by simp only [UInt16.toNat_ofNat']; omega
        rw [if_pos (by rw [UInt16.lt_iff_toNat_lt, h16]; simpa using hb), h16, UInt8.ofNat_toNat]
        rfl
    rw [wstr_eq hex4 hh, wstr_eq hex4 hh, List.flatMap_append, key]
    · simp [List.flatMap_cons, wide1, hn]
    · intro b hb
      cases hd : digit? b with
      | none => exact absurd rfl (digit_ne hd hx.2 hb)
      | some d => exact digit_ascii hd

/-! ## Stack traces -/

theorem findIdx_at {a b : Bytes} {c : UInt8} (h : c ∉ a) : (a ++ c :: b).findIdx? (· == c) = some a.length := by
  induction a with
  | nil => simp [List.findIdx?_cons]
  | cons x a ih =>
    have hx : (x == c) = false := by
      rw [beq_eq_false_iff_ne]; intro e; exact h (by simp [e])
    rw [List.cons_append, List.findIdx?_cons, hx, ih (fun hm => h (by simp [hm]))]
    simp

theorem findIdx_none {a : Bytes} {c : UInt8} (h : c ∉ a) : a.findIdx? (· == c) = none := by
  rw [List.findIdx?_eq_none_iff]
  intro x hx
  rw [beq_eq_false_iff_ne]
  exact fun e => h (e ▸ hx)

theorem first_of_mem {l : Bytes} {c : UInt8} (h : c ∈ l) : ∃ a b, l = a ++ c :: b ∧ c ∉ a := by
  induction l with
  | nil => cases h
  | cons x l ih =>
    by_cases hx : x = c
    · exact ⟨[], l, by simp [hx], by simp⟩
    · have : c ∈ l := by
        rcases List.mem_cons.1 h with h | h
        · exact absurd h.symm hx
        · exact h
      obtain ⟨a, b, rfl, ha⟩ := ih this
      refine ⟨x :: a, b, rfl, ?_⟩
      simp only [List.mem_cons, not_or]
      exact ⟨fun e => hx e.symm, ha⟩

theorem symLine_symbol (dem : Bytes → Option Bytes) (s o f r : Bytes) (h : IsSymbol s o f r) (h0 : (0 : UInt8) ∉ s) :
    symLine dem s = .ok (o ++ [40] ++ (dem f).getD f ++ [43] ++ r ++ [32]) := by
  obtain ⟨rfl, ho, hf⟩ := h
  simp only [List.mem_append, List.mem_singleton, not_or] at h0
  obtain ⟨⟨⟨⟨ho0, _⟩, hf0⟩, _⟩, hr0⟩ := h0
  have e1 : find (o ++ [40] ++ f ++ [43] ++ r ++ [0]) 40 0 = some o.length := by
    rw [find, List.drop_zero]
    have : o ++ [40] ++ f ++ [43] ++ r ++ [0] = o ++ 40 :: (f ++ [43] ++ r ++ [0]) := by simp
    rw [this, findIdx_at ho]
    simp
  have e2 : find (o ++ [40] ++ f ++ [43] ++ r ++ [0]) 43 (o.length + 1) = some (o.length + 1 + f.length) := by
    have : (o ++ [40] ++ f ++ [43] ++ r ++ [0]).drop (o.length + 1) = f ++ 43 :: (r ++ [0]) := by
      rw [show o ++ [40] ++ f ++ [43] ++ r ++ [0] = (o ++ [40]) ++ (f ++ 43 :: (r ++ [0])) by simp]
      rw [List.drop_append_of_le_length (by simp), show o.length + 1 = (o ++ [(40 : UInt8)]).length by simp, List.drop_length,
        List.nil_append]
    rw [find, this, findIdx_at hf]
    rfl
  have e3 : ((o ++ [40] ++ f ++ [43] ++ r ++ [0] ++ [0]).set o.length 0).set (o.length + 1 + f.length) 0 =
      o ++ 0 :: (f ++ 0 :: (r ++ 0 :: [0])) := by
    have a1 : (o ++ [40] ++ f ++ [43] ++ r ++ [0] ++ [0]) = o ++ 40 :: (f ++ 43 :: (r ++ [0, 0])) := by simp
    rw [a1, List.set_append_right _ _ (by omega), Nat.sub_self, List.set_cons_zero,
      List.set_append_right _ _ (by omega), show o.length + 1 + f.length - o.length = f.length + 1 by omega,
      List.set_cons_succ, List.set_append_right _ _ (by omega), Nat.sub_self, List.set_cons_zero]
  have c1 : cstrAt (o ++ 0 :: (f ++ 0 :: (r ++ 0 :: [0]))) 0 = .ok o := by
    rw [cstrAt, List.drop_zero, if_pos (by simp), cstr_append ho0]
  have c2 : cstrAt (o ++ 0 :: (f ++ 0 :: (r ++ 0 :: [0]))) (o.length + 1) = .ok f := by
    have : (o ++ 0 :: (f ++ 0 :: (r ++ 0 :: [0]))).drop (o.length + 1) = f ++ 0 :: (r ++ 0 :: [0]) := by
      rw [← List.drop_drop, List.drop_left]
      simp
    rw [cstrAt, this, if_pos (by simp), cstr_append hf0]
  have c3 : cstrAt (o ++ 0 :: (f ++ 0 :: (r ++ 0 :: [0]))) (o.length + 1 + f.length + 1) = .ok r := by
    have : (o ++ 0 :: (f ++ 0 :: (r ++ 0 :: [0]))).drop (o.length + 1 + f.length + 1) = r ++ 0 :: [0] := by
      rw [show o.length + 1 + f.length + 1 = o.length + (1 + (f.length + 1)) by omega, ← List.drop_drop, List.drop_left,
        ← List.drop_drop, List.drop_one, List.tail_cons, ← List.drop_drop, List.drop_left]
      simp
    rw [cstrAt, this, if_pos (by simp), cstr_append hr0]
  rw [symLine]
  simp only [e1, e2]
  rw [if_pos (by simp; omega), e3, c1, c2, c3]
  simp only [Res.ok_bind, Res.pure_eq, demangle]
  cases dem f <;> rfl

/-- One line of a stack trace: for a symbol `object(function+rest` the function is replaced by its readable form, if there is one,
and nothing else is changed; every other symbol is printed as it is.  No symbol makes the code read outside its copy. -/
theorem C82_symbol (dem : Bytes → Option Bytes) (s : Bytes) (h0 : (0 : UInt8) ∉ s) :
    (∀ o f r, IsSymbol s o f r → symLine dem s = .ok (o ++ [40] ++ (dem f).getD f ++ [43] ++ r ++ [32])) ∧
    ((¬ ∃ o f r, IsSymbol s o f r) → symLine dem s = .ok (s ++ [32])) := by
  refine ⟨fun o f r h => symLine_symbol dem s o f r h h0, fun h => ?_⟩
  by_cases hp : (40 : UInt8) ∈ s
  · obtain ⟨o, t, rfl, ho⟩ := first_of_mem hp
    have e1 : find (o ++ 40 :: t ++ [0]) 40 0 = some o.length := by
      rw [find, List.drop_zero]
      have : o ++ 40 :: t ++ [0] = o ++ 40 :: (t ++ [0]) := by simp
      rw [this, findIdx_at ho]
      simp
    by_cases hq : (43 : UInt8) ∈ t
    · obtain ⟨f, r, rfl, hf⟩ := first_of_mem hq
      exact absurd ⟨o, f, r, by simp, ho, hf⟩ h
    · have e2 : find (o ++ 40 :: t ++ [0]) 43 (o.length + 1) = none := by
        have : (o ++ 40 :: t ++ [0]).drop (o.length + 1) = t ++ [0] := by
          rw [List.append_assoc, ← List.drop_drop, List.drop_left]
          simp
        rw [find, this, findIdx_none (by simpa using hq)]
        rfl
      rw [symLine]
      simp only [e1, e2, Res.pure_eq]
  · have e1 : find (s ++ [0]) 40 0 = none := by
      rw [find, List.drop_zero, findIdx_none (by simpa using hp)]
      rfl
    rw [symLine]
    simp only [e1, Res.pure_eq]

/-- Where nothing can be made readable the trace is exactly the text of the system. -/
theorem C82_unchanged (s : Bytes) (h0 : (0 : UInt8) ∉ s) : symLine (fun _ => none) s = .ok (s ++ [32]) := by
  by_cases h : ∃ o f r, IsSymbol s o f r
  · obtain ⟨o, f, r, hs⟩ := h
    rw [(C82_symbol _ s h0).1 o f r hs, hs.1]
    rfl
  · exact (C82_symbol _ s h0).2 h

theorem mapM_ok {f : Bytes → Res Bytes} {g : Bytes → Bytes} (l : List Bytes) (h : ∀ x ∈ l, f x = .ok (g x)) :
    l.mapM f = .ok (l.map g) := by
  induction l with
  | nil => rfl
  | cons x l ih => rw [List.mapM_cons, h x (by simp), ih (fun y hy => h y (by simp [hy]))]; rfl

/-- The whole text with resolved symbols: one line per frame, in order; never undefined. -/
theorem C82_lines (fmtX : Nat → Bytes) (dem : Bytes → Option Bytes) (ss : List Bytes) (data : List Nat) (hd : data ≠ [])
    (h0 : ∀ s ∈ ss, (0 : UInt8) ∉ s) :
    ∃ lines : List Bytes, lines.length = ss.length ∧ (∀ (i : Nat) (s : Bytes), ss[i]? = some s → ∃ x, lines[i]? = some x ∧ symLine dem s = .ok x) ∧
      traceStr fmtX dem true (some ss) data = .ok ((lines.intersperse [10]).flatten) := by
  have hj : ∀ l : List Bytes, joinLoop 10 l = (l.intersperse [10]).flatten := by
    intro l
    induction l with
    | nil => rfl
    | cons x l ih =>
      cases l with
      | nil => simp [joinLoop]
      | cons y l => rw [joinLoop, ih, List.intersperse_cons₂]; simp; simp
  let g : Bytes → Bytes := fun s => match symLine dem s with | .ok x => x | _ => []
  have hg : ∀ s ∈ ss, symLine dem s = .ok (g s) := by
    intro s hs
    have : ∃ x, symLine dem s = .ok x := by
      by_cases h : ∃ o f r, IsSymbol s o f r
      · obtain ⟨o, f, r, h⟩ := h
        exact ⟨_, (C82_symbol dem s (h0 s hs)).1 o f r h⟩
      · exact ⟨_, (C82_symbol dem s (h0 s hs)).2 h⟩
    obtain ⟨x, hx⟩ := this
    simp only [g, hx]
  refine ⟨ss.map g, by simp, ?_, ?_⟩
  · intro i s hi
    refine ⟨g s, by rw [List.getElem?_map, hi]; rfl, hg s (List.mem_of_getElem? hi)⟩
  · rw [traceStr, if_neg hd]
    simp only [mapM_ok ss hg, Res.ok_bind, Res.pure_eq, hj]

theorem joinLoop_inj (d : UInt8) : ∀ (l m : List Bytes), (∀ x ∈ l, x ≠ [] ∧ d ∉ x) → (∀ x ∈ m, x ≠ [] ∧ d ∉ x) →
    joinLoop d l = joinLoop d m → l = m := by
  have hsplit : ∀ {a b x y : Bytes}, d ∉ a → d ∉ b → a ++ d :: x = b ++ d :: y → a = b ∧ x = y := by
    intro a b x y ha hb h
    have key : ∀ {a x : Bytes}, d ∉ a → (a ++ d :: x).takeWhile (· ≠ d) = a := by
      intro a x ha
      rw [List.takeWhile_append_of_pos]
      · simp
      · intro c hc
        have : c ≠ d := fun e => ha (e ▸ hc)
        simpa using this
    have h1 := key (x := x) ha
    rw [h, key hb] at h1
    subst h1
    exact ⟨rfl, by simpa using h⟩
  intro l
  induction l with
  | nil =>
    intro m _ hm h
    match m with
    | [] => rfl
    | [x] => simp only [joinLoop] at h; exact absurd h.symm (hm x (by simp)).1
    | x :: y :: m => simp only [joinLoop] at h; simp at h
  | cons a l ih =>
    intro m hl hm h
    match l, m with
    | [], [] => simp only [joinLoop] at h; exact absurd h (hl a (by simp)).1
    | _ :: _, [] => simp only [joinLoop] at h; simp at h
    | [], [b] => simp only [joinLoop] at h; rw [h]
    | [], b :: c :: m =>
      simp only [joinLoop] at h
      exact absurd (by rw [h]; simp) (hl a (by simp)).2
    | c :: l, [b] =>
      simp only [joinLoop] at h
      exact absurd (by rw [← h]; simp) (hm b (by simp)).2
    | c :: l, b :: e :: m =>
      have hu : ∀ (x y : Bytes) (l : List Bytes), joinLoop d (x :: y :: l) = x ++ d :: joinLoop d (y :: l) := by
        intro x y l; simp [joinLoop]
      rw [hu, hu] at h
      obtain ⟨h1, h2⟩ := hsplit (hl a (by simp)).2 (hm b (by simp)).2 h
      rw [h1, ih (e :: m) (fun x hx => hl x (List.mem_cons_of_mem _ hx)) (fun x hx => hm x (List.mem_cons_of_mem _ hx)) h2]

/-- A trace of plain addresses can be read back: different traces have different texts. -/
theorem C82_addresses (fmtX : Nat → Bytes) (hx : WritesHex fmtX) (dem : Bytes → Option Bytes) (resolve : Bool)
    (a b : List Nat) (h : traceStr fmtX dem resolve none a = traceStr fmtX dem resolve none b) : a = b := by
  have hinj : ∀ one (x y : Nat), addrToHex fmtX one x = addrToHex fmtX one y → x = y := by
    intro one x y h
    have h' : fmtX x = fmtX y := by
      cases one <;> simp only [addrToHex, Bool.false_eq_true, if_false, if_true] at h <;> simpa using h
    have h1 := (hx x).2.1
    rw [h', (hx y).2.1] at h1
    simpa using h1.symm
  have hno : ∀ one (x : Nat) (d : UInt8), d = 10 ∨ d = 32 → addrToHex fmtX one x ≠ [] ∧ d ∉ addrToHex fmtX one x := by
    intro one x d hd
    have hv : d ∉ fmtX x := by
      intro hc
      exact digit_ne (c := d) (d := d) (by rcases hd with rfl | rfl <;> decide) (hx x).2.1 hc rfl
    cases one <;> simp only [addrToHex, Bool.false_eq_true, if_false, if_true] <;> refine ⟨by simp, ?_⟩ <;>
      rcases hd with rfl | rfl <;> simpa using hv
  have hmain : ∀ one (d : UInt8), d = 10 ∨ d = 32 → ∀ a b : List Nat,
      joinLoop d (a.map (addrToHex fmtX one)) = joinLoop d (b.map (addrToHex fmtX one)) → a = b := by
    intro one d hd a b h
    have := joinLoop_inj d _ _ (by
      intro x hx; obtain ⟨n, _, rfl⟩ := List.mem_map.1 hx; exact hno one n d hd) (by
      intro x hx; obtain ⟨n, _, rfl⟩ := List.mem_map.1 hx; exact hno one n d hd) h
    exact List.map_inj_right (fun x y => hinj one x y) |>.1 this
  have hform : ∀ a : List Nat, traceStr fmtX dem resolve none a =
      .ok (joinLoop (if resolve then 10 else 32) (a.map (addrToHex fmtX (!resolve)))) := by
    intro a
    unfold traceStr
    by_cases ha : a = []
    · subst ha; cases resolve <;> rfl
    · rw [if_neg ha]; cases resolve <;> rfl
  rw [hform, hform] at h
  simp only [Res.ok.injEq] at h
  exact hmain _ _ (by cases resolve <;> simp) a b h

theorem joinLoop_eq (d : UInt8) (l : List Bytes) : joinLoop d l = List.intercalate [d] l := by
  induction l with
  | nil => rfl
  | cons a l ih =>
    cases l with
    | nil => simp [joinLoop, List.intercalate]
    | cons b l => rw [joinLoop, ih]; simp [List.intercalate]; exact fun h => by simp at h

/-- The text of a trace of plain addresses: `0x` and the digits, with blanks between; or, if the symbols were asked for but are not
to be had, in brackets and one to a line. -/
theorem C82_addresses_text (fmtX : Nat → Bytes) (dem : Bytes → Option Bytes) (a : List Nat) :
    traceStr fmtX dem false none a = .ok (List.intercalate [32] (a.map fun x => "0x".toUTF8.toList ++ fmtX x)) ∧
      traceStr fmtX dem true none a =
        .ok (List.intercalate [10] (a.map fun x => "[0x".toUTF8.toList ++ fmtX x ++ "]".toUTF8.toList)) := by
  have e1 : "0x".toUTF8.toList = [48, 120] := by decide +kernel
  have e2 : "[0x".toUTF8.toList = [91, 48, 120] := by decide +kernel
  have e3 : "]".toUTF8.toList = [93] := by decide +kernel
  rw [e1, e2, e3, ← joinLoop_eq, ← joinLoop_eq]
  unfold traceStr
  by_cases ha : a = []
  · subst ha; exact ⟨rfl, rfl⟩
  · rw [if_neg ha, if_neg ha]; exact ⟨rfl, rfl⟩

/-- Finding: an opening parenthesis in the path of the program hides the function from the demangler: it is asked for the wrong
name, the rest of the path with the function. -/
theorem C82_finding_path (dem : Bytes → Option Bytes) (d1 d2 f r : Bytes) (h1 : (40 : UInt8) ∉ d1) (h2 : (43 : UInt8) ∉ d2)
    (hf : (43 : UInt8) ∉ f) (h0 : (0 : UInt8) ∉ d1 ++ [40] ++ d2 ++ [40] ++ f ++ [43] ++ r)
    (hd : dem (d2 ++ [40] ++ f) = none) :
    symLine dem (d1 ++ [40] ++ d2 ++ [40] ++ f ++ [43] ++ r) = .ok (d1 ++ [40] ++ d2 ++ [40] ++ f ++ [43] ++ r ++ [32]) := by
  rw [(C82_symbol dem _ h0).1 d1 (d2 ++ [40] ++ f) r ⟨by simp, h1, by simp [h2, hf]⟩, hd]
  simp

/-! ## Cases -/

example : (((Exc.new [69] true [84]).run true [.add [97], .add [98]]).what true 2).1 =
    [69, 58, 97, 58, 98] ++ "\n<<<STACKTRACE>>> ".toUTF8.toList ++ [84] := by decide +kernel

example : makeString ((List.range 20).map UInt8.ofNat) 20 = .ok ((List.range 16).map UInt8.ofNat) := by decide

/-- `a(_Zf+0x1) [9]`. -/
example : symLine (fun s => if s = [95, 90] then some [102, 40, 41] else none) [97, 40, 95, 90, 43, 49, 41] =
    .ok [97, 40, 102, 40, 41, 43, 49, 41, 32] := by decide

example : IsSymbol [97, 40, 95, 90, 43, 49, 41] [97] [95, 90] [49, 41] := by
  refine ⟨rfl, by decide, by decide⟩

example : WritesInt Itoa.decInt := Itoa.canonical_decInt
example : WritesHex (Itoa.digs 16 (Itoa.hexChar false)) := fun x => Itoa.canonical_digs (by omega) (Itoa.isDig_hex false) x
example : WritesHex4 (Itoa.fixed 16 (Itoa.hexChar false) 4) := fun x hx =>
  ⟨Itoa.fixed_length 4 x, by rw [Itoa.value_fixed (by omega) (Itoa.isDig_hex false) 4 x]; simp; omega⟩

#print axioms C81_text
#print axioms C81_trace
#print axioms C81_finding_nul
#print axioms C81_makeString
#print axioms C81_errorNo
#print axioms C81_wide
#print axioms C81_finding_backslash
#print axioms C82_symbol
#print axioms C82_unchanged
#print axioms C82_lines
#print axioms C82_addresses
#print axioms C82_finding_path

end Verif.Props.Exception
