import Verif.Model.OptStream
import Verif.Spec.OptStream
set_option linter.unusedSimpArgs false

/-! Lemmas for C152. -/
namespace Verif.OptStream
open Verif.Spec.OptStream (Space Digit Sign Numeral Expo fracText)

theorem isDigit_iff (c : UInt8) : isDigit c = true ↔ Digit c := by
  simp [isDigit, Digit, UInt8.le_iff_toNat_le]

theorem isSpace_iff (c : UInt8) : isSpace c = true ↔ Space c := by
  simp only [isSpace, Space, Bool.or_eq_true, beq_iff_eq, Bool.and_eq_true, decide_eq_true_eq, UInt8.le_iff_toNat_le, ← UInt8.toNat_inj]
  simp only [UInt8.reduceToNat]
  omega

/-- All are digits. -/
def AllD (l : List UInt8) : Prop := ∀ c ∈ l, isDigit c = true

/-- Does not begin with a digit. -/
def NoD (l : List UInt8) : Prop := ∀ c ∈ l.head?, isDigit c = false

theorem take_digits (l : List UInt8) : AllD (l.takeWhile isDigit) := by
  intro c hc
  induction l with
  | nil => simp at hc
  | cons d l ih =>
    rw [List.takeWhile_cons] at hc
    split at hc
    next h =>
      rcases List.mem_cons.mp hc with h1 | h1
      · rw [h1]; exact h
      · exact ih h1
    next h => simp at hc

theorem drop_digits (l : List UInt8) : NoD (l.dropWhile isDigit) := by
  induction l with
  | nil => simp [NoD]
  | cons d l ih =>
    rw [List.dropWhile_cons]
    split
    · exact ih
    next h => intro c hc; simp at hc; rw [← hc]; simpa using h

theorem takeWhile_app {a r : List UInt8} (ha : AllD a) (hr : NoD r) : (a ++ r).takeWhile isDigit = a ∧ (a ++ r).dropWhile isDigit = r := by
  induction a with
  | nil =>
    cases r with
    | nil => simp
    | cons c r =>
      have := hr c (by simp)
      simp [List.takeWhile_cons, List.dropWhile_cons, this]
  | cons d a ih =>
    have h1 := ha d (by simp)
    have h2 := ih (fun c hc => ha c (by simp [hc]))
    simp [List.takeWhile_cons, List.dropWhile_cons, h1, h2]

theorem natOf_acc (l : List UInt8) (v : Nat) :
    l.foldl (fun v d => v * 10 + (d.toNat - 48)) v = v * 10 ^ l.length + Verif.Spec.OptStream.value l := by
  induction l generalizing v with
  | nil => simp [Verif.Spec.OptStream.value]
  | cons d l ih =>
    rw [List.foldl_cons, ih, Verif.Spec.OptStream.value, List.length_cons, Nat.pow_succ, Nat.add_mul, Nat.mul_assoc, Nat.mul_comm 10]
    omega

theorem natOf_eq (l : List UInt8) : natOf l = Verif.Spec.OptStream.value l := by
  rw [natOf, natOf_acc]; simp

theorem natOf_zero (l : List UInt8) : natOf (48 :: l) = natOf l := by
  simp [natOf]

theorem loop_acc (s : List UInt8) (f d c : Bool) (x : List UInt8) :
    digitsLoop s f d c x = ((digitsLoop s f d c []).1, x ++ (digitsLoop s f d c []).2) := by
  generalize hn : s.length = n
  induction n using Nat.strongRecOn generalizing s f d c x with
  | ind n ih =>
    subst hn
    cases s with
    | nil => simp [digitsLoop]
    | cons a s =>
      rw [digitsLoop.eq_def, digitsLoop.eq_def _ _ _ _ []]
      simp only
      split
      · rw [ih s.length (by simp) s _ _ _ _ rfl, ih s.length (by simp) s _ _ _ ([] ++ [a]) rfl]; simp
      split
      · rw [ih s.length (by simp) s _ _ _ _ rfl, ih s.length (by simp) s _ _ _ ([] ++ [46]) rfl]; simp
      split
      · cases s with
        | nil => simp
        | cons b s =>
          simp only
          split
          · rw [ih s.length (by simp; omega) s _ _ _ _ rfl, ih s.length (by simp; omega) s _ _ _ ([] ++ [101, b]) rfl]; simp
          · rw [ih (b :: s).length (by simp) (b :: s) _ _ _ _ rfl, ih (b :: s).length (by simp) (b :: s) _ _ _ ([] ++ [101]) rfl]; simp
      · simp

theorem loop_digits (ds r : List UInt8) (hd : AllD ds) (f d c : Bool) (x : List UInt8) :
    digitsLoop (ds ++ r) f d c x = digitsLoop r (f || !ds.isEmpty) d c (x ++ ds) := by
  induction ds generalizing f x with
  | nil => simp
  | cons a ds ih =>
    rw [List.cons_append, digitsLoop.eq_def]
    simp only
    rw [if_pos (hd a (by simp)), ih (fun c hc => hd c (by simp [hc]))]
    simp

theorem zeros_spec (i r sg : List UInt8) (hi : AllD i) (hr : NoD r) (found : Bool) :
    ∃ z i', zeros (i ++ r) found sg = (i' ++ r, found || !z.isEmpty || (found && !z.isEmpty) || decide (i ≠ [] ∧ i.head? = some 48), sg ++ z) ∧
      AllD (z ++ i') ∧ (found = false → (z ++ i' = [] ↔ i = []) ∧ ∀ f, natOf (z ++ i' ++ f) = natOf (i ++ f)) ∧
      (found = true → z = [] ∧ ∀ f, natOf (i' ++ f) = natOf (i ++ f)) ∧ (z ++ i' = [] → found = false → i = []) ∧
      (found = false → (!z.isEmpty) = decide (i ≠ [] ∧ i.head? = some 48)) := by
  induction i generalizing found sg with
  | nil =>
    refine ⟨[], [], ?_, by simp [AllD], by simp, by simp, by simp, by simp⟩
    cases r with
    | nil => simp [zeros]
    | cons c r =>
      have h := hr c (by simp)
      have : c ≠ 48 := by rintro rfl; simp [isDigit] at h
      simp [zeros, this]
  | cons d i ih =>
    by_cases h : d = 48
    · subst h
      obtain ⟨z, i', e, h1, h2, h3, h4, h5⟩ := ih (if found then sg else sg ++ [48]) (fun c hc => hi c (by simp [hc])) true
      obtain ⟨hz, h3'⟩ := h3 rfl
      subst hz
      rw [List.nil_append] at h1
      cases found with
      | true =>
        refine ⟨[], i', ?_, by simpa using h1, by simp, ?_, by simp, by simp⟩
        · rw [List.cons_append, zeros, if_pos rfl, e]; simp
        · intro _; refine ⟨rfl, fun f => ?_⟩; rw [h3', List.cons_append, natOf_zero]
      | false =>
        refine ⟨[48], i', ?_, ?_, ?_, by simp, by simp, by simp⟩
        · rw [List.cons_append, zeros, if_pos rfl, e]; simp
        · intro c hc
          rcases List.mem_append.mp hc with h | h
          · simp at h; subst h; decide
          · exact h1 c h
        · intro _
          refine ⟨by simp, fun f => ?_⟩
          simp only [List.cons_append, List.nil_append]
          rw [natOf_zero, natOf_zero, h3']
    · refine ⟨[], d :: i, ?_, by simpa using hi, by simp, by simp, by simp, by simp [h]⟩
      rw [List.cons_append, zeros, if_neg h]; simp [h]

/-- The zeros and the digits before the point. -/
theorem mantissa (i r sg : List UInt8) (hi : AllD i) (hr : NoD r) :
    ∃ i', AllD i' ∧ (i' = [] ↔ i = []) ∧ (∀ f, natOf (i' ++ f) = natOf (i ++ f)) ∧
      (let (s, found, x) := zeros (i ++ r) false sg
       (digitsLoop s found false false x).2) = sg ++ i' ++ (digitsLoop r (!i.isEmpty) false false []).2 := by
  obtain ⟨z, i', e, h1, h2, h3, h4, h5⟩ := zeros_spec i r sg hi hr false
  obtain ⟨h2a, h2b⟩ := h2 rfl
  refine ⟨z ++ i', h1, h2a, h2b, ?_⟩
  rw [e]
  simp only
  rw [loop_digits i' r (fun c hc => h1 c (by simp [hc])), loop_acc]
  simp only [List.append_assoc]
  have : (false || !z.isEmpty || (false && !z.isEmpty) || decide (i ≠ [] ∧ i.head? = some 48) || !i'.isEmpty) = !i.isEmpty := by
    rw [← h5 rfl]
    have : i.isEmpty = (z ++ i').isEmpty := by
      rw [Bool.eq_iff_iff, List.isEmpty_iff, List.isEmpty_iff]; exact h2a.symm
    rw [this]
    cases z <;> cases i' <;> simp
  rw [this]

/-- Does not go on a number without exponent. -/
def Stop (f : Option (List UInt8)) (r : List UInt8) : Prop := NoD r ∧ (f = none → ∀ c ∈ r.head?, c ≠ 46)

theorem extract_spec (sg i r : List UInt8) (f : Option (List UInt8)) (hs : sign (sg ++ i ++ fracText f ++ r) = (sg, i ++ fracText f ++ r))
    (hi : AllD i) (hf : ∀ x ∈ f, AllD x) (hr : Stop f r) :
    ∃ i', AllD i' ∧ (i' = [] ↔ i = []) ∧ (∀ f, natOf (i' ++ f) = natOf (i ++ f)) ∧
      extractFloat (sg ++ i ++ fracText f ++ r) =
        sg ++ i' ++ fracText f ++ (digitsLoop r (!i.isEmpty || !(f.getD []).isEmpty) f.isSome false []).2 := by
  have hn : NoD (fracText f ++ r) := by
    cases f with
    | none => simpa [fracText] using hr.1
    | some x => intro c hc; simp [fracText] at hc; subst hc; decide
  obtain ⟨i', h1, h2, h3, h4⟩ := mantissa i (fracText f ++ r) sg hi hn
  refine ⟨i', h1, h2, h3, ?_⟩
  rw [extractFloat, hs]
  simp only [List.append_assoc] at h4 ⊢
  rw [h4]
  cases f with
  | none => simp [fracText]
  | some x =>
    simp only [fracText, Option.elim, List.cons_append]
    rw [digitsLoop.eq_def]
    simp only
    rw [if_neg (by decide), if_pos (by simp), loop_digits _ _ (hf x rfl), loop_acc]
    simp

theorem loop_stop {f : Option (List UInt8)} {r : List UInt8} (hr : Stop f r) (found : Bool)
    (he : found = true → ∀ c ∈ r.head?, c ≠ 101 ∧ c ≠ 69) : digitsLoop r found f.isSome false [] = (r, []) := by
  cases r with
  | nil => simp [digitsLoop]
  | cons c r =>
    have h1 := hr.1 c (by simp)
    rw [digitsLoop.eq_def]
    simp only
    rw [if_neg (by simp [h1]), if_neg, if_neg]
    · rintro ⟨h, _, h3⟩
      have := he h3 c (by simp)
      rcases h with h | h <;> simp [h] at this
    · rintro ⟨h, h2, _⟩
      exact hr.2 (by simpa using h2) c (by simp) h

theorem loop_expo (c : UInt8) (hc : c = 101 ∨ c = 69) (q es ds t : List UInt8) (hq : q = es ++ ds ++ t) (hs : sign q = (es, ds ++ t)) (hd : AllD ds) (ht : NoD t) (dec : Bool) :
    (digitsLoop (c :: q) true dec false []).2 = 101 :: es ++ ds := by
  have hend : ∀ x, (digitsLoop (ds ++ t) true dec true x).2 = x ++ ds := by
    intro x
    rw [loop_digits _ _ hd]
    cases t with
    | nil => simp [digitsLoop]
    | cons b t =>
      have h1 := ht b (by simp)
      rw [digitsLoop.eq_def]
      simp [h1]
  rw [digitsLoop.eq_def]
  simp only
  rw [if_neg (by rcases hc with rfl | rfl <;> decide), if_neg (by rcases hc with rfl | rfl <;> simp), if_pos (by simp [hc])]
  cases q with
  | nil =>
    simp [sign] at hs
    obtain ⟨h1, h2, h3⟩ := hs
    simp [h1, h2]
  | cons d q =>
    simp only
    rw [sign] at hs
    split
    next h =>
      rw [if_pos h] at hs
      obtain ⟨h1, h2⟩ := Prod.mk.inj hs
      rw [h2, hend, ← h1]; simp
    next h =>
      rw [if_neg h] at hs
      obtain ⟨h1, h2⟩ := Prod.mk.inj hs
      rw [h2, hend, ← h1]; simp

theorem sign_of {sg r : List UInt8} (h : Sign sg) (hr : sg = [] → ∀ c ∈ r.head?, c ≠ 43 ∧ c ≠ 45) : sign (sg ++ r) = (sg, r) := by
  rcases h with h | h | h
  · subst h
    cases r with
    | nil => rfl
    | cons c r =>
      have := hr rfl c (by simp)
      simp [sign, this]
  · subst h; simp [sign]
  · subst h; simp [sign]

theorem sign_split (s : List UInt8) : ∃ sg r, s = sg ++ r ∧ Sign sg ∧ sign s = (sg, r) ∧ (sg = [] → ∀ c ∈ r.head?, c ≠ 43 ∧ c ≠ 45) := by
  cases s with
  | nil => exact ⟨[], [], rfl, .inl rfl, rfl, by simp⟩
  | cons c s =>
    by_cases h : c = 43 ∨ c = 45
    · refine ⟨[c], s, rfl, ?_, by simp [sign, h], by simp⟩
      rcases h with h | h <;> simp [Sign, h]
    · refine ⟨[], c :: s, rfl, .inl rfl, by simp [sign, h], ?_⟩
      intro _ d hd
      simp at hd
      subst hd
      exact ⟨fun e => h (.inl e), fun e => h (.inr e)⟩

/-- The head of a list of digits and what follows is no sign. -/
theorem no_sign {i r : List UInt8} (hi : AllD i) (hr : ∀ c ∈ r.head?, c ≠ 43 ∧ c ≠ 45) : ∀ c ∈ (i ++ r).head?, c ≠ 43 ∧ c ≠ 45 := by
  cases i with
  | nil => simpa using hr
  | cons d i =>
    intro c hc
    simp at hc
    subst hc
    have := hi d (by simp)
    constructor <;> (rintro rfl; revert this; decide)

/-- What `strtod` makes of the parts. -/
theorem strtod_spec (sg i r : List UInt8) (f : Option (List UInt8)) (hs : sign (sg ++ i ++ fracText f ++ r) = (sg, i ++ fracText f ++ r))
    (hi : AllD i) (hf : ∀ x ∈ f, AllD x) (hr : Stop f r) :
    strtod (sg ++ i ++ fracText f ++ r) =
      if i = [] ∧ f.getD [] = [] then none
      else
        let base : Dec := ⟨decide (sg = [45]), natOf (i ++ f.getD []), -((f.getD []).length : Int)⟩
        match r with
        | [] => some (base, [])
        | c :: q =>
          if c = 101 then
            let (es, q) := sign q
            let e := q.takeWhile isDigit
            if e = [] then some (base, r)
            else some ({ base with exp := base.exp + (if es = [45] then -(natOf e : Int) else natOf e) }, q.dropWhile isDigit)
          else some (base, r) := by
  have hn : NoD (fracText f ++ r) := by
    cases f with
    | none => simpa [fracText] using hr.1
    | some x => intro c hc; simp [fracText] at hc; subst hc; decide
  rw [strtod, hs]
  simp only [List.append_assoc]
  rw [(takeWhile_app hi hn).1, (takeWhile_app hi hn).2]
  cases f with
  | none =>
    simp only [fracText, Option.elim, List.nil_append, Option.getD]
    cases r with
    | nil => simp
    | cons c q =>
      have : c ≠ 46 := hr.2 rfl c (by simp)
      simp only [if_neg this]
  | some x =>
    simp only [fracText, Option.elim, List.cons_append, Option.getD, if_true]
    rw [(takeWhile_app (hf x rfl) hr.1).1, (takeWhile_app (hf x rfl) hr.1).2]
    cases r <;> rfl

end Verif.OptStream
