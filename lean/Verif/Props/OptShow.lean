import Verif.Model.OptShow
import Verif.Proof.Option
import Verif.Proof.Itoa
set_option linter.unusedSimpArgs false

/-! # C135: setting the variables of options from texts and showing them -/
namespace Verif.Props.OptShow
open Verif Verif.OptShow Verif.Opt Verif.Spec.Numeral Verif.Spec.Opt Verif.Atoi Verif.Props.Numeral

/-- What is known about `os << v` for an integer: the canonical decimal numeral. -/
def Prints (num : Int → Str) : Prop := ∀ v, -(2 ^ 63) ≤ v → v < 2 ^ 64 → CanonicalInt (num v) v ∧ (num v).length < 2 ^ 64 - 1

theorem Prints.at {num : Int → Str} (hn : Prints num) {ty : IntTy} {signed : Bool} (hv : ty.Valid signed) {v : Int} (h1 : ty.lo ≤ v)
    (h2 : v ≤ ty.hi) : CanonicalInt (num v) v ∧ (num v).length < 2 ^ 64 - 1 := by
  have : -(2 ^ 63) ≤ ty.lo ∧ ty.hi < 2 ^ 64 := by
    cases hv with
    | s s W hm =>
      simp only [signedTypes, List.mem_cons, List.not_mem_nil, or_false, Prod.mk.injEq] at hm
      rcases hm with ⟨rfl, rfl⟩ | ⟨rfl, rfl⟩ | ⟨rfl, rfl⟩ | ⟨rfl, rfl⟩ <;> decide
    | u u hm =>
      simp only [List.mem_cons, List.not_mem_nil, or_false] at hm
      rcases hm with rfl | rfl | rfl | rfl <;> decide
  exact hn v (by omega) (by omega)

theorem digits {s : Str} {x n : Nat} (h : valFrom 10 x s = some n) : ∀ c ∈ s, 48 ≤ c ∧ c ≤ 57 := by
  induction s generalizing x with
  | nil => simp
  | cons c s ih =>
    simp only [valFrom] at h
    intro d hd
    cases hc : digit? c with
    | none => simp [hc] at h
    | some k =>
      simp only [hc] at h
      split at h
      · rename_i hk
        rcases List.mem_cons.mp hd with rfl | hd
        · simp only [digit?] at hc
          split at hc
          · assumption
          · exfalso
            split at hc
            · rename_i h1
              injection hc with hc
              have h1 := UInt8.le_iff_toNat_le.mp h1.1
              have : (65 : UInt8).toNat = 65 := rfl
              omega
            · split at hc
              · rename_i h1
                injection hc with hc
                have h1 := UInt8.le_iff_toNat_le.mp h1.1
                have : (97 : UInt8).toNat = 97 := rfl
                omega
              · cases hc
        · exact ih h d hd
      · cases h

theorem unit_digit {c : UInt8} (h : 48 ≤ c ∧ c ≤ 57) : unit c = none := by
  have h1 := UInt8.le_iff_toNat_le.mp h.1
  have h2 := UInt8.le_iff_toNat_le.mp h.2
  have e1 : (48 : UInt8).toNat = 48 := rfl
  have e2 : (57 : UInt8).toNat = 57 := rfl
  have : c.toNat < 256 := c.toNat_lt
  unfold unit
  split <;> first | rfl | (exfalso; revert h1 h2; decide)

/-- The digits of the numeral of an integer. -/
theorem parts {t : Str} {v : Int} (h : CanonicalInt t v) :
    ∃ (neg : Bool) (d : Str), t = (if neg then [45] else []) ++ d ∧ d ≠ [] ∧ (neg = true ↔ v < 0) ∧ value? 10 d = some v.natAbs ∧
      ∀ c ∈ d, 48 ≤ c ∧ c ≤ 57 := by
  rw [CanonicalInt] at h
  split at h
  · obtain ⟨d, rfl, h1, h2, _⟩ := h
    refine ⟨true, d, rfl, h1, by simpa, by rw [h2]; congr 1; omega, digits (by rw [← value_eq_valFrom]; exact h2)⟩
  · obtain ⟨h1, h2, _⟩ := h
    refine ⟨false, t, rfl, h1, by simp; omega, by rw [h2]; congr 1; omega, digits (by rw [← value_eq_valFrom]; exact h2)⟩

theorem dig_ne {d : Str} (hd : ∀ c ∈ d, 48 ≤ c ∧ c ≤ 57) (x : UInt8) (hx : ¬ (48 ≤ x ∧ x ≤ 57)) : x ∉ d := fun h => hx (hd x h)

theorem canonical_value {t : Str} {v w : Int} (hv : CanonicalInt t v) (hw : CanonicalInt t w) : v = w := by
  obtain ⟨n, d, e1, _, n1, v1, d1⟩ := parts hv
  obtain ⟨m, f, e2, _, n2, v2, d2⟩ := parts hw
  rw [e1] at e2
  have hd := dig_ne d1 45 (by decide)
  have hf := dig_ne d2 45 (by decide)
  cases n <;> cases m <;> simp at e2 n1 n2
  · subst e2; rw [v1] at v2; injection v2; omega
  · subst e2; simp at hd
  · subst e2; simp at hf
  · subst e2; rw [v1] at v2; injection v2; omega

/-- The text of a value in the range means this value. -/
theorem optValue_text {signed : Bool} {lo hi : Int} {t : Str} {v : Int} (h : CanonicalInt t v) (h1 : lo ≤ v) (h2 : v ≤ hi)
    (hs : v < 0 → signed = true) : optValue signed lo hi t = some v ∧ 0 ∉ t ∧ 32 ∉ t ∧ t ≠ [] ∧ t.getLast?.bind unit = none := by
  obtain ⟨n, d, rfl, hne, hn, hv, hd⟩ := parts h
  have hlast : ((if n then [45] else []) ++ d).getLast?.bind unit = none := by
    rw [List.getLast?_append, List.getLast?_eq_some_getLast hne]
    exact unit_digit (hd _ (List.getLast_mem hne))
  refine ⟨?_, ?_, ?_, by simp [hne], hlast⟩
  · have h48 : ((if n then [45] else []) ++ d).take 2 ≠ [48, 120] := by
      intro e
      have : (120 : UInt8) ∈ (if n then [45] else []) ++ d := List.mem_of_mem_take (i := 2) (by rw [e]; simp)
      rcases List.mem_append.mp this with h | h
      · cases n <;> simp at h
      · exact dig_ne hd 120 (by decide) h
    rw [optValue, if_neg h48, meant, hlast]
    have hnum : numeral signed ((if n then [45] else []) ++ d) = some v := by
      cases n with
      | true =>
        have hv0 := hn.mp rfl
        rw [numeral, if_pos ⟨hs hv0, rfl⟩]
        simp [hne, hv]
        omega
      | false =>
        have hv0 : ¬ v < 0 := fun h => by cases hn.mpr h
        have : ¬ (signed = true ∧ ((if false then [45] else []) ++ d : Str).head? = some 45) := by
          rintro ⟨_, e⟩
          exact dig_ne hd 45 (by decide) (List.mem_of_mem_head? (by simpa using e))
        rw [numeral, if_neg this]
        simp [hne, hv]
        omega
    simp only [hnum, Option.bind_some, if_pos (And.intro h1 h2)]
  · intro h; rcases List.mem_append.mp h with h | h
    · cases n <;> simp at h
    · exact dig_ne hd 0 (by decide) h
  · intro h; rcases List.mem_append.mp h with h | h
    · cases n <;> simp at h
    · exact dig_ne hd 32 (by decide) h

theorem not_bad {ty : IntTy} {t : Str} {v : Int} (h : CanonicalInt t v) (h1 : ty.lo ≤ v) : ¬ Bad ty t := by
  rintro ⟨s, W, rfl, hm, k, d, c, r, e, hcd⟩
  have hW : W ≠ 0 ∧ s.min = -(W : Int) := by
    simp only [signedTypes, List.mem_cons, List.not_mem_nil, or_false, Prod.mk.injEq] at hm
    rcases hm with ⟨rfl, rfl⟩ | ⟨rfl, rfl⟩ | ⟨rfl, rfl⟩ | ⟨rfl, rfl⟩ <;> exact ⟨by decide, by decide⟩
  rw [CanonicalInt] at h
  split at h
  · obtain ⟨u, rfl, _, hu, _⟩ := h
    injection e with _ e
    rw [value_eq_valFrom, e, List.append_assoc, valFrom_zeros _ _ (by omega), (canonical_dec hW.1 hcd).1, valFrom_append, valFrom_dec] at hu
    simp only [Option.bind_some, valFrom] at hu
    cases hdg : digit? c with
    | none => simp [hdg] at hu
    | some d =>
      simp only [hdg] at hu
      split at hu
      · have := valFrom_ge (by omega) hu
        rw [IntTy.lo, hW.2] at h1
        omega
      · simp at hu
  · rw [e] at h
    have := digits (by rw [← value_eq_valFrom]; exact h.2.1) 45 (by simp)
    exact absurd this (by decide)

theorem convert_text {ty : IntTy} {signed : Bool} (hv : ty.Valid signed) {t : Str} {v : Int} (h : CanonicalInt t v) (hl : t.length < 2 ^ 64 - 1)
    (h1 : ty.lo ≤ v) (h2 : v ≤ ty.hi) (x : Int) (e : Str) : convertInt ty x (t ++ 0 :: e) = .ok (true, v) := by
  have hs : v < 0 → signed = true := by
    intro h0; cases hv with
    | s => rfl
    | u => rw [IntTy.lo] at h1; omega
  obtain ⟨o1, o2, _, _, _⟩ := optValue_text (signed := signed) h h1 h2 hs
  obtain ⟨x', c1, c2, _⟩ := convertInt_spec hv x t e o2 hl (fun _ => not_bad h h1)
  rw [c1, o1, c2 v o1]; rfl

/-- C135.  A number shown is a text that sets the same number, for every integer type, whatever the variable held before. -/
theorem C135_number {num : Int → Str} (hn : Prints num) {ty : IntTy} {signed : Bool} (hv : ty.Valid signed) (v x : Int) (h1 : ty.lo ≤ v)
    (h2 : v ≤ ty.hi) (e : Str) : convertInt ty x (showInt num v ++ 0 :: e) = .ok (true, v) :=
  convert_text hv (hn.at hv h1 h2).1 (hn.at hv h1 h2).2 h1 h2 x e

/-- C135.  A string variable takes the text up to its end. -/
theorem C135_string (s e : Str) (h : 0 ∉ s) : setStr (s ++ 0 :: e) = .ok (true, s) := by
  have : cstr (s ++ 0 :: e) = .ok s := by
    induction s with
    | nil => rfl
    | cons c s ih =>
      simp only [List.mem_cons, not_or] at h
      rw [List.cons_append, cstr, if_neg (fun e => h.1 e.symm), ih h.2]; rfl
  rw [setStr, this]; rfl

/-- C135.  A vector takes the values of the texts that mean one, in order, and is not changed by the others, whatever is in the
uninitialised variable. -/
theorem C135_vector {ty : IntTy} {signed : Bool} (hv : ty.Valid signed) (texts : List (Int × Str × Str)) :
    ∀ v : List Int, (∀ x ∈ texts, 0 ∉ x.2.1 ∧ x.2.1.length < 2 ^ 64 - 1 ∧ (x.2.1.getLast?.bind unit = none → ¬ Bad ty x.2.1)) →
    setElems ty v (texts.map fun x => (x.1, x.2.1 ++ 0 :: x.2.2)) =
      .ok (texts.map fun x => (optValue signed ty.lo ty.hi x.2.1).isSome, v ++ texts.filterMap fun x => optValue signed ty.lo ty.hi x.2.1) := by
  induction texts with
  | nil => intro v _; simp [setElems]
  | cons x texts ih =>
    intro v h
    obtain ⟨t, s, e⟩ := x
    obtain ⟨g1, g2, g3⟩ := h (t, s, e) (by simp)
    obtain ⟨x', c1, c2, _⟩ := convertInt_spec hv t s e g1 g2 g3
    have ih := fun v => ih v fun x hx => h x (by simp [hx])
    rw [List.map_cons, setElems, setElem]
    simp only [c1, Res.ok_bind]
    cases ho : optValue signed ty.lo ty.hi s with
    | none =>
      simp only [Option.isSome_none, Bool.false_eq_true, if_false, Res.pure_eq, Res.ok_bind, ih]
      simp [ho]
    | some w =>
      simp only [Option.isSome_some, if_true, Res.pure_eq, Res.ok_bind, ih, c2 w ho]
      simp [ho]

theorem joinLoop_false {α : Type} (f : α → Str) (l : List α) : ∀ os, joinLoop f false os l = os ++ (l.map fun x => 32 :: f x).flatten := by
  induction l with
  | nil => intro os; simp [joinLoop]
  | cons x l ih => intro os; rw [joinLoop, ih]; simp

/-- `texts` with one blank between neighbours. -/
def Joined (texts : List Str) (r : Str) : Prop := r = (texts.intersperse [32]).flatten

theorem joinLoop_true {α : Type} (f : α → Str) (l : List α) : Joined (l.map f) (joinLoop f true [] l) := by
  rw [Joined]
  cases l with
  | nil => rfl
  | cons x l =>
    rw [joinLoop, joinLoop_false]
    simp only [if_true, List.nil_append, List.map_cons]
    induction l generalizing x with
    | nil => simp
    | cons y l ih => simp only [List.map_cons, List.flatten_cons, List.intersperse_cons₂]; rw [← ih y]; simp

/-- C135.  A vector of integers of at least 16 bits is shown as texts without blanks between single blanks, and these texts set the same vector. -/
theorem C135_vector_shown {num : Int → Str} (hn : Prints num) {ty : IntTy} {signed : Bool} (hv : ty.Valid signed) (hw : isByte ty = false)
    (v : List Int) (h : ∀ x ∈ v, ty.lo ≤ x ∧ x ≤ ty.hi) (t : Int) :
    ∃ texts, Joined texts (showInts num ty v) ∧ (∀ s ∈ texts, 32 ∉ s ∧ s ≠ []) ∧
      setElems ty [] (texts.map fun s => (t, s ++ [0])) = .ok (texts.map fun _ => true, v) := by
  have hf : showElem num ty = num := by funext x; simp [showElem, hw]
  refine ⟨v.map num, ?_, ?_, ?_⟩
  · rw [showInts, hf]; exact joinLoop_true num v
  · intro s hs
    obtain ⟨x, hx, rfl⟩ := List.mem_map.mp hs
    obtain ⟨_, _, g1, g2, _⟩ := optValue_text (signed := true) (hn.at hv (h x hx).1 (h x hx).2).1 (h x hx).1 (h x hx).2 (fun _ => rfl)
    exact ⟨g1, g2⟩
  · have : ∀ (w v : List Int), (∀ x ∈ v, ty.lo ≤ x ∧ x ≤ ty.hi) →
        setElems ty w ((v.map num).map fun s => (t, s ++ [0])) = .ok ((v.map num).map fun _ => true, w ++ v) := by
      intro w v
      induction v generalizing w with
      | nil => intro _; simp [setElems]
      | cons x v ih =>
        intro h
        have hp := hn.at hv (h x (by simp)).1 (h x (by simp)).2
        rw [List.map_cons, List.map_cons, setElems, setElem, convert_text hv hp.1 hp.2 (h x (by simp)).1 (h x (by simp)).2]
        simp only [Res.ok_bind, if_true, Res.pure_eq]
        rw [ih _ fun y hy => h y (by simp [hy])]
        simp
    simpa using this [] v h

/-- Finding for C135.  A vector of `uint8_t` with one element shows the element as a character, which never sets the same value: it is refused,
or it is a digit and means another number.  (A single `uint8_t` is shown as a number.) -/
theorem C135_finding_bytes (num : Int → Str) (v : Nat) (hv : v < 256) (t : Int) :
    showInts num (.u Atoi.uint8) [(v : Int)] = [UInt8.ofNat v] ∧
    (v ≠ 0 → setElem (.u Atoi.uint8) [] t ([UInt8.ofNat v] ++ [0]) ≠ .ok (true, [(v : Int)])) := by
  refine ⟨by simp [showInts, joinLoop, showElem, isByte, IntTy.hi, Atoi.uint8, UInt8.ofInt]; congr 1; omega, fun h0 hset => ?_⟩
  have hc : (UInt8.ofNat v).toNat = v := by simp; omega
  have h0' : (0 : UInt8) ∉ [UInt8.ofNat v] := by
    intro h
    have := congrArg UInt8.toNat (List.mem_singleton.mp h)
    rw [hc] at this
    exact h0 this.symm
  obtain ⟨x', c1, c2, _⟩ := convertInt_spec (IntTy.Valid.u Atoi.uint8 (by simp)) t [UInt8.ofNat v] [] h0' (by simp) (fun _ => by
    rintro ⟨_, _, e, _⟩; cases e)
  rw [setElem, c1] at hset
  simp only [Res.ok_bind] at hset
  cases ho : optValue false (IntTy.u Atoi.uint8).lo (IntTy.u Atoi.uint8).hi [UInt8.ofNat v] with
  | none => rw [ho] at hset; simp at hset
  | some w =>
    rw [ho, c2 w ho] at hset
    simp at hset
    subst hset
    rw [optValue, if_neg (by simp), meant] at ho
    split at ho
    · simp at ho
    · rw [numeral, if_neg (by simp)] at ho
      simp only [value_eq_valFrom, valFrom] at ho
      cases hd : digit? (UInt8.ofNat v) with
      | none => simp [hd] at ho
      | some d =>
        simp only [hd] at ho
        have hdv : d = v := by
          by_cases hlt : d < 10
          · simp [hlt] at ho
            omega
          · simp [hlt] at ho
        simp only [digit?, hc] at hd
        split at hd
        · injection hd; omega
        · split at hd
          · injection hd; omega
          · split at hd
            · injection hd; omega
            · cases hd

/-- Finding for C135.  A vector of strings cannot be told from its text: an empty vector and one with an empty string look the same, and so do two
strings and one with a blank in it. -/
theorem C135_finding_strings (a b : Str) :
    showStrs [] = showStrs [[]] ∧ showStrs [a, b] = showStrs [a ++ [32] ++ b] := by
  simp [showStrs, joinLoop]

/-- C135.  The text of an error tells its type. -/
theorem C135_error_texts (a b : ErrType) (h : errText a = errText b) : a = b := by
  cases a <;> cases b <;> first | rfl | (exfalso; revert h; decide)

/-- C135.  A new variable is not set, setting it is seen, and it goes on pointing to the same place. -/
theorem C135_set_flag (p : _root_.Option Nat) : (VarRef.mk0 p).isSet = false ∧ (VarRef.mk0 p).p = p ∧
    ∀ v : VarRef, v.markSet.isSet = true ∧ v.markSet.p = v.p := ⟨rfl, rfl, fun _ => ⟨rfl, rfl⟩⟩

/-- C135.  A text without an end is read past the memory. -/
theorem C135_unterminated (s : Str) (h : 0 ∉ s) : setStr s = .ub := by
  have : cstr s = .ub := by
    induction s with
    | nil => rfl
    | cons c s ih =>
      simp only [List.mem_cons, not_or] at h
      rw [cstr, if_neg (fun e => h.1 e.symm), ih h.2]; rfl
  rw [setStr, this]; rfl

theorem copyAll_ok (vs : List VarRef) (h : ∀ v ∈ vs, v.p ≠ none) : copyAll vs = .ok (vs.map fun v => ⟨v.p, false⟩) := by
  induction vs with
  | nil => rfl
  | cons v vs ih =>
    obtain ⟨p, b⟩ := v
    cases p with
    | none => exact absurd rfl (h ⟨none, b⟩ (by simp))
    | some a => rw [copyAll, ih fun w hw => h w (by simp [hw])]; rfl

/-- C135.  Adding an option keeps the variables of the others, and while nothing is set, it keeps their flags as well. -/
theorem C135_append (grow : Nat → Nat) (cap : Nat) (vs : List VarRef) (a : Nat) (h : ∀ v ∈ vs, v.p ≠ none) :
    ∃ cap' ws, pushBack grow cap vs a = .ok (cap', ws) ∧ ws.map VarRef.p = vs.map VarRef.p ++ [some a] ∧
      ((∀ v ∈ vs, v.isSet = false) → ws.map VarRef.isSet = vs.map VarRef.isSet ++ [false]) := by
  have hm : (VarRef.mk0 (some a)).copy = .ok ⟨some a, false⟩ := rfl
  by_cases hc : vs.length < cap
  · exact ⟨cap, vs ++ [⟨some a, false⟩], by simp [pushBack, hm, hc], by simp, by simp⟩
  · refine ⟨grow cap, vs.map (fun v => ⟨v.p, false⟩) ++ [⟨some a, false⟩], by simp [pushBack, hm, hc, copyAll_ok vs h], by simp, ?_⟩
    intro hs
    simp only [List.map_append, List.map_map, List.map_cons, List.map_nil]
    congr 1
    exact List.map_congr_left fun v hv => (hs v hv).symm

/-- Finding for C135.  An option added after `parse` may reallocate the vector; then all options count as not set.  It depends on the capacity. -/
theorem C135_finding_append_after (grow : Nat → Nat) (cap : Nat) (vs : List VarRef) (a : Nat) (h : ∀ v ∈ vs, v.p ≠ none) :
    (cap ≤ vs.length → ∃ ws, pushBack grow cap vs a = .ok (grow cap, ws) ∧ ∀ v ∈ ws, v.isSet = false) ∧
    (vs.length < cap → pushBack grow cap vs a = .ok (cap, vs ++ [⟨some a, false⟩])) := by
  have hm : (VarRef.mk0 (some a)).copy = .ok ⟨some a, false⟩ := rfl
  refine ⟨fun hc => ⟨vs.map (fun v => ⟨v.p, false⟩) ++ [⟨some a, false⟩], ?_, ?_⟩, fun hc => by simp [pushBack, hm, hc]⟩
  · simp [pushBack, hm, Nat.not_lt.mpr hc, copyAll_ok vs h]
  · intro v hv
    simp only [List.mem_append, List.mem_map, List.mem_singleton] at hv
    rcases hv with ⟨w, _, rfl⟩ | rfl <;> rfl

/-- Finding for C135.  An `Option` without a parameter vector cannot be copied: the copy of its empty `remains_` calls through a null pointer.  With
one, the copy refers to the same variables and says that nothing is set. -/
theorem C135_finding_copy (info param : List VarRef) (hi : ∀ v ∈ info, v.p ≠ none) (hp : ∀ v ∈ param, v.p ≠ none) (b : Bool) (a : Nat) :
    copyOption info param (.mk0 none) = .ub ∧
    copyOption info param ⟨some a, b⟩ = .ok (info.map fun v => ⟨v.p, false⟩, param.map fun v => ⟨v.p, false⟩, ⟨some a, false⟩) := by
  rw [copyOption, copyOption, copyAll_ok _ hi, copyAll_ok _ hp]
  exact ⟨rfl, rfl⟩

/-! ## Cases -/

example : pushBack (· * 2) 2 [⟨some 1, true⟩, ⟨some 2, false⟩] 3 = .ok (4, [⟨some 1, false⟩, ⟨some 2, false⟩, ⟨some 3, false⟩]) := rfl
example : pushBack (· * 2) 3 [⟨some 1, true⟩, ⟨some 2, false⟩] 3 = .ok (3, [⟨some 1, true⟩, ⟨some 2, false⟩, ⟨some 3, false⟩]) := rfl

/-- The decimal numerals are such texts. -/
theorem prints_decInt : Prints Itoa.decInt := by
  intro v h1 h2
  refine ⟨Itoa.canonical_decInt v, ?_⟩
  rw [Itoa.decInt]
  split
  · have := Itoa.dec_length_64 (x := (-v).toNat) (by omega)
    simp; omega
  · have := Itoa.dec_length_64 (x := v.toNat) (by omega)
    omega

example (x : Int) (e : Str) : convertInt (.s Atoi.sint32) x (showInt Itoa.decInt (-2147483648) ++ 0 :: e) = .ok (true, -2147483648) :=
  C135_number prints_decInt (.s Atoi.sint32 2147483648 (by simp [signedTypes])) _ _ (by decide) (by decide) e
example : setStr ("abc".toUTF8.toList ++ 0 :: [9]) = .ok (true, "abc".toUTF8.toList) := C135_string _ _ (by decide +kernel)
example : ∃ texts, Joined texts (showInts Itoa.decInt (.u Atoi.uint16) [1, 65535, 0]) ∧ (∀ s ∈ texts, 32 ∉ s ∧ s ≠ []) ∧
    setElems (.u Atoi.uint16) [] (texts.map fun s => (7, s ++ [0])) = .ok (texts.map fun _ => true, [1, 65535, 0]) :=
  C135_vector_shown prints_decInt (.u Atoi.uint16 (by simp)) (by decide) _ (by decide) 7
-- "7", "x", "9": the middle one is refused
example : setElems (.u Atoi.uint16) [1] [(5, [55, 0]), (5, [120, 0]), (5, [57, 0])] = .ok ([true, false, true], [1, 7, 9]) := by
  have := C135_vector (ty := .u Atoi.uint16) (.u Atoi.uint16 (by simp)) [(5, [55], []), (5, [120], []), (5, [57], [])] [1]
    (by simp; refine ⟨?_, ?_, ?_⟩ <;> (intro _; rintro ⟨_, _, e, _⟩; cases e))
  exact this.trans (by decide)
-- a vector holding 55 is shown as "7" and that sets 7
example : showInts Itoa.decInt (.u Atoi.uint8) [55] = [55] ∧ setElem (.u Atoi.uint8) [] 0 [55, 0] = .ok (true, [7]) :=
  ⟨(C135_finding_bytes _ 55 (by decide) 0).1, by decide⟩

#print axioms C135_number
#print axioms C135_string
#print axioms C135_vector
#print axioms C135_vector_shown
#print axioms C135_finding_bytes
#print axioms C135_finding_strings
#print axioms C135_error_texts
#print axioms C135_append
#print axioms C135_finding_append_after
#print axioms C135_finding_copy
#print axioms C135_set_flag
#print axioms C135_unterminated

end Verif.Props.OptShow
