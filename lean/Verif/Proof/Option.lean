import Verif.Proof.Atoi
import Verif.Proof.Config
import Verif.Spec.Option
import Verif.Props.Numeral

set_option linter.unusedSimpArgs false
set_option maxRecDepth 8000

namespace Verif.Opt

open Verif.Spec.Numeral Verif.Spec.Opt
open Verif.Config (mapFind mapInsert mapFind_insert)
open Verif.Props.Numeral (signedTypes signed_valid)

/-! ### values -/

/-- The types `convertInt` is instantiated for. -/
inductive IntTy.Valid : IntTy → Bool → Prop
  | s (ty : Atoi.SInt) (W : Nat) (h : (ty, W) ∈ signedTypes) : IntTy.Valid (.s ty) true
  | u (ty : Atoi.UInt) (h : ty ∈ [Atoi.uint8, Atoi.uint16, Atoi.uint32, Atoi.uint64]) : IntTy.Valid (.u ty) false

theorem valid_range {ty : IntTy} {signed : Bool} (h : ty.Valid signed) :
    ty.lo ≤ 0 ∧ 0 < ty.hi ∧ (ty.hi.toNat + 1) % 16 = 0 ∧ (signed = true → ty.lo < 0) ∧ (signed = false → ty.lo = 0) := by
  cases h with
  | s ty W h =>
    simp only [signedTypes, List.mem_cons, List.not_mem_nil, or_false, Prod.mk.injEq] at h
    rcases h with ⟨rfl, _⟩ | ⟨rfl, _⟩ | ⟨rfl, _⟩ | ⟨rfl, _⟩ <;> decide
  | u ty h =>
    simp only [List.mem_cons, List.not_mem_nil, or_false] at h
    rcases h with rfl | rfl | rfl | rfl <;> decide

theorem parseInt_numeral (W : Nat) (s : List UInt8) (hW : 0 < W) :
    parseInt W (W - 1) s = (numeral true s).bind fun v => if -(W : Int) ≤ v ∧ v ≤ (W : Int) - 1 then some v else none := by
  rw [parseInt.eq_def, numeral]
  split
  · rename_i t
    rw [if_pos ⟨rfl, rfl⟩, List.tail_cons]
    by_cases ht : t = []
    · simp [ht, parseNat]
    · rw [parseNat, if_neg ht, if_neg ht]
      cases value? 10 t with
      | none => rfl
      | some v =>
        simp only [Option.map_some, Option.bind_some]
        by_cases h : v ≤ W
        · rw [if_pos h, if_pos (by omega)]; rfl
        · rw [if_neg h, if_neg (by omega)]; rfl
  · rename_i hn
    rw [if_neg (by
      rintro ⟨_, h⟩
      cases s with
      | nil => cases h
      | cons c s => simp only [List.head?_cons, Option.some.injEq] at h; exact hn s (by rw [h]))]
    by_cases ht : s = []
    · simp [ht, parseNat]
    · rw [parseNat, if_neg ht, if_neg ht]
      cases value? 10 s with
      | none => rfl
      | some v =>
        simp only [Option.map_some, Option.bind_some]
        by_cases h : v ≤ W - 1
        · rw [if_pos h, if_pos (by omega)]; rfl
        · rw [if_neg h, if_neg (by omega)]; rfl

theorem parseNat_numeral (hi : Nat) (s : List UInt8) :
    (parseNat 10 hi s).map (fun v : Nat => (v : Int)) = (numeral false s).bind fun v => if 0 ≤ v ∧ v ≤ (hi : Int) then some v else none := by
  rw [numeral, if_neg (by simp)]
  by_cases ht : s = []
  · simp [ht, parseNat]
  · rw [parseNat, if_neg ht, if_neg ht]
    cases value? 10 s with
    | none => rfl
    | some v =>
      simp only [Option.map_some, Option.bind_some]
      by_cases h : v ≤ hi
      · rw [if_pos h, if_pos (by omega)]; rfl
      · rw [if_neg h, if_neg (by omega)]; rfl

/-- In range or nothing. -/
def clip (lo hi : Int) (v : _root_.Option Int) : _root_.Option Int := v.bind fun v => if lo ≤ v ∧ v ≤ hi then some v else none

/-- The text starts with the minimum of the type and goes on. -/
def Bad (ty : IntTy) (b : List UInt8) : Prop := ∃ t W, ty = .s t ∧ (t, W) ∈ signedTypes ∧ MinThenMore W b

theorem take_noNul {mem : List UInt8} {len : Nat} {s e : List UInt8} (hmem : mem = s ++ e) (hs : 0 ∉ s) (hl : len ≤ s.length) :
    upToNul (mem.take len) = s.take len := by
  subst hmem
  rw [List.take_append_of_le_length hl]
  have := Atoi.upToNul_append (r := []) (d := s.take len) (fun c hc e => hs (e ▸ List.mem_of_mem_take hc))
  simpa [upToNul] using this

theorem atoi_spec {ty : IntTy} {signed : Bool} (hv : ty.Valid signed) (s e : List UInt8) (hs : 0 ∉ s) (len : Nat) (hl : len ≤ s.length) :
    (¬ Bad ty (s.take len) → ty.atoi (s ++ e) len = .ok (clip ty.lo ty.hi (numeral signed (s.take len)))) ∧
    (Bad ty (s.take len) → ty.atoi (s ++ e) len = .ok (some ty.lo) ∧ clip ty.lo ty.hi (numeral signed (s.take len)) = none ∧ signed = true) := by
  have hu := take_noNul (mem := s ++ e) rfl hs hl
  cases hv with
  | s t W h =>
    have hval := signed_valid h
    have hc := Atoi.convertToInt_spec t W hval true (s ++ e) len (by simp; omega)
    rw [hu] at hc
    have hW : 0 < W ∧ t.min = -(W : Int) ∧ t.hi = (W : Int) - 1 := by
      simp only [signedTypes, List.mem_cons, List.not_mem_nil, or_false, Prod.mk.injEq] at h
      rcases h with ⟨rfl, rfl⟩ | ⟨rfl, rfl⟩ | ⟨rfl, rfl⟩ | ⟨rfl, rfl⟩ <;> decide
    have hclip : clip (IntTy.s t).lo (IntTy.s t).hi (numeral true (s.take len)) = parseInt W (W - 1) (s.take len) := by
      rw [parseInt_numeral W _ hW.1]
      simp only [clip, IntTy.lo, IntTy.hi, hW.2.1, hW.2.2]
    have hbad : Bad (.s t) (s.take len) ↔ MinThenMore W (s.take len) := by
      constructor
      · rintro ⟨t', W', e1, h1, h2⟩
        cases e1
        have : W' = W := by
          simp only [signedTypes, List.mem_cons, List.not_mem_nil, or_false, Prod.mk.injEq] at h h1
          rcases h with ⟨rfl, rfl⟩ | ⟨rfl, rfl⟩ | ⟨rfl, rfl⟩ | ⟨rfl, rfl⟩ <;> rcases h1 with ⟨h3, rfl⟩ | ⟨h3, rfl⟩ | ⟨h3, rfl⟩ | ⟨h3, rfl⟩ <;> first | rfl | cases h3
        exact this ▸ h2
      · exact fun h2 => ⟨t, W, rfl, h, h2⟩
    rw [hbad, hclip]
    refine ⟨fun hn => ?_, fun hb => ?_⟩
    · show Atoi.convertToInt t true _ _ = _
      rw [hc.2 hn, Atoi.report.eq_def]
      cases parseInt W (W - 1) (s.take len) <;> rfl
    · refine ⟨hc.1 hb, ?_, rfl⟩
      have := (Verif.Props.Numeral.C05_min_then_more_accepted t W h true (s ++ e) len (by simp; omega) (by rw [hu]; exact hb)).2
      rwa [hu] at this
  | u t h =>
    have hval : t.Valid := by
      simp only [List.mem_cons, List.not_mem_nil, or_false] at h
      rcases h with rfl | rfl | rfl | rfl <;> decide
    have hc := Atoi.convertToUint_spec t hval true (s ++ e) len (by simp; omega)
    rw [hu] at hc
    refine ⟨fun _ => ?_, ?_⟩
    · simp only [IntTy.atoi, hc]
      have := parseNat_numeral t.hi (s.take len)
      show _ = Res.ok ((numeral false (s.take len)).bind fun v => if 0 ≤ v ∧ v ≤ (t.hi : Int) then some v else none)
      rw [← this]
      cases parseNat 10 t.hi (s.take len) <;> rfl
    · rintro ⟨_, _, e1, _⟩
      cases e1

theorem tdiv_lo (lo y : Int) (f : Nat) (hlo : lo ≤ 0) (hf : 0 < f) : lo.tdiv f ≤ y ↔ lo ≤ y * f := by
  obtain ⟨L, rfl⟩ : ∃ L : Nat, lo = -(L : Int) := ⟨(-lo).toNat, by omega⟩
  rw [Int.neg_tdiv]
  have h1 : ((L : Int).tdiv f) = ((L / f : Nat) : Int) := rfl
  rw [h1]
  have h2 : (-y) * f ≤ (L : Int) ↔ -y ≤ (L : Int) / f := (Int.le_ediv_iff_mul_le (by omega)).symm
  rw [Int.neg_mul] at h2
  have h3 : ((L / f : Nat) : Int) = (L : Int) / f := by simp
  rw [h3]
  omega

theorem tdiv_hi (hi y : Int) (f : Nat) (hhi : 0 ≤ hi) (hf : 0 < f) : y ≤ hi.tdiv f ↔ y * f ≤ hi := by
  rw [Int.tdiv_eq_ediv_of_nonneg hhi]
  exact Int.le_ediv_iff_mul_le (by omega)

theorem scale_spec (ty : IntTy) (x y : Int) (f : Nat) (hlo : ty.lo ≤ 0) (hhi : 0 ≤ ty.hi) (hf : 1 < f) :
    scale ty x y f = .ok (if ty.lo ≤ y * f ∧ y * f ≤ ty.hi then (true, y * f) else (false, x)) := by
  rw [scale, if_pos hf]
  simp only [tdiv_lo _ _ _ hlo (show 0 < f by omega), tdiv_hi _ _ _ hhi (show 0 < f by omega)]
  split <;> rfl

theorem scanHex_cap (hi x : Nat) (d e : List UInt8) (hd : 0 ∉ d) (left : Nat) (hl : d.length < left) :
    Atoi.scanHex hi x left (d ++ 0 :: e) = Atoi.scanHex hi x d.length (d ++ 0 :: e) := by
  induction d generalizing x left with
  | nil =>
    obtain ⟨l, rfl⟩ : ∃ l, left = l + 1 := ⟨left - 1, by simp at hl; omega⟩
    simp [Atoi.scanHex]
  | cons c d ih =>
    obtain ⟨l, rfl⟩ : ∃ l, left = l + 1 := ⟨left - 1, by simp at hl; omega⟩
    simp only [List.length_cons, List.cons_append, Atoi.scanHex]
    simp only [List.mem_cons, not_or] at hd
    split
    · rfl
    · split
      · rfl
      · split
        · rfl
        · split
          · rfl
          · exact ih _ hd.2 l (by simp at hl; omega)

theorem hextoi_spec {ty : IntTy} {signed : Bool} (hv : ty.Valid signed) (d e : List UInt8) (hd : 0 ∉ d) (hl : d.length < 2 ^ 64 - 1) :
    ty.hextoi (d ++ 0 :: e) = .ok (parseNat 16 ty.hi.toNat d) := by
  have hc := Atoi.convertHexToInt_spec ty.hi.toNat (valid_range hv).2.2.1 true (d ++ 0 :: e) d.length (by simp)
  rw [take_noNul (mem := d ++ 0 :: e) rfl hd (Nat.le_refl _), List.take_length] at hc
  have hr : Atoi.report true (parseNat 16 ty.hi.toNat d) = .ok (parseNat 16 ty.hi.toNat d) := by
    cases parseNat 16 ty.hi.toNat d <;> rfl
  rw [hr] at hc
  rw [IntTy.hextoi, ← hc]
  cases d with
  | nil => rfl
  | cons c d =>
    have h0 : c ≠ 0 := fun h => hd (by simp [h])
    simp only [Atoi.convertHexToInt, if_neg (show ¬ (2 ^ 64 - 1 = 0) by decide), List.length_cons, if_neg (show ¬ (d.length + 1 = 0) by omega), List.cons_append,
      at?_eq_ok (show 0 < (c :: (d ++ 0 :: e)).length by simp), List.getElem_cons_zero, Res.ok_bind, if_neg h0]
    have := scanHex_cap ty.hi.toNat 0 (c :: d) e hd (2 ^ 64 - 1) hl
    simp only [List.cons_append, List.length_cons] at this
    rw [this]
    rfl

theorem strlen_eq (s e : List UInt8) (hs : 0 ∉ s) : strlen (s ++ 0 :: e) = .ok s.length := by
  induction s with
  | nil => simp [strlen]
  | cons c s ih =>
    simp only [List.mem_cons, not_or] at hs
    simp only [List.cons_append, strlen, if_neg (fun h => hs.1 (Eq.symm h)), ih hs.2, Res.ok_bind, Res.pure_eq, List.length_cons]

theorem factorOf_eq (c : UInt8) : (unit c = none ∧ factorOf c = 1) ∨ (∃ f, unit c = some f ∧ factorOf c = f ∧ 1 < f) := by
  rw [factorOf]
  by_cases h : c = 107
  · subst h; exact .inr ⟨_, rfl, rfl, by decide⟩
  rw [if_neg h]
  by_cases h2 : c = 109
  · subst h2; exact .inr ⟨_, rfl, rfl, by decide⟩
  rw [if_neg h2]
  by_cases h3 : c = 103
  · subst h3; exact .inr ⟨_, rfl, rfl, by decide⟩
  rw [if_neg h3]
  by_cases h4 : c = 75
  · subst h4; exact .inr ⟨_, rfl, rfl, by decide⟩
  rw [if_neg h4]
  by_cases h5 : c = 77
  · subst h5; exact .inr ⟨_, rfl, rfl, by decide⟩
  rw [if_neg h5]
  by_cases h6 : c = 71
  · subst h6; exact .inr ⟨_, rfl, rfl, by decide⟩
  rw [if_neg h6]
  left
  refine ⟨?_, rfl⟩
  rw [unit]
  all_goals assumption

/-- What `suffix` finds. -/
theorem suffix_spec (s e : List UInt8) :
    (∃ f, s.length > 1 ∧ s.getLast?.bind unit = some f ∧ 1 < f ∧ suffix (s ++ 0 :: e) s.length = .ok (f, s.length - 1)) ∨
    ((s.length ≤ 1 ∨ s.getLast?.bind unit = none) ∧ suffix (s ++ 0 :: e) s.length = .ok (1, s.length)) := by
  by_cases hl : s.length > 1
  · have hlast : s.getLast? = some s[s.length - 1] := by
      rw [List.getLast?_eq_getElem?, List.getElem?_eq_getElem]
    have hat : at? (s ++ 0 :: e) (s.length - 1) = .ok s[s.length - 1] := by
      rw [at?_eq_ok (by simp; omega), List.getElem_append_left]
    rw [suffix, if_pos hl, hat, hlast]
    simp only [Res.ok_bind, Res.pure_eq, Option.bind_some]
    rcases factorOf_eq s[s.length - 1] with ⟨h1, h2⟩ | ⟨f, h1, h2, h3⟩
    · right
      rw [h1, h2]
      exact ⟨.inr rfl, rfl⟩
    · left
      refine ⟨f, hl, h1, h3, ?_⟩
      rw [h2, if_pos h3]
  · right
    rw [suffix, if_neg hl]
    exact ⟨.inl (by omega), rfl⟩

theorem isHex_spec (s e : List UInt8) : isHex (s ++ 0 :: e) = .ok (decide (s.take 2 = [48, 120])) := by
  rw [isHex]
  match s with
  | [] => rfl
  | [c] =>
    simp only [List.cons_append, List.nil_append, at?_eq_ok (show 0 < (c :: 0 :: e).length by simp), List.getElem_cons_zero, Res.ok_bind,
      at?_eq_ok (show 1 < (c :: 0 :: e).length by simp), List.getElem_cons_succ]
    rw [decide_eq_false (by simp)]
    split <;> rfl
  | c :: d :: s =>
    simp only [List.cons_append, at?_eq_ok (show 0 < (c :: d :: (s ++ 0 :: e)).length by simp), List.getElem_cons_zero, Res.ok_bind,
      at?_eq_ok (show 1 < (c :: d :: (s ++ 0 :: e)).length by simp), List.getElem_cons_succ, Res.pure_eq]
    by_cases h : c = 48
    · subst h
      rw [if_pos rfl]
      simp
      rfl
    · rw [if_neg h]
      simp [h]

theorem convertInt_spec {ty : IntTy} {signed : Bool} (hv : ty.Valid signed) (x : Int) (s e : List UInt8) (hs : 0 ∉ s) (hl : s.length < 2 ^ 64 - 1)
    (hb : s.getLast?.bind unit = none → ¬ Bad ty s) :
    ∃ x', convertInt ty x (s ++ 0 :: e) = .ok ((optValue signed ty.lo ty.hi s).isSome, x') ∧
      (∀ v, optValue signed ty.lo ty.hi s = some v → x' = v) ∧
      (optValue signed ty.lo ty.hi s = none → x' = x ∨ (s.take 2 = [48, 120] ∧ x' = 0)) := by
  obtain ⟨hlo, hhi, _, _, _⟩ := valid_range hv
  rw [convertInt, isHex_spec]
  by_cases hx : s.take 2 = [48, 120]
  · obtain ⟨t, rfl⟩ : ∃ t, s = 48 :: 120 :: t := ⟨s.drop 2, by rw [← List.take_append_drop 2 s, hx]; simp⟩
    simp only [Res.ok_bind, decide_eq_true hx, if_true, List.cons_append, List.drop_succ_cons, List.drop_zero]
    rw [hextoi_spec hv t e (fun h => hs (by simp [h])) (by simp at hl; omega), Res.ok_bind]
    have ho : optValue signed ty.lo ty.hi (48 :: 120 :: t) = (parseNat 16 ty.hi.toNat t).map fun v : Nat => (v : Int) := by
      rw [optValue, if_pos hx, parseNat]
      simp only [List.drop_succ_cons, List.drop_zero]
      split
      · rfl
      · cases value? 16 t with
        | none => rfl
        | some v =>
          simp only [Option.bind_some]
          by_cases h : v ≤ ty.hi.toNat
          · rw [if_pos h, if_pos (by omega)]; rfl
          · rw [if_neg h, if_neg (by omega)]; rfl
    rw [ho]
    cases parseNat 16 ty.hi.toNat t with
    | none => exact ⟨0, rfl, by simp, fun _ => .inr ⟨by simp, rfl⟩⟩
    | some v => exact ⟨v, rfl, by simp, by simp⟩
  · have ho : optValue signed ty.lo ty.hi s = clip ty.lo ty.hi (meant signed s) := by
      rw [optValue, if_neg hx]; rfl
    rw [decide_eq_false hx, ho]
    simp only [Res.ok_bind, Bool.false_eq_true, if_false]
    rw [strlen_eq s e hs, Res.ok_bind]
    rcases suffix_spec s e with ⟨f, h1, h2, h3, h4⟩ | ⟨h1, h4⟩
    · rw [h4]
      simp only [Res.ok_bind]
      obtain ⟨ha, hb'⟩ := atoi_spec hv s (0 :: e) hs (s.length - 1) (by omega)
      have hd : s.dropLast = s.take (s.length - 1) := List.dropLast_eq_take
      have hmeant : meant signed s = (numeral signed (s.take (s.length - 1))).map (· * (f : Int)) := by
        rw [meant, h2, ← hd]
        simp only [if_pos h1]
      rw [hmeant]
      by_cases hbad : Bad ty (s.take (s.length - 1))
      · obtain ⟨h5, h6, h7⟩ := hb' hbad
        rw [h5, Res.ok_bind]
        have h8 : clip ty.lo ty.hi ((numeral signed (s.take (s.length - 1))).map (· * (f : Int))) = none := by
          cases hn : numeral signed (s.take (s.length - 1)) with
          | none => rfl
          | some v =>
            rw [hn] at h6
            simp only [clip, Option.bind_some, Option.map_some] at h6 ⊢
            split at h6
            · cases h6
            · rename_i h9
              rw [if_neg]
              rintro ⟨h10, h11⟩
              apply h9
              have hf : (1 : Int) ≤ f := by omega
              by_cases hv0 : 0 ≤ v
              · have := Int.mul_le_mul_of_nonneg_left hf hv0
                omega
              · have := Int.mul_le_mul_of_nonpos_left (a := v) (by omega) hf
                omega
        rw [h8]
        simp only
        rw [scale_spec ty x _ f hlo (by omega) h3, if_neg]
        · exact ⟨x, rfl, by simp, fun _ => .inl rfl⟩
        · rintro ⟨h9, _⟩
          have hneg : ty.lo < 0 := (valid_range hv).2.2.2.1 h7
          have := Int.mul_le_mul_of_nonpos_left (a := ty.lo) (b := (f : Int)) (c := 2) (by omega) (by omega)
          omega
      · rw [ha hbad, Res.ok_bind]
        cases hn : numeral signed (s.take (s.length - 1)) with
        | none => exact ⟨x, rfl, by simp [clip], fun _ => .inl rfl⟩
        | some v =>
          simp only [clip, Option.bind_some, Option.map_some]
          by_cases hr : ty.lo ≤ v ∧ v ≤ ty.hi
          · rw [if_pos hr]
            simp only
            rw [scale_spec ty x _ f hlo (by omega) h3]
            by_cases hr2 : ty.lo ≤ v * f ∧ v * f ≤ ty.hi
            · rw [if_pos hr2, if_pos hr2]
              exact ⟨_, rfl, by simp, by simp⟩
            · rw [if_neg hr2, if_neg hr2]
              exact ⟨x, rfl, by simp, fun _ => .inl rfl⟩
          · rw [if_neg hr, if_neg]
            · exact ⟨x, rfl, by simp, fun _ => .inl rfl⟩
            · rintro ⟨h10, h11⟩
              apply hr
              have hf : (1 : Int) ≤ f := by omega
              by_cases hv0 : 0 ≤ v
              · have := Int.mul_le_mul_of_nonneg_left hf hv0
                omega
              · have := Int.mul_le_mul_of_nonpos_left (a := v) (by omega) hf
                omega
    · rw [h4]
      simp only [Res.ok_bind]
      obtain ⟨ha, _⟩ := atoi_spec hv s (0 :: e) hs s.length (Nat.le_refl _)
      rw [List.take_length] at ha
      have hne : ¬ Bad ty s := by
        rcases h1 with h1 | h1
        · rintro ⟨t, W, _, _, k, d, c, r, rfl, _⟩
          simp at h1
        · exact hb h1
      have hmeant : meant signed s = numeral signed s := by
        rw [meant]
        cases h2 : s.getLast?.bind unit with
        | none => rfl
        | some f =>
          have h1 : s.length ≤ 1 := by
            rcases h1 with h1 | h1
            · exact h1
            · rw [h1] at h2; cases h2
          simp only
          rw [if_neg (by omega)]
          match s, h1 with
          | [], _ => cases h2
          | [c], _ =>
            simp only [List.getLast?_singleton, Option.bind_some] at h2
            rw [unit.eq_def] at h2
            split at h2
            all_goals first | cases h2 | skip
            all_goals cases signed <;> decide
      rw [ha hne, hmeant, Res.ok_bind]
      cases hn : clip ty.lo ty.hi (numeral signed s) with
      | none => exact ⟨x, rfl, by simp, fun _ => .inl rfl⟩
      | some v =>
        simp only [scale]
        exact ⟨v, rfl, by simp, by simp⟩

/-! ### the command line -/

theorem isOpt_iff (s : List UInt8) : isOpt s = true ↔ OptText s := by
  rw [isOpt.eq_def]
  split
  · rename_i t
    cases t with
    | nil => simp [OptText]
    | cons c t =>
      constructor
      · intro h
        refine ⟨_, rfl, ?_⟩
        intro c' hc'
        simp only [List.head?_cons, Option.some.injEq] at hc'
        subst hc'
        have h2 : ¬ (48 ≤ c ∧ c ≤ 57) := by
          intro h3
          have h4 : (48 ≤ (c :: t).headD 0 ∧ (c :: t).headD 0 ≤ 57) := h3
          simp only [decide_eq_true h4] at h
          cases h
        exact h2
      · rintro ⟨t', h1, h2⟩
        simp only [List.cons.injEq, true_and] at h1
        subst h1
        have := h2 c rfl
        have h4 : ¬ (48 ≤ (c :: t).headD 0 ∧ (c :: t).headD 0 ≤ 57) := this
        simp only [decide_eq_false h4]
        rfl
  · rename_i h
    simp only [Bool.false_eq_true, false_iff]
    rintro ⟨t, rfl, _⟩
    exact h t rfl

/-- The object agrees with the declarations `rs`, and its variables with the parts `done` of the command line. -/
structure Match {α : Type} (rs : List (Reg α)) (done : List Item) (o : Option α) : Prop where
  find : ∀ (n : List UInt8) (i : Nat), mapFind o.optMap n = some i ↔ ∃ d, (optsOf rs)[i]? = some d ∧ d.name = n
  optLen : o.infoVec.length = (optsOf rs).length
  opts : ∀ (i : Nat) (d : OptDecl α) (info : Info α), (optsOf rs)[i]? = some d → o.infoVec[i]? = some info →
    info.opt = d.name ∧ info.mode = d.mode ∧ info.isMust = d.must ∧ info.var.step = d.step ∧ OptResult d done info.var.st info.var.isSet
  paramLen : o.paramVec.length = (paramsOf rs).length
  params : ∀ (i : Nat) (d : ParamDecl α) (info : Info α), (paramsOf rs)[i]? = some d → o.paramVec[i]? = some info →
    info.isMust = d.must ∧ info.var.step = d.step ∧ ParamResult d i done info.var.st info.var.isSet
  mode : o.paramMode = .variable ↔ (restOf rs).isSome = true
  rest : ∀ d, restOf rs = some d → ∃ info, o.remains = some info ∧ info.isMust = false ∧ info.var.step = d.step ∧ RestResult d (paramsOf rs).length done info.var.st info.var.isSet
  count : restOf rs = none → (positionals done).length ≤ (paramsOf rs).length
  help : o.helpOpt = helpOf rs
  delims : o.delimiters = delimsOf rs
  noRest : restOf rs = none → o.remains = none

theorem feed_append {α : Type} (step : α → List UInt8 → Bool × α) (st : α) (a b : List (List UInt8)) :
    feed step st (a ++ b) = (feed step st a).bind fun st => feed step st b := by
  induction a generalizing st with
  | nil => rfl
  | cons x a ih =>
    simp only [List.cons_append, feed]
    split
    · exact ih _
    · rfl

theorem valuesOf_append (n : List UInt8) (a b : List Item) : valuesOf n (a ++ b) = valuesOf n a ++ valuesOf n b := by
  simp [valuesOf]

theorem positionals_append (a b : List Item) : positionals (a ++ b) = positionals a ++ positionals b := by
  simp [positionals]

theorem anyLoop_spec {α : Type} (v : Var α) (j : Nat) (args : List (List UInt8)) :
    ∃ vs rest, args = vs ++ rest ∧ (∀ x ∈ vs, ¬ OptText x) ∧ (∀ a, rest.head? = some a → OptText a) ∧
      match feed v.step v.st vs with
      | some st => anyLoop v j args = (true, { v with st := st, isSet := v.isSet || !vs.isEmpty }, j + vs.length, rest)
      | none => (anyLoop v j args).1 = false := by
  induction args generalizing v j with
  | nil => exact ⟨[], [], rfl, by simp, by simp, by simp [feed, anyLoop]⟩
  | cons a args ih =>
    by_cases ho : isOpt a = true
    · refine ⟨[], a :: args, rfl, by simp, ?_, ?_⟩
      · intro x hx
        simp only [List.head?_cons, Option.some.injEq] at hx
        exact hx ▸ (isOpt_iff a).mp ho
      · simp [feed, anyLoop, ho]
    · obtain ⟨vs, rest, h1, h2, h3, h4⟩ := ih (v.set a).2 (j + 1)
      refine ⟨a :: vs, rest, by rw [h1]; rfl, ?_, h3, ?_⟩
      · intro x hx
        rcases List.mem_cons.mp hx with rfl | hx
        · exact fun h => ho ((isOpt_iff _).mpr h)
        · exact h2 x hx
      · rw [anyLoop, if_neg ho]
        simp only [feed]
        by_cases hb : (v.step v.st a).1 = true
        · have hb' : (v.set a).1 = true := hb
          rw [if_pos hb]
          have hs : (v.set a).2.step = v.step := rfl
          have hst : (v.set a).2.st = (v.step v.st a).2 := rfl
          rw [hs, hst] at h4
          split at h4
          · rename_i st hf
            simp only [hb', if_true]
            rw [h4]
            simp [Var.set]
            omega
          · rename_i hf
            simp only [hb', if_true]
            exact h4
        · rw [if_neg hb]
          have hb' : (v.set a).1 = false := by simpa [Var.set] using hb
          simp [hb']

theorem paramLoop_spec {α : Type} (a : List UInt8) (ps : List (Info α)) (k : Nat)
    (h : ∀ i p, ps[i]? = some p → (p.var.isSet = true ↔ i < k)) :
    paramLoop a ps = (ps[k]?).map fun p => ((p.var.set a).1, ps.set k { p with var := (p.var.set a).2 }) := by
  induction ps generalizing k with
  | nil => simp [paramLoop]
  | cons p ps ih =>
    have h0 := h 0 p rfl
    cases k with
    | zero =>
      have : p.var.isSet = false := by
        cases hs : p.var.isSet
        · rfl
        · exact absurd (h0.mp hs) (by omega)
      simp [paramLoop, this]
    | succ k =>
      rw [paramLoop, h0.mpr (by omega)]
      rw [ih k (fun i q hq => by
        have := h (i + 1) q hq
        rw [this]; omega)]
      simp only [Bool.not_true, Bool.false_eq_true, if_false, List.getElem?_cons_succ, Option.map_map]
      cases ps[k]? <;> rfl

theorem modeIn_eq {α : Type} {rs : List (Reg α)} {done : List Item} {o : Option α} (m : Match rs done o) {n : List UInt8} {i : Nat}
    (h : mapFind o.optMap n = some i) : ∃ d info, (optsOf rs)[i]? = some d ∧ o.infoVec[i]? = some info ∧ d.name = n ∧ modeIn (optsOf rs) n = some info.mode := by
  obtain ⟨d, h1, h2⟩ := (m.find n i).mp h
  have hi : i < o.infoVec.length := by
    rw [m.optLen]
    exact (List.getElem?_eq_some_iff.mp h1).1
  refine ⟨d, o.infoVec[i], h1, by simp [hi], h2, ?_⟩
  have hm := (m.opts i d _ h1 (List.getElem?_eq_getElem hi)).2.1
  rw [hm, modeIn]
  cases hf : (optsOf rs).find? fun d => d.name = n with
  | none =>
    have := List.find?_eq_none.mp hf d (List.mem_of_getElem? h1)
    simp [h2] at this
  | some d' =>
    have hmem := List.mem_of_find?_eq_some hf
    have hn : d'.name = n := by simpa using List.find?_some hf
    obtain ⟨j, hj⟩ := List.getElem?_of_mem hmem
    have := (m.find n j).mpr ⟨d', hj, hn⟩
    rw [h] at this
    injection this with this
    subst this
    rw [h1] at hj
    injection hj with hj
    rw [hj]; rfl

theorem modeIn_none {α : Type} {rs : List (Reg α)} {done : List Item} {o : Option α} (m : Match rs done o) {n : List UInt8}
    (h : mapFind o.optMap n = none) : modeIn (optsOf rs) n = none := by
  rw [modeIn, Option.map_eq_none_iff, List.find?_eq_none]
  intro d hd hn
  obtain ⟨j, hj⟩ := List.getElem?_of_mem hd
  have := (m.find n j).mpr ⟨d, hj, by simpa using hn⟩
  rw [h] at this
  cases this

open Verif.Spec.Opt (Accepts)

theorem _root_.Verif.Spec.Opt.Accepts.left {α : Type} {rs : List (Reg α)} {a b : List Item} (h : Accepts rs (a ++ b)) : Accepts rs a where
  opts d hd := by
    have := h.opts d hd
    rw [valuesOf_append, feed_append] at this
    cases hf : feed d.step d.st (valuesOf d.name a) with
    | none => rw [hf] at this; cases this
    | some _ => rfl
  params i d v hd hv := h.params i d v hd (by
    rw [positionals_append, List.getElem?_append_left (List.getElem?_eq_some_iff.mp hv).1, hv])
  count hr := by
    have := h.count hr
    rw [positionals_append, List.length_append] at this
    omega

/-- Values for the option number `i`. -/
theorem step_opt {α : Type} {rs : List (Reg α)} {done : List Item} {o : Option α} (m : Match rs done o) {n : List UInt8} {i : Nat} {info : Info α}
    (hf : mapFind o.optMap n = some i) (hi : o.infoVec[i]? = some info) (it : Item) (vs : List (List UInt8)) (hvs : vs ≠ [])
    (hit : ∀ k, valuesOf k [it] = if n = k then vs else []) (hp : positionals [it] = []) (st : α) (hst : feed info.var.step info.var.st vs = some st) (b : Bool) (hb : b = true) :
    Match rs (done ++ [it]) (o.putVar i info { info.var with st := st, isSet := b }) := by
  subst hb
  have hil : i < o.infoVec.length := (List.getElem?_eq_some_iff.mp hi).1
  constructor
  · exact m.find
  · rw [← m.optLen]; simp [Option.putVar]
  · intro j d info' hd hinfo'
    simp only [Option.putVar, List.getElem?_set] at hinfo'
    split at hinfo'
    · rename_i e
      subst e
      injection hinfo' with hinfo'
      subst hinfo'
      obtain ⟨h1, h2, h3, h4, h5, h6⟩ := m.opts i d info hd hi
      obtain ⟨d', hd', hn⟩ := (m.find n i).mp hf
      rw [hd] at hd'
      injection hd' with hd'
      subst hd'
      refine ⟨h1, h2, h3, h4, ?_, ?_⟩
      · rw [valuesOf_append, feed_append, h5, hit, if_pos hn.symm, Option.bind_some, ← h4]
        exact hst
      · rw [valuesOf_append, hit, if_pos hn.symm]
        simp [hvs]
    · rename_i e
      obtain ⟨h1, h2, h3, h4, h5, h6⟩ := m.opts j d info' hd hinfo'
      have hn : n ≠ d.name := by
        intro hn
        have := (m.find n j).mpr ⟨d, hd, hn.symm⟩
        rw [hf] at this
        injection this with this
        exact e this
      refine ⟨h1, h2, h3, h4, ?_⟩
      rw [OptResult, valuesOf_append, hit, if_neg hn, List.append_nil]
      exact ⟨h5, h6⟩
  · exact m.paramLen
  · intro j d info' hd hinfo'
    have := m.params j d info' hd hinfo'
    rw [ParamResult, positionals_append, hp, List.append_nil]
    exact this
  · exact m.mode
  · intro d hd
    obtain ⟨info', h1, h2, h3, h4⟩ := m.rest d hd
    refine ⟨info', h1, h2, h3, ?_⟩
    rw [RestResult, positionals_append, hp, List.append_nil]
    exact h4
  · intro hr
    rw [positionals_append, hp, List.append_nil]
    exact m.count hr
  · exact m.help
  · exact m.delims
  · exact m.noRest

theorem valuesOf_pos (k v : List UInt8) : valuesOf k [.pos v] = [] := rfl

/-- A positional value. -/
theorem step_pos {α : Type} {rs : List (Reg α)} {done : List Item} {o : Option α} (m : Match rs done o) (v : List UInt8) :
    ∃ b o', takeParam o v = .ok (b, o') ∧ (b = true → Match rs (done ++ [.pos v]) o') ∧ (Accepts rs (done ++ [.pos v]) → b = true) := by
  have hpos : positionals (done ++ [.pos v]) = positionals done ++ [v] := by rw [positionals_append]; rfl
  have hval : ∀ n, valuesOf n (done ++ [.pos v]) = valuesOf n done := by
    intro n; rw [valuesOf_append, valuesOf_pos, List.append_nil]
  have hk : ∀ i p, o.paramVec[i]? = some p → (p.var.isSet = true ↔ i < (positionals done).length) := by
    intro i p hp
    have hi : i < (paramsOf rs).length := by rw [← m.paramLen]; exact (List.getElem?_eq_some_iff.mp hp).1
    exact (m.params i _ p (List.getElem?_eq_getElem hi) hp).2.2.2
  have hopts : ∀ o' : Option α, o'.infoVec = o.infoVec → ∀ (i : Nat) (d : OptDecl α) (info : Info α), (optsOf rs)[i]? = some d → o'.infoVec[i]? = some info →
      info.opt = d.name ∧ info.mode = d.mode ∧ info.isMust = d.must ∧ info.var.step = d.step ∧ OptResult d (done ++ [.pos v]) info.var.st info.var.isSet := by
    intro o' he i d info hd hi
    rw [OptResult, hval]
    rw [he] at hi
    exact m.opts i d info hd hi
  rw [takeParam, paramLoop_spec v o.paramVec _ hk]
  cases hp : o.paramVec[(positionals done).length]? with
  | some p =>
    have hlt : (positionals done).length < o.paramVec.length := (List.getElem?_eq_some_iff.mp hp).1
    have hlt' : (positionals done).length < (paramsOf rs).length := by rw [← m.paramLen]; exact hlt
    obtain ⟨d0, hd0⟩ : ∃ d, (paramsOf rs)[(positionals done).length]? = some d := ⟨_, List.getElem?_eq_getElem hlt'⟩
    obtain ⟨q1, q2, q3, q4⟩ := m.params _ d0 p hd0 hp
    rw [List.getElem?_eq_none (Nat.le_refl _)] at q3
    simp only [Option.toList_none, feed, Option.some.injEq] at q3
    simp only [Option.map_some]
    refine ⟨_, _, rfl, ?_, ?_⟩
    · intro hb
      refine ⟨m.find, m.optLen, hopts _ rfl, by simpa using m.paramLen, ?_, m.mode, ?_, ?_, m.help, m.delims, m.noRest⟩
      · intro i d info hd hi
        simp only [List.getElem?_set] at hi
        rw [ParamResult, hpos]
        split at hi
        · rename_i e
          subst e
          injection hi with hi
          subst hi
          rw [hd0] at hd
          injection hd with hd
          subst hd
          refine ⟨q1, q2, ?_, ?_⟩
          · have e1 : (positionals done ++ [v])[(positionals done).length]? = some v := by simp
            rw [e1]
            simp only [Option.toList_some, feed]
            rw [q3, ← q2, if_pos (by simpa [Var.set] using hb)]
            rfl
          · simp [Var.set]
        · rename_i e
          obtain ⟨r1, r2, r3, r4⟩ := m.params i d info hd hi
          refine ⟨r1, r2, ?_, ?_⟩
          · by_cases hlt2 : i < (positionals done).length
            · rw [List.getElem?_append_left hlt2]; exact r3
            · rw [List.getElem?_eq_none (by omega)] at r3
              rw [List.getElem?_eq_none (by simp; omega)]; exact r3
          · rw [r4]; simp; omega
      · intro d hd
        obtain ⟨info, r1, r2, r3, r4⟩ := m.rest d hd
        refine ⟨info, r1, r2, r3, ?_⟩
        rw [RestResult] at r4 ⊢
        refine ⟨?_, by rw [r4.2, hpos]; simp; omega⟩
        rw [r4.1, hpos, List.drop_eq_nil_of_le (by omega), List.drop_eq_nil_of_le (by simp; omega)]
      · intro hr
        rw [hpos]; simp; omega
    · intro ha
      have := ha.params _ d0 v hd0 (by rw [hpos]; simp)
      show (p.var.step p.var.st v).1 = true
      rw [q2, ← q3]
      exact this
  | none =>
    simp only [Option.map_none]
    have hge : (paramsOf rs).length ≤ (positionals done).length := by
      rw [← m.paramLen]; exact List.getElem?_eq_none_iff.mp hp
    by_cases hm : o.paramMode = .variable
    · rw [if_pos hm]
      obtain ⟨d, hd⟩ := Option.isSome_iff_exists.mp (m.mode.mp hm)
      obtain ⟨info, r1, r2, r3, r4⟩ := m.rest d hd
      rw [r1]
      refine ⟨_, _, rfl, fun _ => ?_, fun _ => rfl⟩
      refine ⟨m.find, m.optLen, hopts _ rfl, m.paramLen, ?_, m.mode, ?_, ?_, m.help, m.delims, fun hr => by rw [hr] at hd; cases hd⟩
      · intro i d info hd hi
        obtain ⟨r1, r2, r3, r4⟩ := m.params i d info hd hi
        have hi' : i < (paramsOf rs).length := (List.getElem?_eq_some_iff.mp hd).1
        rw [ParamResult, hpos]
        refine ⟨r1, r2, ?_, ?_⟩
        · rw [List.getElem?_append_left (by omega)]; exact r3
        · rw [r4]; simp; omega
      · intro d' hd'
        rw [hd] at hd'
        injection hd' with hd'
        subst hd'
        refine ⟨_, rfl, r2, r3, ?_⟩
        rw [RestResult, hpos, List.drop_append_of_le_length hge, List.foldl_append, ← r4.1]
        refine ⟨by simp [Var.set, r3], ?_⟩
        simp [Var.set]; omega
      · intro hr
        rw [hr] at hd; cases hd
    · rw [if_neg hm]
      refine ⟨_, _, rfl, by simp, ?_⟩
      intro ha
      have hr : restOf rs = none := by
        cases hr : restOf rs with
        | none => rfl
        | some d => exact absurd (m.mode.mpr (by rw [hr]; rfl)) hm
      have := ha.count hr
      rw [hpos] at this
      simp at this
      omega

/-- The object after the loop, apart from the delimiter. -/
def withDelim {α : Type} (o : Option α) (argc : Int) (r : _root_.Option (List (List UInt8))) (after : _root_.Option (List (List UInt8))) : Prop :=
  (∀ t, r = some t → o.nextDelimiter = argc - t.length ∧ o.remainsAfter = after.map (· ++ t)) ∧
  (r = none → o.nextDelimiter = argc ∧ o.remainsAfter = after)

theorem match_delim {α : Type} {rs : List (Reg α)} {done : List Item} {o : Option α} (m : Match rs done o) (n : Int) (a : _root_.Option (List (List UInt8))) :
    Match rs done { o with nextDelimiter := n, remainsAfter := a } :=
  ⟨m.find, m.optLen, m.opts, m.paramLen, m.params, m.mode, m.rest, m.count, m.help, m.delims, m.noRest⟩

theorem putVar_delim {α : Type} (o : Option α) (i : Nat) (info : Info α) (v : Var α) :
    (o.putVar i info v).nextDelimiter = o.nextDelimiter ∧ (o.putVar i info v).remainsAfter = o.remainsAfter := ⟨rfl, rfl⟩

theorem takeParam_delim {α : Type} {o o' : Option α} {v : List UInt8} {b : Bool} (h : takeParam o v = .ok (b, o')) :
    o'.nextDelimiter = o.nextDelimiter ∧ o'.remainsAfter = o.remainsAfter := by
  rw [takeParam] at h
  split at h
  · simp only [Res.ok.injEq, Prod.mk.injEq] at h; obtain ⟨_, rfl⟩ := h; exact ⟨rfl, rfl⟩
  · split at h
    · split at h
      · simp only [Res.ok.injEq, Prod.mk.injEq] at h; obtain ⟨_, rfl⟩ := h; exact ⟨rfl, rfl⟩
      · cases h
    · simp only [Res.ok.injEq, Prod.mk.injEq] at h; obtain ⟨_, rfl⟩ := h; exact ⟨rfl, rfl⟩

theorem split_unique {vs vs' rest rest' : List (List UInt8)} (h : vs ++ rest = vs' ++ rest') (h1 : ∀ v ∈ vs, ¬ OptText v) (h1' : ∀ v ∈ vs', ¬ OptText v)
    (h2 : ∀ a, rest.head? = some a → OptText a) (h2' : ∀ a, rest'.head? = some a → OptText a) : vs = vs' ∧ rest = rest' := by
  induction vs generalizing vs' with
  | nil =>
    cases vs' with
    | nil => exact ⟨rfl, h⟩
    | cons v vs' =>
      simp only [List.nil_append, List.cons_append] at h
      subst h
      exact absurd (h2 v rfl) (h1' v (by simp))
  | cons v vs ih =>
    cases vs' with
    | nil =>
      simp only [List.nil_append, List.cons_append] at h
      subst h
      exact absurd (h2' v rfl) (h1 v (by simp))
    | cons v' vs' =>
      simp only [List.cons_append, List.cons.injEq] at h
      obtain ⟨e1, e2⟩ := ih h.2 (fun x hx => h1 x (by simp [hx])) (fun x hx => h1' x (by simp [hx]))
      exact ⟨by rw [h.1, e1], e2⟩

theorem cmd_inv_opt {modeOf : List UInt8 → _root_.Option Mode} {help : List UInt8} {delims rest : List (List UInt8)} {items : List Item} {n : List UInt8}
    {r : _root_.Option (List (List UInt8))} (hc : Cmd modeOf help delims ((45 :: n) :: rest) items r) (hd : 45 :: n ∉ delims) (ho : OptText (45 :: n)) :
    n ≠ help ∧
    ((modeOf n = some .is0 ∧ ∃ items', items = .flag n :: items' ∧ Cmd modeOf help delims rest items' r) ∨
     (modeOf n = some .is1 ∧ ∃ v rest' items', rest = v :: rest' ∧ items = .one n v :: items' ∧ Cmd modeOf help delims rest' items' r) ∨
     (modeOf n = some .any ∧ ∃ vs rest' items', rest = vs ++ rest' ∧ vs ≠ [] ∧ (∀ v ∈ vs, ¬ OptText v) ∧ (∀ a, rest'.head? = some a → OptText a) ∧
        items = .many n vs :: items' ∧ Cmd modeOf help delims rest' items' r)) := by
  generalize hargs : (45 :: n) :: rest = args at hc
  cases hc with
  | nil => cases hargs
  | delim d rest' h' => simp only [List.cons.injEq] at hargs; rw [← hargs.1] at h'; exact absurd h' hd
  | flag n' _ items' _ _ _ hh hm h =>
    simp only [List.cons.injEq, true_and] at hargs
    obtain ⟨rfl, rfl⟩ := hargs
    exact ⟨hh, .inl ⟨hm, items', rfl, h⟩⟩
  | one n' v rest' items' _ _ _ hh hm h =>
    simp only [List.cons.injEq, true_and] at hargs
    obtain ⟨rfl, rfl⟩ := hargs
    exact ⟨hh, .inr (.inl ⟨hm, v, rest', items', rfl, rfl, h⟩)⟩
  | many n' vs rest' items' _ _ _ hh hm hv hvs hr h =>
    simp only [List.cons.injEq, true_and] at hargs
    obtain ⟨rfl, rfl⟩ := hargs
    exact ⟨hh, .inr (.inr ⟨hm, vs, rest', items', rfl, hv, hvs, hr, rfl, h⟩)⟩
  | pos v _ _ _ _ ho' => simp only [List.cons.injEq] at hargs; rw [← hargs.1] at ho'; exact absurd ho ho'

theorem cmd_inv_pos {modeOf : List UInt8 → _root_.Option Mode} {help : List UInt8} {delims rest : List (List UInt8)} {items : List Item} {a : List UInt8}
    {r : _root_.Option (List (List UInt8))} (hc : Cmd modeOf help delims (a :: rest) items r) (hd : a ∉ delims) (ho : ¬ OptText a) :
    ∃ items', items = .pos a :: items' ∧ Cmd modeOf help delims rest items' r := by
  generalize hargs : a :: rest = args at hc
  cases hc with
  | nil => cases hargs
  | delim d rest' h' => simp only [List.cons.injEq] at hargs; rw [← hargs.1] at h'; exact absurd h' hd
  | flag n' _ items' _ _ ho' => simp only [List.cons.injEq] at hargs; rw [← hargs.1] at ho'; exact absurd ho' ho
  | one n' _ _ items' _ _ ho' => simp only [List.cons.injEq] at hargs; rw [← hargs.1] at ho'; exact absurd ho' ho
  | many n' _ _ items' _ _ ho' => simp only [List.cons.injEq] at hargs; rw [← hargs.1] at ho'; exact absurd ho' ho
  | pos v rest' items' r _ _ h =>
    simp only [List.cons.injEq] at hargs
    obtain ⟨rfl, rfl⟩ := hargs
    exact ⟨items', rfl, h⟩

/-- A command line has one reading only. -/
theorem cmd_unique {modeOf : List UInt8 → _root_.Option Mode} {help : List UInt8} {delims args : List (List UInt8)} {i1 i2 : List Item}
    {r1 r2 : _root_.Option (List (List UInt8))} (h1 : Cmd modeOf help delims args i1 r1) (h2 : Cmd modeOf help delims args i2 r2) : i1 = i2 ∧ r1 = r2 := by
  induction h1 generalizing i2 r2 with
  | nil => cases h2; exact ⟨rfl, rfl⟩
  | delim d rest h =>
    generalize hargs : d :: rest = args at h2
    cases h2 with
    | nil => cases hargs
    | delim d' rest' h' => simp only [List.cons.injEq] at hargs; rw [hargs.2]; exact ⟨rfl, rfl⟩
    | flag _ _ _ _ hd | one _ _ _ _ _ hd | many _ _ _ _ _ hd | pos _ _ _ _ hd => simp only [List.cons.injEq] at hargs; rw [← hargs.1] at hd; exact absurd h hd
  | flag n rest items r hd ho hh hm h ih =>
    obtain ⟨_, ⟨_, items', rfl, h'⟩ | ⟨hm', _⟩ | ⟨hm', _⟩⟩ := cmd_inv_opt h2 hd ho
    · obtain ⟨e1, e2⟩ := ih h'; exact ⟨by rw [e1], e2⟩
    · rw [hm] at hm'; cases hm'
    · rw [hm] at hm'; cases hm'
  | one n v rest items r hd ho hh hm h ih =>
    obtain ⟨_, ⟨hm', _⟩ | ⟨_, v', rest', items', e0, rfl, h'⟩ | ⟨hm', _⟩⟩ := cmd_inv_opt h2 hd ho
    · rw [hm] at hm'; cases hm'
    · injection e0 with e0 e0'
      subst e0 e0'
      obtain ⟨e1, e2⟩ := ih h'; exact ⟨by rw [e1], e2⟩
    · rw [hm] at hm'; cases hm'
  | many n vs rest items r hd ho hh hm hv hvs hr h ih =>
    obtain ⟨_, ⟨hm', _⟩ | ⟨hm', _⟩ | ⟨_, vs', rest', items', e0, _, hvs', hr', rfl, h'⟩⟩ := cmd_inv_opt h2 hd ho
    · rw [hm] at hm'; cases hm'
    · rw [hm] at hm'; cases hm'
    · obtain ⟨e1, e2⟩ := split_unique e0 hvs hvs' hr hr'
      subst e1 e2
      obtain ⟨e3, e4⟩ := ih h'
      exact ⟨by rw [e3], e4⟩
  | pos v rest items r hd ho h ih =>
    obtain ⟨items', rfl, h'⟩ := cmd_inv_pos h2 hd ho
    obtain ⟨e1, e2⟩ := ih h'; exact ⟨by rw [e1], e2⟩

/-- Every argument belongs to exactly one part. -/
theorem cmd_render {modeOf : List UInt8 → _root_.Option Mode} {help : List UInt8} {delims args : List (List UInt8)} {items : List Item}
    {r : _root_.Option (List (List UInt8))} (h : Cmd modeOf help delims args items r) :
    (r = none ∧ args = items.flatMap Item.render) ∨ (∃ d t, r = some t ∧ d ∈ delims ∧ args = items.flatMap Item.render ++ d :: t) := by
  induction h with
  | nil => exact .inl ⟨rfl, rfl⟩
  | delim d rest h => exact .inr ⟨d, rest, rfl, h, rfl⟩
  | flag n rest items r hd ho hh hm h ih =>
    rcases ih with ⟨rfl, rfl⟩ | ⟨d, t, rfl, hd, rfl⟩
    · exact .inl ⟨rfl, rfl⟩
    · exact .inr ⟨d, t, rfl, hd, rfl⟩
  | one n v rest items r hd ho hh hm h ih =>
    rcases ih with ⟨rfl, rfl⟩ | ⟨d, t, rfl, hd, rfl⟩
    · exact .inl ⟨rfl, rfl⟩
    · exact .inr ⟨d, t, rfl, hd, rfl⟩
  | many n vs rest items r hd ho hh hm hv hvs hr h ih =>
    rcases ih with ⟨rfl, rfl⟩ | ⟨d, t, rfl, hd, rfl⟩
    · exact .inl ⟨rfl, rfl⟩
    · exact .inr ⟨d, t, rfl, hd, by simp [Item.render]⟩
  | pos v rest items r hd ho h ih =>
    rcases ih with ⟨rfl, rfl⟩ | ⟨d, t, rfl, hd, rfl⟩
    · exact .inl ⟨rfl, rfl⟩
    · exact .inr ⟨d, t, rfl, hd, rfl⟩

/-- What the loop does with one round: continue with `args'` after the part `it`, or stop with an error. -/
theorem argLoop_spec {α : Type} (rs : List (Reg α)) (fuel : Nat) (done : List Item) (o : Option α) (pos : Nat) (args : List (List UInt8))
    (m : Match rs done o) (hfuel : args.length < fuel) (argc : Int) (hargc : argc = pos + args.length) (hn : o.nextDelimiter = argc) :
    ∃ e o', argLoop fuel o pos args = .ok (e, o') ∧
      (e = .fin → ∃ items r, Cmd (modeIn (optsOf rs)) (helpOf rs) (delimsOf rs) args items r ∧ Match rs (done ++ items) o' ∧
        withDelim o' argc r o.remainsAfter) ∧
      (∀ items r, Cmd (modeIn (optsOf rs)) (helpOf rs) (delimsOf rs) args items r → Accepts rs (done ++ items) → e = .fin) ∧
      (e = .exit → 45 :: helpOf rs ∈ args) := by
  induction fuel generalizing done o pos args with
  | zero => omega
  | succ fuel ih =>
    cases args with
    | nil =>
      refine ⟨.fin, o, by rw [argLoop], fun _ => ⟨[], none, .nil, by simpa using m, ?_, ?_⟩, fun _ _ _ _ => rfl, by simp⟩
      · intro t ht; cases ht
      · exact fun _ => ⟨hn, rfl⟩
    | cons a rest =>
      rw [argLoop]
      by_cases hd : a ∈ o.delimiters
      · rw [if_pos hd]
        refine ⟨_, _, rfl, fun _ => ⟨[], some rest, .delim a rest (m.delims ▸ hd), ?_, ?_, ?_⟩, fun _ _ _ _ => rfl, by simp⟩
        · simpa using match_delim m _ _
        · intro t ht
          injection ht with ht
          subst ht
          refine ⟨?_, rfl⟩
          simp only [List.length_cons] at hargc
          simp only [hargc]
          omega
        · intro h; cases h
      · rw [if_neg hd]
        have hd' : a ∉ delimsOf rs := m.delims ▸ hd
        by_cases ho : isOpt a = true
        · rw [if_pos ho]
          have hot := (isOpt_iff a).mp ho
          obtain ⟨n, rfl, _⟩ := hot
          have hot := (isOpt_iff (45 :: n)).mp ho
          simp only [List.drop_succ_cons, List.drop_zero]
          by_cases hh : o.helpOpt = n
          · rw [if_pos hh]
            refine ⟨_, _, rfl, by simp, ?_, ?_⟩
            · intro items r hc
              rw [m.help] at hh
              exact absurd hh.symm (cmd_inv_opt hc hd' hot).1
            · intro _
              rw [m.help] at hh
              simp [hh]
          · rw [if_neg hh]
            have hh' : n ≠ helpOf rs := by rw [← m.help]; exact fun h => hh h.symm
            cases hf : mapFind o.optMap n with
            | none =>
              simp only
              have hmn := modeIn_none m hf
              refine ⟨_, _, rfl, by simp, ?_, by simp⟩
              intro items r hc
              obtain ⟨_, ⟨hm, _⟩ | ⟨hm, _⟩ | ⟨hm, _⟩⟩ := cmd_inv_opt hc hd' hot <;> (rw [hmn] at hm; cases hm)
            | some i =>
              obtain ⟨d, info, hdi, hinfo, hdn, hmode⟩ := modeIn_eq m hf
              have hat : at? o.infoVec i = .ok info := by simp [at?, hinfo]
              simp only [hat, Res.ok_bind]
              obtain ⟨p1, p2, p3, p4, p5, p6⟩ := m.opts i d info hdi hinfo
              -- the values of one more part are accepted only if `feed` accepts them
              have hacc : ∀ (it : Item) (vs : List (List UInt8)) (items : List Item), (valuesOf n [it] = vs) → Accepts rs (done ++ it :: items) →
                  (feed info.var.step info.var.st vs).isSome = true := by
                intro it vs items hit ha
                have ha' : Accepts rs (done ++ [it]) := by
                  have : done ++ it :: items = (done ++ [it]) ++ items := by simp
                  exact (this ▸ ha).left
                have := ha'.opts d (List.mem_of_getElem? hdi)
                rw [valuesOf_append, feed_append, p5, hdn, hit, ← p4] at this
                exact this
              cases hm : info.mode with
              | is0 =>
                rw [hm] at hmode
                simp only
                have hset : (info.var.set [49]).1 = (info.var.step info.var.st [49]).1 := rfl
                simp only [hset]
                by_cases hb : (info.var.step info.var.st [49]).1 = true
                · rw [if_pos hb]
                  have hst : feed info.var.step info.var.st [[49]] = some (info.var.step info.var.st [49]).2 := by
                    simp only [feed]; rw [if_pos hb]
                  have m' := step_opt m hf hinfo (.flag n) [[49]] (by simp) (fun k => by simp [valuesOf]) rfl _ hst true rfl
                  obtain ⟨e, o', h1, h2, h3, h4⟩ := ih (done ++ [.flag n]) (o.putVar i info (info.var.set [49]).2) (pos + 1) rest m' (by simp at hfuel; omega)
                    (by simp at hargc; omega) hn
                  refine ⟨e, o', h1, ?_, ?_, ?_⟩
                  · intro he
                    obtain ⟨items, r, c1, c2, c3⟩ := h2 he
                    exact ⟨.flag n :: items, r, .flag n rest items r hd' hot hh' hmode c1, by simpa using c2, c3⟩
                  · intro items r hc ha
                    obtain ⟨_, ⟨_, items', rfl, hc'⟩ | ⟨hm', _⟩ | ⟨hm', _⟩⟩ := cmd_inv_opt hc hd' hot
                    · exact h3 items' r hc' (by simpa using ha)
                    · rw [hmode] at hm'; cases hm'
                    · rw [hmode] at hm'; cases hm'
                  · intro he; exact List.mem_cons_of_mem _ (h4 he)
                · rw [if_neg hb]
                  refine ⟨_, _, rfl, by simp, ?_, by simp⟩
                  intro items r hc ha
                  obtain ⟨_, ⟨_, items', rfl, hc'⟩ | ⟨hm', _⟩ | ⟨hm', _⟩⟩ := cmd_inv_opt hc hd' hot
                  · have := hacc (.flag n) [[49]] items' (by simp [valuesOf]) ha
                    simp only [feed] at this
                    rw [if_neg hb] at this
                    cases this
                  · rw [hmode] at hm'; cases hm'
                  · rw [hmode] at hm'; cases hm'
              | is1 =>
                rw [hm] at hmode
                simp only
                cases rest with
                | nil =>
                  simp only
                  refine ⟨_, _, rfl, by simp, ?_, by simp⟩
                  intro items r hc ha
                  obtain ⟨_, ⟨hm', _⟩ | ⟨_, _, _, _, e0, _⟩ | ⟨hm', _⟩⟩ := cmd_inv_opt hc hd' hot
                  · rw [hmode] at hm'; cases hm'
                  · cases e0
                  · rw [hmode] at hm'; cases hm'
                | cons x rest =>
                  simp only
                  have hset : (info.var.set x).1 = (info.var.step info.var.st x).1 := rfl
                  simp only [hset]
                  by_cases hb : (info.var.step info.var.st x).1 = true
                  · rw [if_pos hb]
                    have hst : feed info.var.step info.var.st [x] = some (info.var.step info.var.st x).2 := by
                      simp only [feed]; rw [if_pos hb]
                    have m' := step_opt m hf hinfo (.one n x) [x] (by simp) (fun k => by simp [valuesOf]) rfl _ hst true rfl
                    obtain ⟨e, o', h1, h2, h3, h4⟩ := ih (done ++ [.one n x]) (o.putVar i info (info.var.set x).2) (pos + 2) rest m' (by simp at hfuel; omega)
                      (by simp at hargc; omega) hn
                    refine ⟨e, o', h1, ?_, ?_, ?_⟩
                    · intro he
                      obtain ⟨items, r, c1, c2, c3⟩ := h2 he
                      exact ⟨.one n x :: items, r, .one n x rest items r hd' hot hh' hmode c1, by simpa using c2, c3⟩
                    · intro items r hc ha
                      obtain ⟨_, ⟨hm', _⟩ | ⟨_, v', rest', items', e0, rfl, hc'⟩ | ⟨hm', _⟩⟩ := cmd_inv_opt hc hd' hot
                      · rw [hmode] at hm'; cases hm'
                      · injection e0 with e0 e0'
                        subst e0 e0'
                        exact h3 items' r hc' (by simpa using ha)
                      · rw [hmode] at hm'; cases hm'
                    · intro he; exact List.mem_cons_of_mem _ (List.mem_cons_of_mem _ (h4 he))
                  · rw [if_neg hb]
                    refine ⟨_, _, rfl, by simp, ?_, by simp⟩
                    intro items r hc ha
                    obtain ⟨_, ⟨hm', _⟩ | ⟨_, v', rest', items', e0, rfl, hc'⟩ | ⟨hm', _⟩⟩ := cmd_inv_opt hc hd' hot
                    · rw [hmode] at hm'; cases hm'
                    · injection e0 with e0 e0'
                      subst e0 e0'
                      have := hacc (.one n x) [x] items' (by simp [valuesOf]) ha
                      simp only [feed] at this
                      rw [if_neg hb] at this
                      cases this
                    · rw [hmode] at hm'; cases hm'
              | any =>
                rw [hm] at hmode
                simp only
                obtain ⟨vs, rest', e1, hv1, hv2, hv3⟩ := anyLoop_spec info.var 0 rest
                -- a reading must take the same values
                have huniq : ∀ items r, Cmd (modeIn (optsOf rs)) (helpOf rs) (delimsOf rs) ((45 :: n) :: rest) items r →
                    vs ≠ [] ∧ ∃ items', items = .many n vs :: items' ∧ Cmd (modeIn (optsOf rs)) (helpOf rs) (delimsOf rs) rest' items' r := by
                  intro items r hc
                  obtain ⟨_, ⟨hm', _⟩ | ⟨hm', _⟩ | ⟨_, vs', rest'', items', e0, hne, hvs', hr', rfl, h'⟩⟩ := cmd_inv_opt hc hd' hot
                  · rw [hmode] at hm'; cases hm'
                  · rw [hmode] at hm'; cases hm'
                  · rw [e1] at e0
                    obtain ⟨q1, q2⟩ := split_unique e0 hv1 hvs' hv2 hr'
                    subst q1 q2
                    exact ⟨hne, _, rfl, h'⟩
                cases hfd : feed info.var.step info.var.st vs with
                | none =>
                  rw [hfd] at hv3
                  simp only at hv3
                  generalize hA : anyLoop info.var 0 rest = A at hv3
                  obtain ⟨b, v, j, rr⟩ := A
                  simp only at hv3
                  subst hv3
                  simp only [Bool.not_false, if_true]
                  refine ⟨_, _, rfl, by simp, ?_, by simp⟩
                  intro items r hc ha
                  obtain ⟨_, items', rfl, _⟩ := huniq items r hc
                  have := hacc (.many n vs) vs items' (by simp [valuesOf]) ha
                  rw [hfd] at this
                  cases this
                | some st =>
                  rw [hfd] at hv3
                  simp only at hv3
                  rw [hv3]
                  simp only [Bool.not_true, Bool.false_eq_true, if_false, Nat.zero_add]
                  by_cases hvs : vs = []
                  · subst hvs
                    rw [if_neg (by simp)]
                    refine ⟨_, _, rfl, by simp, ?_, by simp⟩
                    intro items r hc ha
                    exact absurd rfl (huniq items r hc).1
                  · rw [if_pos (by cases vs with | nil => exact absurd rfl hvs | cons _ _ => simp)]
                    have m' := step_opt m hf hinfo (.many n vs) vs hvs (fun k => by simp [valuesOf]) rfl st hfd (info.var.isSet || !vs.isEmpty) (by simp [hvs])
                    have hlen : rest.length = vs.length + rest'.length := by rw [e1]; simp
                    obtain ⟨e, o', h1, h2, h3, h4⟩ := ih (done ++ [.many n vs]) (o.putVar i info { info.var with st := st, isSet := info.var.isSet || !vs.isEmpty }) (pos + 1 + vs.length) rest' m' (by simp at hfuel; omega)
                      (by simp at hargc; omega) hn
                    refine ⟨e, o', h1, ?_, ?_, ?_⟩
                    · intro he
                      obtain ⟨items, r, c1, c2, c3⟩ := h2 he
                      refine ⟨.many n vs :: items, r, ?_, by simpa using c2, c3⟩
                      rw [e1]
                      exact .many n vs rest' items r hd' hot hh' hmode hvs hv1 hv2 c1
                    · intro items r hc ha
                      obtain ⟨_, items', rfl, hc'⟩ := huniq items r hc
                      exact h3 items' r hc' (by simpa using ha)
                    · intro he
                      rw [e1]
                      exact List.mem_cons_of_mem _ (List.mem_append_right _ (h4 he))
        · rw [if_neg ho]
          have hot : ¬ OptText a := fun h => ho ((isOpt_iff a).mpr h)
          obtain ⟨b, o1, s1, s2, s3⟩ := step_pos m a
          rw [s1]
          simp only [Res.ok_bind]
          obtain ⟨t1, t2⟩ := takeParam_delim s1
          cases b with
          | true =>
            simp only [if_true]
            obtain ⟨e, o', h1, h2, h3, h4⟩ := ih (done ++ [.pos a]) o1 (pos + 1) rest (s2 rfl) (by simp at hfuel; omega) (by simp at hargc; omega) (by rw [t1, hn])
            refine ⟨e, o', h1, ?_, ?_, ?_⟩
            · intro he
              obtain ⟨items, r, c1, c2, c3⟩ := h2 he
              exact ⟨.pos a :: items, r, .pos a rest items r hd' hot c1, by simpa using c2, t2 ▸ c3⟩
            · intro items r hc ha
              obtain ⟨items', rfl, hc'⟩ := cmd_inv_pos hc hd' hot
              exact h3 items' r hc' (by simpa using ha)
            · intro he; exact List.mem_cons_of_mem _ (h4 he)
          | false =>
            simp only [Bool.false_eq_true, if_false]
            refine ⟨_, _, rfl, by simp, ?_, by simp⟩
            intro items r hc ha
            obtain ⟨items', rfl, hc'⟩ := cmd_inv_pos hc hd' hot
            have : done ++ .pos a :: items' = (done ++ [.pos a]) ++ items' := by simp
            have := s3 (this ▸ ha).left
            cases this

/-! ### registration -/

theorem match_new {α : Type} : Match (α := α) [] [] Option.new := by
  constructor <;> simp [Option.new, optsOf, paramsOf, restOf, helpOf, delimsOf, mapFind, positionals]

theorem reg_match {α : Type} {rs : List (Reg α)} {o o' : Option α} {r : Reg α} (m : Match rs [] o) (h : o.reg r = .ok o') : Match (rs ++ [r]) [] o' := by
  cases r with
  | opt st step mode isMust name =>
    simp only [Option.reg, Option.appendSub] at h
    split at h
    · cases h
    · split at h
      · cases h
      · rename_i hf
        injection h with h
        subst h
        have ho : optsOf (rs ++ [Reg.opt st step mode isMust name]) = optsOf rs ++ [⟨name, mode, isMust, st, step⟩] := by simp [optsOf]
        have hnone : mapFind o.optMap name = none := by simpa using hf
        have hp : paramsOf (rs ++ [Reg.opt st step mode isMust name]) = paramsOf rs := by simp [paramsOf]
        have hr : restOf (rs ++ [Reg.opt st step mode isMust name]) = restOf rs := by simp [restOf]
        constructor
        · intro n i
          simp only
          rw [mapFind_insert, ho]
          simp only [hnone, Option.isSome_none, Bool.false_eq_true, if_false]
          by_cases hn : n = name
          · subst hn
            rw [if_pos rfl]
            constructor
            · intro hi
              injection hi with hi
              subst hi
              rw [m.optLen]
              exact ⟨⟨n, mode, isMust, st, step⟩, by simp, rfl⟩
            · rintro ⟨d, hd, hdn⟩
              by_cases hi : i < (optsOf rs).length
              · rw [List.getElem?_append_left hi] at hd
                have := (m.find n i).mpr ⟨d, hd, hdn⟩
                rw [hnone] at this; cases this
              · have hi2 := (List.getElem?_eq_some_iff.mp hd).1
                simp at hi2
                rw [m.optLen]
                congr 1
                omega
          · rw [if_neg hn, m.find]
            constructor
            · rintro ⟨d, hd, hdn⟩
              exact ⟨d, by rw [List.getElem?_append_left (List.getElem?_eq_some_iff.mp hd).1]; exact hd, hdn⟩
            · rintro ⟨d, hd, hdn⟩
              by_cases hi : i < (optsOf rs).length
              · rw [List.getElem?_append_left hi] at hd
                exact ⟨d, hd, hdn⟩
              · have hi2 := (List.getElem?_eq_some_iff.mp hd).1
                simp at hi2
                have : i = (optsOf rs).length := by omega
                subst this
                simp at hd
                subst hd
                exact absurd hdn.symm hn
        · simp [ho, m.optLen]
        · intro i d info hd hi
          rw [ho] at hd
          simp only at hi
          by_cases hlt : i < (optsOf rs).length
          · rw [List.getElem?_append_left hlt] at hd
            rw [List.getElem?_append_left (by rw [m.optLen]; exact hlt)] at hi
            exact m.opts i d info hd hi
          · have hi2 := (List.getElem?_eq_some_iff.mp hd).1
            simp at hi2
            have : i = (optsOf rs).length := by omega
            subst this
            simp at hd
            rw [← m.optLen] at hi
            simp at hi
            subst hd hi
            refine ⟨rfl, rfl, rfl, rfl, ?_, ?_⟩ <;> simp [valuesOf, feed]
        · rw [hp]; exact m.paramLen
        · rw [hp]; exact m.params
        · rw [hr]; exact m.mode
        · rw [hr, hp]; exact m.rest
        · rw [hr, hp]; exact m.count
        · simp only [helpOf, List.foldl_append, List.foldl_cons, List.foldl_nil]; exact m.help
        · simp only [delimsOf, List.foldl_append, List.foldl_cons, List.foldl_nil]; exact m.delims
        · rw [hr]; exact m.noRest
  | param st step name =>
    simp only [Option.reg, Option.appendParam] at h
    split at h
    · cases h
    · rename_i hx
      injection h with h
      subst h
      have ho : optsOf (rs ++ [Reg.param st step name]) = optsOf rs := by simp [optsOf]
      have hp : paramsOf (rs ++ [Reg.param st step name]) = paramsOf rs ++ [⟨true, st, step⟩] := by simp [paramsOf]
      have hr : restOf (rs ++ [Reg.param st step name]) = restOf rs := by simp [restOf]
      constructor
      · rw [ho]; exact m.find
      · rw [ho]; exact m.optLen
      · rw [ho]; exact m.opts
      · simp [hp, m.paramLen]
      · intro i d info hd hi
        rw [hp] at hd
        simp only at hi
        by_cases hlt : i < (paramsOf rs).length
        · rw [List.getElem?_append_left hlt] at hd
          rw [List.getElem?_append_left (by rw [m.paramLen]; exact hlt)] at hi
          exact m.params i d info hd hi
        · have hi2 := (List.getElem?_eq_some_iff.mp hd).1
          simp at hi2
          have : i = (paramsOf rs).length := by omega
          subst this
          simp at hd
          rw [← m.paramLen] at hi
          simp at hi
          subst hd hi
          refine ⟨rfl, rfl, ?_, ?_⟩ <;> simp [positionals, feed]
      · rw [hr]; exact m.mode
      · intro d hd
        rw [hr] at hd
        obtain ⟨info, r1, r2, r3, r4⟩ := m.rest d hd
        refine ⟨info, r1, r2, r3, ?_⟩
        simpa [RestResult, positionals] using r4
      · intro _; simp [positionals]
      · simp only [helpOf, List.foldl_append, List.foldl_cons, List.foldl_nil]; exact m.help
      · simp only [delimsOf, List.foldl_append, List.foldl_cons, List.foldl_nil]; exact m.delims
      · rw [hr]; exact m.noRest
  | paramOpt st step name =>
    simp only [Option.reg, Option.appendParamOpt] at h
    split at h
    · cases h
    · rename_i hx
      injection h with h
      subst h
      have ho : optsOf (rs ++ [Reg.paramOpt st step name]) = optsOf rs := by simp [optsOf]
      have hp : paramsOf (rs ++ [Reg.paramOpt st step name]) = paramsOf rs ++ [⟨false, st, step⟩] := by simp [paramsOf]
      have hr : restOf (rs ++ [Reg.paramOpt st step name]) = restOf rs := by simp [restOf]
      have hmode : o.paramMode = .exact := Classical.not_not.mp hx
      have hrest : restOf rs = none := by
        cases hrs : restOf rs with
        | none => rfl
        | some d =>
          have := m.mode.mpr (by rw [hrs]; rfl)
          rw [hmode] at this; cases this
      constructor
      · rw [ho]; exact m.find
      · rw [ho]; exact m.optLen
      · rw [ho]; exact m.opts
      · simp [hp, m.paramLen]
      · intro i d info hd hi
        rw [hp] at hd
        simp only at hi
        by_cases hlt : i < (paramsOf rs).length
        · rw [List.getElem?_append_left hlt] at hd
          rw [List.getElem?_append_left (by rw [m.paramLen]; exact hlt)] at hi
          exact m.params i d info hd hi
        · have hi2 := (List.getElem?_eq_some_iff.mp hd).1
          simp at hi2
          have : i = (paramsOf rs).length := by omega
          subst this
          simp at hd
          rw [← m.paramLen] at hi
          simp at hi
          subst hd hi
          refine ⟨rfl, rfl, ?_, ?_⟩ <;> simp [positionals, feed]
      · rw [hr, hrest]; simp
      · intro d hd
        rw [hr, hrest] at hd
        cases hd
      · intro _; simp [positionals]
      · simp only [helpOf, List.foldl_append, List.foldl_cons, List.foldl_nil]; exact m.help
      · simp only [delimsOf, List.foldl_append, List.foldl_cons, List.foldl_nil]; exact m.delims
      · rw [hr]; exact m.noRest
  | paramVec st step name =>
    simp only [Option.reg, Option.appendParamVec] at h
    split at h
    · cases h
    · rename_i hx
      injection h with h
      subst h
      have ho : optsOf (rs ++ [Reg.paramVec st step name]) = optsOf rs := by simp [optsOf]
      have hp : paramsOf (rs ++ [Reg.paramVec st step name]) = paramsOf rs := by simp [paramsOf]
      have hmode : o.paramMode = .exact := Classical.not_not.mp hx
      have hrest : restOf rs = none := by
        cases hrs : restOf rs with
        | none => rfl
        | some d =>
          have := m.mode.mpr (by rw [hrs]; rfl)
          rw [hmode] at this; cases this
      have hr : restOf (rs ++ [Reg.paramVec st step name]) = some ⟨false, st, step⟩ := by
        simp only [restOf] at hrest
        simp only [restOf, List.findSome?_append, hrest]
        rfl
      constructor
      · rw [ho]; exact m.find
      · rw [ho]; exact m.optLen
      · rw [ho]; exact m.opts
      · rw [hp]; exact m.paramLen
      · rw [hp]; exact m.params
      · rw [hr]; simp
      · intro d hd
        rw [hr] at hd
        injection hd with hd
        subst hd
        exact ⟨_, rfl, rfl, rfl, by simp [RestResult, positionals]⟩
      · intro h'; rw [hr] at h'; cases h'
      · simp only [helpOf, List.foldl_append, List.foldl_cons, List.foldl_nil]; exact m.help
      · simp only [delimsOf, List.foldl_append, List.foldl_cons, List.foldl_nil]; exact m.delims
      · intro h'; rw [hr] at h'; cases h'
  | help name =>
    simp only [Option.reg, Option.appendHelp, Res.ok.injEq] at h
    subst h
    have ho : optsOf (rs ++ [Reg.help name]) = optsOf rs := by simp [optsOf]
    have hp : paramsOf (rs ++ [Reg.help name]) = paramsOf rs := by simp [paramsOf]
    have hr : restOf (rs ++ [Reg.help name]) = restOf rs := by simp [restOf]
    refine ⟨ho ▸ m.find, ho ▸ m.optLen, ho ▸ m.opts, hp ▸ m.paramLen, hp ▸ m.params, hr ▸ m.mode, hr ▸ hp ▸ m.rest, hr ▸ hp ▸ m.count, ?_, ?_, hr ▸ m.noRest⟩
    · simp only [helpOf, List.foldl_append, List.foldl_cons, List.foldl_nil]
    · simp only [delimsOf, List.foldl_append, List.foldl_cons, List.foldl_nil]; exact m.delims
  | setDelimiter d remain =>
    simp only [Option.reg, Option.setDelimiter, Res.ok.injEq] at h
    subst h
    have ho : optsOf (rs ++ [Reg.setDelimiter d remain]) = optsOf rs := by simp [optsOf]
    have hp : paramsOf (rs ++ [Reg.setDelimiter d remain]) = paramsOf rs := by simp [paramsOf]
    have hr : restOf (rs ++ [Reg.setDelimiter d remain]) = restOf rs := by simp [restOf]
    refine ⟨ho ▸ m.find, ho ▸ m.optLen, ho ▸ m.opts, hp ▸ m.paramLen, hp ▸ m.params, hr ▸ m.mode, hr ▸ hp ▸ m.rest, hr ▸ hp ▸ m.count, ?_, ?_, hr ▸ m.noRest⟩
    · simp only [helpOf, List.foldl_append, List.foldl_cons, List.foldl_nil]; exact m.help
    · simp only [delimsOf, List.foldl_append, List.foldl_cons, List.foldl_nil]; rw [m.delims]; rfl
  | appendDelimiter d =>
    simp only [Option.reg, Option.appendDelimiter, Res.ok.injEq] at h
    subst h
    have ho : optsOf (rs ++ [Reg.appendDelimiter d]) = optsOf rs := by simp [optsOf]
    have hp : paramsOf (rs ++ [Reg.appendDelimiter d]) = paramsOf rs := by simp [paramsOf]
    have hr : restOf (rs ++ [Reg.appendDelimiter d]) = restOf rs := by simp [restOf]
    refine ⟨ho ▸ m.find, ho ▸ m.optLen, ho ▸ m.opts, hp ▸ m.paramLen, hp ▸ m.params, hr ▸ m.mode, hr ▸ hp ▸ m.rest, hr ▸ hp ▸ m.count, ?_, ?_, hr ▸ m.noRest⟩
    · simp only [helpOf, List.foldl_append, List.foldl_cons, List.foldl_nil]; exact m.help
    · simp only [delimsOf, List.foldl_append, List.foldl_cons, List.foldl_nil]; rw [m.delims]; rfl
  | clearDelimiterList =>
    simp only [Option.reg, Option.clearDelimiterList, Res.ok.injEq] at h
    subst h
    have ho : optsOf (rs ++ [(Reg.clearDelimiterList : Reg α)]) = optsOf rs := by simp [optsOf]
    have hp : paramsOf (rs ++ [(Reg.clearDelimiterList : Reg α)]) = paramsOf rs := by simp [paramsOf]
    have hr : restOf (rs ++ [(Reg.clearDelimiterList : Reg α)]) = restOf rs := by simp [restOf]
    refine ⟨ho ▸ m.find, ho ▸ m.optLen, ho ▸ m.opts, hp ▸ m.paramLen, hp ▸ m.params, hr ▸ m.mode, hr ▸ hp ▸ m.rest, hr ▸ hp ▸ m.count, ?_, ?_, hr ▸ m.noRest⟩
    · simp only [helpOf, List.foldl_append, List.foldl_cons, List.foldl_nil]; exact m.help
    · simp only [delimsOf, List.foldl_append, List.foldl_cons, List.foldl_nil]

theorem regs_match_from {α : Type} (rs : List (Reg α)) (pre : List (Reg α)) (o0 o : Option α) (m : Match pre [] o0) (h : o0.regs rs = .ok o) :
    Match (pre ++ rs) [] o := by
  induction rs generalizing pre o0 with
  | nil =>
    simp only [Option.regs, Res.ok.injEq] at h
    subst h
    simpa using m
  | cons r rs ih =>
    rw [Option.regs, Res.bind_eq_ok] at h
    obtain ⟨o1, h1, h2⟩ := h
    have := ih (pre ++ [r]) o1 (reg_match m h1) h2
    simpa using this

theorem regs_match {α : Type} {rs : List (Reg α)} {o : Option α} (h : Option.new.regs rs = .ok o) : Match rs [] o :=
  regs_match_from rs [] _ _ match_new h

/-- What the object knows of the declarations made so far. -/
structure Known {α : Type} (pre : List (Reg α)) (o : Option α) : Prop where
  find : ∀ n, (mapFind o.optMap n).isSome = true ↔ ∃ d ∈ optsOf pre, d.name = n
  mode : o.paramMode ≠ .exact ↔ ∃ r ∈ pre, closes r = true
  delim : o.nextDelimiter = -1
  remain : o.remainsAfter = remainOf pre

theorem Known.new {α : Type} : Known ([] : List (Reg α)) Option.new where
  find := by simp [Option.new, optsOf, mapFind]
  mode := by simp [Option.new]
  delim := rfl
  remain := rfl

theorem optsOf_snoc {α : Type} (pre : List (Reg α)) (r : Reg α) : optsOf (pre ++ [r]) = optsOf pre ++ optsOf [r] := by
  simp [optsOf, List.filterMap_append]

theorem remainOf_snoc {α : Type} (pre : List (Reg α)) (r : Reg α) :
    remainOf (pre ++ [r]) = match r with | .setDelimiter _ x => x | _ => remainOf pre := by
  rw [remainOf, List.foldl_append]; rfl

theorem not_exact {α : Type} {pre : List (Reg α)} {o : Option α} (k : Known pre o) : o.paramMode = .exact ↔ ∀ r ∈ pre, closes r = false := by
  have := k.mode
  constructor
  · intro h r hr
    cases hc : closes r with
    | false => rfl
    | true => exact absurd h (this.mpr ⟨r, hr, hc⟩)
  · intro h
    refine Decidable.byContradiction fun hc => ?_
    obtain ⟨r, hr, e⟩ := this.mp hc
    rw [h r hr] at e
    cases e

theorem reg_known {α : Type} {pre : List (Reg α)} {o : Option α} (k : Known pre o) (r : Reg α) :
    (Fits pre r ∧ ∃ o', o.reg r = .ok o' ∧ Known (pre ++ [r]) o') ∨ (¬ Fits pre r ∧ o.reg r = .throw) := by
  have hk := not_exact k
  have hmode : ∀ b, closes r = b → ((∃ x ∈ pre ++ [r], closes x = true) ↔ (∃ x ∈ pre, closes x = true) ∨ b = true) := by
    intro b hb
    subst hb
    simp [or_and_right, exists_or]
  cases r with
  | opt st step mode isMust name =>
    have hc : (48 ≤ name.headD 0 ∧ name.headD 0 ≤ 57) ↔ ¬ ∀ c, name.head? = some c → ¬ (48 ≤ c.toNat ∧ c.toNat ≤ 57) := by
      cases name with
      | nil => simp
      | cons a t => simp [UInt8.le_iff_toNat_le]
    simp only [Option.reg, Option.appendSub, Fits]
    by_cases h1 : 48 ≤ name.headD 0 ∧ name.headD 0 ≤ 57
    · rw [if_pos h1]
      exact .inr ⟨fun h => hc.mp h1 h.1, rfl⟩
    · rw [if_neg h1]
      have h1' := Classical.not_not.mp (mt hc.mpr h1)
      by_cases h2 : (mapFind o.optMap name).isSome = true
      · rw [if_pos h2]
        obtain ⟨d, hd, e⟩ := (k.find name).mp h2
        exact .inr ⟨fun h => h.2 d hd e, rfl⟩
      · rw [if_neg h2]
        refine .inl ⟨⟨h1', fun d hd e => h2 ((k.find name).mpr ⟨d, hd, e⟩)⟩, _, rfl, ?_, ?_, k.delim, ?_⟩
        · intro n
          rw [optsOf_snoc]
          simp only [mapFind_insert]
          have := k.find n
          by_cases hn : n = name
          · subst hn
            simp [optsOf]
            cases hm : mapFind o.optMap n <;> simp
          · have hn' : name ≠ n := fun h => hn h.symm
            simp [optsOf, hn, hn'] at this ⊢
            exact this
        · rw [hmode false rfl]; simpa using k.mode
        · rw [remainOf_snoc]; exact k.remain
  | param st step name =>
    simp only [Option.reg, Option.appendParam, Fits]
    by_cases h : o.paramMode = .exact
    · rw [if_neg (by simpa using h)]
      refine .inl ⟨hk.mp h, _, rfl, ?_, ?_, k.delim, ?_⟩
      · intro n; rw [optsOf_snoc]; simpa [optsOf] using k.find n
      · rw [hmode false rfl]; simpa using k.mode
      · rw [remainOf_snoc]; exact k.remain
    · rw [if_pos (by simpa using h)]
      exact .inr ⟨mt hk.mpr h, rfl⟩
  | paramOpt st step name =>
    simp only [Option.reg, Option.appendParamOpt, Fits]
    by_cases h : o.paramMode = .exact
    · rw [if_neg (by simpa using h)]
      refine .inl ⟨hk.mp h, _, rfl, ?_, ?_, k.delim, ?_⟩
      · intro n; rw [optsOf_snoc]; simpa [optsOf] using k.find n
      · rw [hmode true rfl]; simp
      · rw [remainOf_snoc]; exact k.remain
    · rw [if_pos (by simpa using h)]
      exact .inr ⟨mt hk.mpr h, rfl⟩
  | paramVec st step name =>
    simp only [Option.reg, Option.appendParamVec, Fits]
    by_cases h : o.paramMode = .exact
    · rw [if_neg (by simpa using h)]
      refine .inl ⟨hk.mp h, _, rfl, ?_, ?_, k.delim, ?_⟩
      · intro n; rw [optsOf_snoc]; simpa [optsOf] using k.find n
      · rw [hmode true rfl]; simp
      · rw [remainOf_snoc]; exact k.remain
    · rw [if_pos (by simpa using h)]
      exact .inr ⟨mt hk.mpr h, rfl⟩
  | help name =>
    refine .inl ⟨trivial, _, rfl, ?_, ?_, k.delim, ?_⟩
    · intro n; rw [optsOf_snoc]; simpa [optsOf, Option.appendHelp] using k.find n
    · rw [hmode false rfl]; simpa [Option.appendHelp] using k.mode
    · rw [remainOf_snoc]; exact k.remain
  | setDelimiter d x =>
    refine .inl ⟨trivial, _, rfl, ?_, ?_, k.delim, ?_⟩
    · intro n; rw [optsOf_snoc]; simpa [optsOf, Option.setDelimiter] using k.find n
    · rw [hmode false rfl]; simpa [Option.setDelimiter] using k.mode
    · rw [remainOf_snoc]; rfl
  | appendDelimiter d =>
    refine .inl ⟨trivial, _, rfl, ?_, ?_, k.delim, ?_⟩
    · intro n; rw [optsOf_snoc]; simpa [optsOf, Option.appendDelimiter] using k.find n
    · rw [hmode false rfl]; simpa [Option.appendDelimiter] using k.mode
    · rw [remainOf_snoc]; exact k.remain
  | clearDelimiterList =>
    refine .inl ⟨trivial, _, rfl, ?_, ?_, k.delim, ?_⟩
    · intro n; rw [optsOf_snoc]; simpa [optsOf, Option.clearDelimiterList] using k.find n
    · rw [hmode false rfl]; simpa [Option.clearDelimiterList] using k.mode
    · rw [remainOf_snoc]; exact k.remain

theorem regs_known {α : Type} (rs pre : List (Reg α)) (o : Option α) (k : Known pre o) :
    ((∀ (i : Nat) (r : Reg α), rs[i]? = some r → Fits (pre ++ rs.take i) r) ∧ ∃ o', o.regs rs = .ok o' ∧ Known (pre ++ rs) o') ∨
    ((¬ ∀ (i : Nat) (r : Reg α), rs[i]? = some r → Fits (pre ++ rs.take i) r) ∧ o.regs rs = .throw) := by
  induction rs generalizing pre o with
  | nil => exact .inl ⟨by simp, o, rfl, by simpa using k⟩
  | cons r rs ih =>
    have hf : (∀ (i : Nat) (x : Reg α), (r :: rs)[i]? = some x → Fits (pre ++ (r :: rs).take i) x) ↔
        Fits pre r ∧ ∀ (i : Nat) (x : Reg α), rs[i]? = some x → Fits ((pre ++ [r]) ++ rs.take i) x := by
      constructor
      · intro h
        refine ⟨by simpa using h 0 r rfl, fun i x hx => ?_⟩
        have := h (i + 1) x (by simpa using hx)
        simpa using this
      · rintro ⟨h1, h2⟩ i x hx
        cases i with
        | zero => simp only [List.getElem?_cons_zero, Option.some.injEq] at hx; subst hx; simpa using h1
        | succ i => simpa using h2 i x (by simpa using hx)
    rw [hf, Option.regs]
    rcases reg_known k r with ⟨h1, o', h2, h3⟩ | ⟨h1, h2⟩
    · rw [h2, Res.ok_bind]
      rcases ih (pre ++ [r]) o' h3 with ⟨g1, o'', g2, g3⟩ | ⟨g1, g2⟩
      · exact .inl ⟨⟨h1, g1⟩, o'', g2, by simpa using g3⟩
      · exact .inr ⟨fun h => g1 h.2, g2⟩
    · exact .inr ⟨fun h => h1 h.1, by rw [h2]; rfl⟩

end Verif.Opt
