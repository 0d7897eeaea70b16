import Verif.Model.Config
import Verif.Spec.Config
set_option linter.unusedSimpArgs false
set_option maxRecDepth 8000

/-! Lemmas for C25 and C26. -/
namespace Verif.Config
open Verif.Spec.Config

/-! ## Order of strings -/

theorem strLt_irrefl (a : Str) : strLt a a = false := by
  induction a with
  | nil => rfl
  | cons x a ih => simp [strLt, ih]

theorem strLt_asymm (a : Str) : ∀ b, strLt a b = true → strLt b a = false := by
  induction a with
  | nil => intro b h; cases b <;> simp [strLt] at h ⊢
  | cons x a ih =>
    intro b h
    cases b with
    | nil => simp [strLt] at h
    | cons y b =>
      simp only [strLt, Bool.or_eq_true, decide_eq_true_eq, Bool.and_eq_true] at h
      simp only [strLt, Bool.or_eq_false_iff, decide_eq_false_iff_not, Bool.and_eq_false_iff]
      rcases h with h | ⟨rfl, h⟩
      · exact ⟨by rw [UInt8.lt_iff_toNat_lt] at h ⊢; omega, .inl (by rintro rfl; exact absurd h (by simp))⟩
      · exact ⟨by simp, .inr (ih b h)⟩

theorem strLt_trans (a : Str) : ∀ b c, strLt a b = true → strLt b c = true → strLt a c = true := by
  induction a with
  | nil => intro b c h1 h2; cases c with
    | nil => cases b <;> simp [strLt] at h2
    | cons z c => rfl
  | cons x a ih =>
    intro b c h1 h2
    cases b with
    | nil => simp [strLt] at h1
    | cons y b =>
      cases c with
      | nil => simp [strLt] at h2
      | cons z c =>
        simp only [strLt, Bool.or_eq_true, decide_eq_true_eq, Bool.and_eq_true] at h1 h2 ⊢
        rcases h1 with h1 | ⟨rfl, h1⟩
        · rcases h2 with h2 | ⟨rfl, h2⟩
          · left; rw [UInt8.lt_iff_toNat_lt] at *; omega
          · exact .inl h1
        · rcases h2 with h2 | ⟨rfl, h2⟩
          · exact .inl h2
          · exact .inr ⟨rfl, ih b c h1 h2⟩

theorem strLt_total (a : Str) : ∀ b, a ≠ b → strLt a b = false → strLt b a = true := by
  induction a with
  | nil => intro b h1 h2; cases b <;> simp [strLt] at h1 h2
  | cons x a ih =>
    intro b h1 h2
    cases b with
    | nil => rfl
    | cons y b =>
      simp only [strLt, Bool.or_eq_false_iff, decide_eq_false_iff_not, Bool.and_eq_false_iff] at h2
      simp only [strLt, Bool.or_eq_true, decide_eq_true_eq, Bool.and_eq_true]
      by_cases hxy : x = y
      · subst hxy
        right
        refine ⟨rfl, ih b (by rintro rfl; exact h1 rfl) ?_⟩
        rcases h2.2 with h | h
        · exact absurd rfl h
        · exact h
      · left
        have h3 := h2.1
        rw [UInt8.lt_iff_toNat_lt] at h3 ⊢
        have : x.toNat ≠ y.toNat := fun h => hxy (UInt8.toNat_inj.mp h)
        omega

/-! ## Maps -/

/-- The keys are strictly increasing. -/
def Sorted {β : Type} (m : List (Str × β)) : Prop := m.Pairwise fun a b => strLt a.1 b.1 = true

theorem place_mem {β : Type} (m : List (Str × β)) (x y : Str × β) : y ∈ place m x ↔ y = x ∨ y ∈ m := by
  induction m with
  | nil => simp [place]
  | cons z m ih =>
    rw [place]
    split
    · simp
    · simp only [List.mem_cons, ih]
      constructor
      · rintro (h | h | h)
        · exact .inr (.inl h)
        · exact .inl h
        · exact .inr (.inr h)
      · rintro (h | h | h)
        · exact .inr (.inl h)
        · exact .inl h
        · exact .inr (.inr h)

theorem place_sorted {β : Type} (m : List (Str × β)) (x : Str × β) (hm : Sorted m) (hx : ∀ y ∈ m, y.1 ≠ x.1) : Sorted (place m x) := by
  induction m with
  | nil => simp [place, Sorted]
  | cons z m ih =>
    rw [Sorted, List.pairwise_cons] at hm
    rw [place]
    split
    · rename_i h
      rw [Sorted, List.pairwise_cons, List.pairwise_cons]
      refine ⟨?_, hm⟩
      intro y hy
      simp only [List.mem_cons] at hy
      rcases hy with rfl | hy
      · exact h
      · exact strLt_trans _ _ _ h (hm.1 y hy)
    · rename_i h
      rw [Sorted, List.pairwise_cons]
      refine ⟨?_, ih hm.2 (fun y hy => hx y (by simp [hy]))⟩
      intro y hy
      rw [place_mem] at hy
      rcases hy with rfl | hy
      · exact strLt_total _ _ (fun h => hx z (by simp) h.symm) (by simpa using h)
      · exact hm.1 y hy

theorem place_last {β : Type} (m : List (Str × β)) (x : Str × β) (h : ∀ y ∈ m, strLt y.1 x.1 = true) : place m x = m ++ [x] := by
  induction m with
  | nil => rfl
  | cons z m ih =>
    rw [place, strLt_asymm _ _ (h z (by simp)), if_neg (by simp), ih (fun y hy => h y (by simp [hy]))]
    rfl

theorem mapFind_place {β : Type} (m : List (Str × β)) (x : Str × β) (k : Str) (hx : ∀ y ∈ m, y.1 ≠ x.1) :
    mapFind (place m x) k = if k = x.1 then some x.2 else mapFind m k := by
  induction m with
  | nil =>
    simp only [place, mapFind, List.find?_cons, List.find?_nil]
    by_cases h : k = x.1
    · simp [h]
    · rw [if_neg h, show decide (x.1 = k) = false by simpa using fun h' => h h'.symm]
  | cons z m ih =>
    have ih := ih (fun y hy => hx y (by simp [hy]))
    rw [place]
    split
    · simp only [mapFind, List.find?_cons]
      by_cases h : k = x.1
      · simp [h]
      · rw [if_neg h, show decide (x.1 = k) = false by simpa using fun h' => h h'.symm]
    · simp only [mapFind, List.find?_cons] at ih ⊢
      by_cases hz : z.1 = k
      · have : k ≠ x.1 := by rw [← hz]; exact hx z (by simp)
        simp [hz, this]
      · simp only [hz, decide_false, Bool.false_eq_true, if_false]
        exact ih

theorem any_iff {β : Type} (m : List (Str × β)) (k : Str) : (m.any fun y => y.1 = k) = true ↔ (mapFind m k).isSome = true := by
  rw [mapFind, Option.isSome_map, List.find?_isSome, List.any_eq_true]

theorem mapFind_insert {β : Type} (m : List (Str × β)) (x : Str × β) (k : Str) :
    mapFind (mapInsert m x).1 k = if (mapFind m x.1).isSome then mapFind m k else if k = x.1 then some x.2 else mapFind m k := by
  rw [mapInsert]
  by_cases h : (m.any fun y => y.1 = x.1) = true
  · rw [if_pos h, if_pos ((any_iff m x.1).mp h)]
  · rw [if_neg h, if_neg (fun h' => h ((any_iff m x.1).mpr h'))]
    apply mapFind_place
    intro y hy he
    apply h
    rw [List.any_eq_true]
    exact ⟨y, hy, by simpa using he⟩

theorem mapFind_assign (c : Conf) (name : Str) (s : Section) (k : Str) :
    mapFind (assign c name s) k = if k = name then (mapFind c k).map (fun _ => s) else mapFind c k := by
  induction c with
  | nil => simp [assign, mapFind]
  | cons p c ih =>
    simp only [assign, List.map_cons, mapFind, List.find?_cons] at ih ⊢
    by_cases hp : p.1 = name
    · simp only [hp, if_true]
      by_cases hk : k = name
      · simp [hk]
      · have : decide (name = k) = false := by simpa using fun h => hk h.symm
        simp only [this]
        exact ih
    · simp only [hp, if_false]
      by_cases hk : p.1 = k
      · have : k ≠ name := by rw [← hk]; exact hp
        simp [hk, this]
      · simp only [hk, decide_false]
        exact ih

/-! ## Names, trimming, splitting -/

theorem isName_iff (n : Str) : isName n = true ↔ Name n := by
  induction n with
  | nil => simp [isName, Name]
  | cons c n ih =>
    rw [isName]
    have hn : Name (c :: n) ↔ NameChar c ∧ Name n := by simp [Name]
    rw [hn]
    by_cases hc : NameChar c
    · rw [if_neg]
      · rw [ih]; simp [hc]
      · simp only [Bool.and_eq_true, Bool.not_eq_true', Bool.and_eq_false_iff, decide_eq_false_iff_not, decide_eq_true_eq]
        rw [NameChar] at hc
        omega
    · rw [if_pos]
      · simp [hc]
      · simp only [Bool.and_eq_true, Bool.not_eq_true', Bool.and_eq_false_iff, decide_eq_false_iff_not, decide_eq_true_eq]
        rw [NameChar] at hc
        omega

/-- space or tab -/
def isSp (c : UInt8) : Bool := decide (c = 32 ∨ c = 9)

theorem trimLoop_eq (str : Str) : ∀ i, i ≤ str.length →
    trimLoop str i = .ok (((str.take i).reverse.dropWhile isSp).length) := by
  intro i
  induction i with
  | zero => intro _; simp [trimLoop]
  | succ i ih =>
    intro hi
    have ht : str.take (i + 1) = str.take i ++ [str[i]'(by omega)] := (List.take_append_getElem (by omega)).symm
    rw [trimLoop, at?_eq_ok (by omega), ht, List.reverse_append]
    simp only [Res.ok_bind, Res.pure_eq, List.reverse_cons, List.reverse_nil, List.nil_append, List.singleton_append, List.dropWhile_cons]
    by_cases h : str[i]'(by omega) = 32 ∨ str[i]'(by omega) = 9
    · rw [if_pos h, ih (by omega), show isSp (str[i]'(by omega)) = true by simpa [isSp] using h]
      rfl
    · rw [if_neg h, show isSp (str[i]'(by omega)) = false by simpa [isSp] using h]
      simp; omega

theorem snoc_of_ne_nil (l : Str) (h : l ≠ []) : ∃ m y, l = m ++ [y] :=
  ⟨l.dropLast, l.getLast h, (List.dropLast_concat_getLast h).symm⟩

theorem trimEndSpace_eq (str : Str) : trimEndSpace str = .ok (str.reverse.dropWhile isSp).reverse := by
  rw [trimEndSpace]
  split
  · rename_i h; subst h; rfl
  · rw [trimLoop_eq str _ (Nat.le_refl _)]
    simp only [Res.ok_bind, Res.pure_eq, List.take_length]
    congr 1
    obtain ⟨pre, hpre⟩ := List.dropWhile_suffix (l := str.reverse) isSp
    have : str = (str.reverse.dropWhile isSp).reverse ++ pre.reverse := by
      rw [← List.reverse_append, hpre, List.reverse_reverse]
    rw [congrArg (List.take (str.reverse.dropWhile isSp).length) this, List.take_left' (by simp)]

theorem trim_of (k sp : Str) (hk : Name k) (hsp : ∀ c ∈ sp, c = 32 ∨ c = 9) : trimEndSpace (k ++ sp) = .ok k := by
  rw [trimEndSpace_eq, List.reverse_append]
  have h1 : (sp.reverse ++ k.reverse).dropWhile isSp = k.reverse.dropWhile isSp := by
    rw [List.dropWhile_append_of_pos]
    intro c hc
    simpa [isSp] using hsp c (by simpa using hc)
  have h2 : k.reverse.dropWhile isSp = k.reverse := by
    cases hr : k.reverse with
    | nil => rfl
    | cons c t =>
      have : NameChar c := hk c (by rw [← List.mem_reverse, hr]; simp)
      have hns : isSp c = false := by
        simp only [isSp, decide_eq_false_iff_not]
        rintro (rfl | rfl) <;> exact absurd this (by simp [NameChar])
      rw [List.dropWhile_cons_of_neg (by simp [hns])]
  rw [h1, h2, List.reverse_reverse]

theorem trim_split (a : Str) : ∃ k sp, trimEndSpace a = .ok k ∧ a = k ++ sp ∧ ∀ c ∈ sp, c = 32 ∨ c = 9 := by
  rw [trimEndSpace_eq]
  refine ⟨_, (a.reverse.takeWhile isSp).reverse, rfl, ?_, ?_⟩
  · rw [← List.reverse_append, List.takeWhile_append_dropWhile, List.reverse_reverse]
  · intro c hc
    rw [List.mem_reverse] at hc
    have : ∀ (l : Str) (c : UInt8), c ∈ l.takeWhile isSp → isSp c = true := by
      intro l
      induction l with
      | nil => simp
      | cons x l ih =>
        intro c hc
        rw [List.takeWhile_cons] at hc
        split at hc
        · simp only [List.mem_cons] at hc
          rcases hc with rfl | hc
          · assumption
          · exact ih c hc
        · simp at hc
    simpa [isSp] using this _ c hc

theorem strchr_spec (l : Str) :
    (∃ a b, l = a ++ 61 :: b ∧ 61 ∉ a ∧ 0 ∉ a ∧ strchr 61 (l ++ [0]) = .ok (some a.length)) ∨
    ((¬ ∃ a b, l = a ++ 61 :: b ∧ 61 ∉ a ∧ 0 ∉ a) ∧ strchr 61 (l ++ [0]) = .ok none) := by
  induction l with
  | nil => right; exact ⟨by rintro ⟨a, b, h, _⟩; simp at h, by simp [strchr]⟩
  | cons x l ih =>
    rw [List.cons_append, strchr]
    by_cases h1 : x = 61
    · left
      rw [if_pos h1]
      exact ⟨[], l, by rw [h1]; rfl, by simp, by simp, rfl⟩
    · rw [if_neg h1]
      by_cases h0 : x = 0
      · right
        rw [if_pos h0]
        refine ⟨?_, rfl⟩
        rintro ⟨a, b, h, h2, h3⟩
        cases a with
        | nil => simp at h; exact h1 h.1
        | cons y a => simp at h h3; exact h3.1 (by rw [← h.1, h0])
      · rw [if_neg h0]
        rcases ih with ⟨a, b, h, h2, h3, h4⟩ | ⟨h, h2⟩
        · left
          refine ⟨x :: a, b, by rw [h]; rfl, ?_, ?_, ?_⟩
          · simp only [List.mem_cons, not_or]; exact ⟨fun h => h1 h.symm, h2⟩
          · simp only [List.mem_cons, not_or]; exact ⟨fun h => h0 h.symm, h3⟩
          · rw [h4]; rfl
        · right
          refine ⟨?_, by rw [h2]; rfl⟩
          rintro ⟨a, b, e, h3, h4⟩
          cases a with
          | nil => simp at e; exact h1 e.1
          | cons y a =>
            simp only [List.mem_cons, not_or] at h3 h4
            simp only [List.cons_append, List.cons.injEq] at e
            exact h ⟨a, b, e.2, h3.2, h4.2⟩

theorem cut_unique (a b a' b' : Str) (h : a ++ 61 :: b = a' ++ 61 :: b') (h1 : 61 ∉ a) (h2 : 61 ∉ a') : a = a' ∧ b = b' := by
  induction a generalizing a' with
  | nil =>
    cases a' with
    | nil => simpa using h
    | cons y a' => simp at h h2; exact absurd h.1 h2.1
  | cons x a ih =>
    cases a' with
    | nil => simp at h h1; exact absurd h.1.symm h1.1
    | cons y a' =>
      simp only [List.mem_cons, not_or] at h1 h2
      simp only [List.cons_append, List.cons.injEq] at h
      obtain ⟨g1, g2⟩ := ih a' h.2 h1.2 h2.2
      exact ⟨by rw [h.1, g1], g2⟩

theorem name_not (k : Str) (hk : Name k) (c : UInt8) (hc : ¬ NameChar c) : c ∉ k := fun h => hc (hk c h)

theorem keysp_clean (k sp : Str) (hk : Name k) (hsp : ∀ c ∈ sp, c = 32 ∨ c = 9) (d : UInt8) (hd : ¬ NameChar d) (hd2 : d ≠ 32 ∧ d ≠ 9) :
    d ∉ k ++ sp := by
  rw [List.mem_append]
  rintro (h | h)
  · exact name_not k hk d hd h
  · rcases hsp d h with h | h
    · exact hd2.1 h
    · exact hd2.2 h

theorem split_entry (k sp v : Str) (hk : Name k) (hsp : ∀ c ∈ sp, c = 32 ∨ c = 9) :
    split (k ++ sp ++ [61] ++ v) = .ok (k, v) := by
  have e : k ++ sp ++ [61] ++ v = (k ++ sp) ++ 61 :: v := by simp
  have n61 := keysp_clean k sp hk hsp 61 (by simp [NameChar]) (by decide)
  have n0 := keysp_clean k sp hk hsp 0 (by simp [NameChar]) (by decide)
  rw [e, split]
  rcases strchr_spec (k ++ sp ++ 61 :: v) with ⟨a, b, h, h1, _, h3⟩ | ⟨h, _⟩
  · obtain ⟨rfl, rfl⟩ := cut_unique _ _ _ _ h.symm h1 n61
    rw [h3]
    simp only [Res.ok_bind]
    rw [List.take_left' rfl, trim_of k sp hk hsp]
    simp only [Res.ok_bind, Res.pure_eq]
    rw [if_neg (by simp [(isName_iff k).mpr hk])]
    congr 2
    rw [show k ++ sp ++ 61 :: b = (k ++ sp ++ [61]) ++ b by simp, List.drop_left' (by simp; omega)]
  · exact absurd ⟨_, _, rfl, n61, n0⟩ h

theorem split_other (line : Str) (h : ¬ ∃ k sp v, Name k ∧ (∀ c ∈ sp, c = 32 ∨ c = 9) ∧ line = k ++ sp ++ [61] ++ v) : split line = .throw := by
  rw [split]
  rcases strchr_spec line with ⟨a, b, e, h1, _, h3⟩ | ⟨_, h2⟩
  · rw [h3]
    simp only [Res.ok_bind]
    subst e
    rw [List.take_left' rfl]
    obtain ⟨k, sp, t1, t2, t3⟩ := trim_split a
    rw [t1]
    simp only [Res.ok_bind]
    rw [if_pos]
    by_cases hn : isName k = true
    · exact absurd ⟨k, sp, b, (isName_iff k).mp hn, t3, by rw [t2]; simp⟩ h
    · simpa using hn
  · rw [h2]; rfl

/-! ## Lines -/

/-- What an item does to the configuration. -/
def applyItem (c : Conf) (sec : Str) : Item → Res (Conf × Str)
  | .skip => .ok (c, sec)
  | .section n => do
    let c ← appendSection c n
    return (c, n)
  | .entry k v => do
    let c ← appendTo c sec k v
    return (c, sec)

theorem loadBody_line (c : Conf) (sec line : Str) (hne : line ≠ []) (i : Item) (h : Line line i) : loadBody c sec line = applyItem c sec i := by
  cases h with
  | empty => exact absurd rfl hne
  | comment x text hx =>
    rw [loadBody, at?_eq_ok (by simp)]
    simp only [Res.ok_bind, List.getElem_cons_zero]
    rw [if_pos hx]
    rfl
  | «section» name hn =>
    rw [loadBody, at?_eq_ok (by simp)]
    simp only [Res.ok_bind, List.append_assoc, List.singleton_append, List.cons_append, List.nil_append, List.getElem_cons_zero]
    rw [if_neg (by decide), if_pos trivial, at?_eq_ok (by simp)]
    simp only [Res.ok_bind]
    rw [if_neg]
    · have : ((91 :: (name ++ [93])).drop 1).take ((91 :: (name ++ [93])).length - 2) = name := by
        rw [List.drop_one, List.tail_cons, List.take_left' (by simp)]
      rw [this]
      rfl
    · simp
  | entry k sp v hk hsp =>
    have hx : ∃ x t, k ++ sp ++ [0x3d] ++ v = x :: t ∧ x ≠ 59 ∧ x ≠ 35 ∧ x ≠ 91 := by
      cases k with
      | cons x k =>
        have hx : NameChar x := hk x (by simp)
        refine ⟨x, k ++ sp ++ [0x3d] ++ v, by simp, ?_, ?_, ?_⟩ <;> (rintro rfl; exact absurd hx (by simp [NameChar]))
      | nil =>
        cases sp with
        | cons x sp =>
          have hx := hsp x (by simp)
          refine ⟨x, sp ++ [0x3d] ++ v, by simp, ?_, ?_, ?_⟩ <;> (rintro rfl; exact absurd hx (by decide))
        | nil => exact ⟨0x3d, v, by simp, by decide, by decide, by decide⟩
    obtain ⟨x, t, e, n1, n2, n3⟩ := hx
    have hsplit := split_entry k sp v hk hsp
    rw [show (k ++ sp ++ [0x3d] ++ v) = (k ++ sp ++ [61] ++ v) from rfl] at *
    rw [loadBody, hsplit, at?_eq_ok (by rw [e]; simp)]
    simp only [Res.ok_bind]
    have : (k ++ sp ++ [61] ++ v)[0]'(by rw [e]; simp) = x := by simp only [e, List.getElem_cons_zero]
    rw [this, if_neg (by rintro (h | h); exact n1 h; exact n2 h), if_neg n3]
    rfl

theorem loadBody_bad (c : Conf) (sec line : Str) (hne : line ≠ []) (h : ¬ ∃ i, Line line i) : loadBody c sec line = .throw := by
  cases line with
  | nil => exact absurd rfl hne
  | cons x t =>
    rw [loadBody, at?_eq_ok (by simp)]
    simp only [Res.ok_bind, List.getElem_cons_zero]
    by_cases h1 : x = 59 ∨ x = 35
    · exact absurd ⟨_, .comment x t h1⟩ h
    · rw [if_neg h1]
      by_cases h2 : x = 91
      · rw [if_pos h2, at?_eq_ok (by simp)]
        simp only [Res.ok_bind]
        by_cases h3 : (x :: t)[(x :: t).length - 1]'(by simp) = 93
        · rw [if_neg (by simpa using h3)]
          -- the line is [ ... ]
          have hlast : t ≠ [] := by
            rintro rfl
            simp at h3
            rw [h2] at h3
            exact absurd h3 (by decide)
          obtain ⟨m, y, rfl⟩ := snoc_of_ne_nil t hlast
          have hy : y = 93 := by
            have : (x :: (m ++ [y]))[(x :: (m ++ [y])).length - 1]'(by simp) = y := by simp
            rw [← this]; exact h3
          subst hy
          have : ((x :: (m ++ [93])).drop 1).take ((x :: (m ++ [93])).length - 2) = m := by
            rw [List.drop_one, List.tail_cons, List.take_left' (by simp)]
          rw [this, appendSection]
          by_cases hm : isName m = true
          · refine absurd ⟨.section m, ?_⟩ h
            have := Line.section m ((isName_iff m).mp hm)
            rw [h2]
            exact this
          · rw [if_pos (by simpa using hm)]; rfl
        · rw [if_pos (by simpa using h3)]
      · rw [if_neg h2, split_other]
        · rfl
        · rintro ⟨k, sp, v, hk, hsp, e⟩
          exact h ⟨_, by rw [e]; exact .entry k sp v hk hsp⟩

theorem chomp_snoc (l : Str) (y : UInt8) : chomp (l ++ [y]) = if y = 13 then l else l ++ [y] := by
  rw [chomp]
  simp

theorem loadLine_eq (c : Conf) (sec line : Str) :
    loadLine c sec line = if chomp line = [] then .ok (c, sec) else loadBody c sec (chomp line) := by
  rw [loadLine]
  by_cases h0 : line = []
  · subst h0; simp [chomp]
  · obtain ⟨m, y, rfl⟩ := snoc_of_ne_nil line h0
    rw [if_neg (by simp), at?_eq_ok (by simp), chomp_snoc]
    simp only [Res.ok_bind, Res.pure_eq, List.length_append, List.length_cons, List.length_nil, Nat.zero_add, Nat.add_sub_cancel,
      List.getElem_concat_length]
    by_cases hy : y = 13
    · rw [if_pos hy, if_pos hy, List.take_left' rfl]
      by_cases hm : m = []
      · subst hm; simp
      · have : m.length ≠ 0 := by simpa using hm
        rw [if_neg (by omega), if_neg hm]
    · rw [if_neg hy, if_neg hy, if_neg (by simp)]

theorem loadLine_line (c : Conf) (sec line : Str) (i : Item) (h : Line (chomp line) i) : loadLine c sec line = applyItem c sec i := by
  rw [loadLine_eq]
  by_cases h0 : chomp line = []
  · rw [if_pos h0]
    rw [h0] at h
    generalize hl : ([] : Str) = l at h
    cases h with
    | empty => rfl
    | comment c t => cases hl
    | «section» n => simp at hl
    | entry k sp v => simp at hl
  · rw [if_neg h0, loadBody_line c sec _ h0 i h]

theorem loadLine_bad (c : Conf) (sec line : Str) (h : ¬ ∃ i, Line (chomp line) i) : loadLine c sec line = .throw := by
  rw [loadLine_eq]
  by_cases h0 : chomp line = []
  · exact absurd ⟨.skip, by rw [h0]; exact .empty⟩ h
  · rw [if_neg h0, loadBody_bad c sec _ h0 h]

/-- What a list of items does. -/
def loadItems (c : Conf) (sec : Str) : List Item → Res Conf
  | [] => .ok c
  | i :: is => do
    let (c, sec) ← applyItem c sec i
    loadItems c sec is

theorem loadLines_says (ls : List Str) (items : List Item) (h : Says ls items) : ∀ c sec, loadLines c sec ls = loadItems c sec items := by
  induction h with
  | nil => intro c sec; rfl
  | cons l ls i is hl _ ih =>
    intro c sec
    rw [loadLines, loadItems, loadLine_line c sec l i hl]
    cases applyItem c sec i with
    | ok p => simp [ih]
    | throw => rfl
    | ub => rfl

theorem loadLines_ok (ls : List Str) : ∀ c sec c', loadLines c sec ls = .ok c' → ∃ items, Says ls items := by
  induction ls with
  | nil => intro c sec c' _; exact ⟨[], .nil⟩
  | cons l ls ih =>
    intro c sec c' h
    by_cases hl : ∃ i, Line (chomp l) i
    · obtain ⟨i, hi⟩ := hl
      rw [loadLines] at h
      rw [Res.bind_eq_ok] at h
      obtain ⟨p, _, h2⟩ := h
      obtain ⟨items, hit⟩ := ih p.1 p.2 c' h2
      exact ⟨i :: items, .cons l ls i items hi hit⟩
    · rw [loadLines, loadLine_bad c sec l hl] at h
      cases h

theorem getlines_eq (text : Str) : ∀ cur, getlines cur text = linesFrom cur text := by
  induction text with
  | nil => intro cur; rfl
  | cons c cs ih => intro cur; rw [getlines, linesFrom, ih, ih]

/-! ## Meaning -/

/-- The value a configuration has for a key in a section. -/
def query (c : Conf) (s k : Str) : Option Str := (querySection c s).bind fun m => Section.queryValue m k

/-- The configuration has exactly the entries `E` and the sections `S`. -/
structure Rep (c : Conf) (E : List (Str × Str × Str)) (S : List Str) : Prop where
  entries : ∀ s k v, query c s k = some v ↔ (s, k, v) ∈ E
  secs : ∀ s, (querySection c s).isSome = true ↔ s ∈ S

theorem appendSection_find (c : Conf) (name : Str) (s : Str) :
    querySection (mapInsert c (name, [])).1 s =
      if (querySection c name).isSome then querySection c s else if s = name then some [] else querySection c s :=
  mapFind_insert c (name, []) s

theorem Rep.section {c : Conf} {E : List (Str × Str × Str)} {S : List Str} (h : Rep c E S) (name : Str) :
    Rep (mapInsert c (name, [])).1 E (S ++ [name]) := by
  constructor
  · intro s k v
    rw [← h.entries, query, query, appendSection_find]
    by_cases h1 : (querySection c name).isSome = true
    · rw [if_pos h1]
    · rw [if_neg h1]
      by_cases h2 : s = name
      · subst h2
        rw [if_pos rfl]
        have : querySection c s = none := by simpa using h1
        rw [this]
        simp [Section.queryValue, mapFind]
      · rw [if_neg h2]
  · intro s
    rw [appendSection_find, List.mem_append, List.mem_singleton, ← h.secs]
    by_cases h1 : (querySection c name).isSome = true
    · rw [if_pos h1]
      constructor
      · exact fun h => .inl h
      · rintro (h | h)
        · exact h
        · rw [h]; exact h1
    · rw [if_neg h1]
      by_cases h2 : s = name
      · simp [h2]
      · simp [h2]

theorem appendTo_ok {c : Conf} {E : List (Str × Str × Str)} {S : List Str} (h : Rep c E S) (sec k v : Str) (hs : sec ∈ S) (hk : Name k) :
    ((∃ v', (sec, k, v') ∈ E) ∧ appendTo c sec k v = .throw) ∨
    ((¬ ∃ v', (sec, k, v') ∈ E) ∧ ∃ c', appendTo c sec k v = .ok c' ∧ Rep c' (E ++ [(sec, k, v)]) S) := by
  obtain ⟨m, hm⟩ : ∃ m, querySection c sec = some m := by
    have := (h.secs sec).mpr hs
    exact Option.isSome_iff_exists.mp this
  have hq : ∀ v', (sec, k, v') ∈ E ↔ mapFind m k = some v' := by
    intro v'
    rw [← h.entries, query, hm]
    rfl
  rw [appendTo, hm]
  simp only [Section.append]
  rw [if_neg (by simp [(isName_iff k).mpr hk])]
  have hfi := fun k' => mapFind_insert m (k, v) k'
  by_cases hex : (mapFind m k).isSome = true
  · left
    obtain ⟨v', hv'⟩ := Option.isSome_iff_exists.mp hex
    refine ⟨⟨v', (hq v').mpr hv'⟩, ?_⟩
    rw [mapInsert, if_pos ((any_iff m k).mpr hex)]
    rfl
  · right
    refine ⟨?_, ?_⟩
    · rintro ⟨v', hv'⟩
      rw [hq] at hv'
      rw [hv'] at hex
      exact hex rfl
    · simp only [hex, Bool.false_eq_true, if_false] at hfi
      rw [mapInsert, if_neg (fun h' => hex ((any_iff m k).mp h'))] at hfi ⊢
      simp only [Bool.not_true, Bool.false_eq_true, if_false, Res.ok_bind, Res.pure_eq]
      refine ⟨_, rfl, ⟨?_, ?_⟩⟩
      · intro s k' v'
        rw [query, querySection, mapFind_assign]
        by_cases hss : s = sec
        · subst hss
          rw [if_pos rfl, show mapFind c s = some m from hm]
          simp only [Option.map_some, Option.bind_some, Section.queryValue]
          rw [hfi k', List.mem_append, List.mem_singleton]
          have hq' : (s, k', v') ∈ E ↔ mapFind m k' = some v' := by
            rw [← h.entries, query, hm]; rfl
          rw [hq']
          by_cases hkk : k' = k
          · subst hkk
            rw [if_pos rfl]
            have : mapFind m k' = none := by simpa using hex
            rw [this]
            simp [eq_comm]
          · rw [if_neg hkk]
            simp [hkk]
        · rw [if_neg hss, List.mem_append, List.mem_singleton, ← h.entries]
          simp only [Prod.mk.injEq, hss, false_and, or_false]
          rfl
      · intro s
        rw [querySection, mapFind_assign, ← h.secs]
        split
        · simp [querySection]
        · rfl

/-- Every section and key of an item is a name. -/
def ItemOk : Item → Prop
  | .skip => True
  | .section n => Name n
  | .entry k _ => Name k

theorem line_ok (l : Str) (i : Item) (h : Line l i) : ItemOk i := by
  cases h with
  | empty => trivial
  | comment => trivial
  | «section» n hn => exact hn
  | entry k sp v hk => exact hk

theorem says_ok (ls : List Str) (items : List Item) (h : Says ls items) : ∀ i ∈ items, ItemOk i := by
  induction h with
  | nil => simp
  | cons l ls i is hl _ ih =>
    intro j hj
    simp only [List.mem_cons] at hj
    rcases hj with rfl | hj
    · exact line_ok _ _ hl
    · exact ih j hj

/-- The section names among the items. -/
def names (items : List Item) : List Str := items.filterMap fun | .section n => some n | _ => none

theorem loadItems_spec (items : List Item) : ∀ (c : Conf) (sec : Str) (E : List (Str × Str × Str)) (S : List Str), Rep c E S → NoRepeat E → sec ∈ S →
    (∀ i ∈ items, ItemOk i) →
    (NoRepeat (E ++ entries sec items) ∧ ∃ c', loadItems c sec items = .ok c' ∧ Rep c' (E ++ entries sec items) (S ++ names items)) ∨
    (¬ NoRepeat (E ++ entries sec items) ∧ loadItems c sec items = .throw) := by
  induction items with
  | nil =>
    intro c sec E S h hn _ _
    left
    simp only [entries, List.append_nil, names, List.filterMap_nil]
    exact ⟨hn, c, rfl, h⟩
  | cons i items ih =>
    intro c sec E S h hn hs hok
    have hok' : ∀ i ∈ items, ItemOk i := fun j hj => hok j (by simp [hj])
    cases i with
    | skip =>
      have := ih c sec E S h hn hs hok'
      simpa only [entries, loadItems, applyItem, Res.ok_bind, names, List.filterMap_cons] using this
    | «section» n =>
      have hname : Name n := hok (.section n) (by simp)
      have := ih (mapInsert c (n, [])).1 n E (S ++ [n]) (h.section n) hn (by simp) hok'
      simp only [entries, loadItems, applyItem, appendSection, names, List.filterMap_cons]
      rw [if_neg (by simp [(isName_iff n).mpr hname])]
      simp only [Res.ok_bind, Res.pure_eq]
      simpa only [names, List.append_assoc, List.singleton_append] using this
    | entry k v =>
      have hname : Name k := hok (.entry k v) (by simp)
      simp only [entries, loadItems, applyItem, names, List.filterMap_cons]
      rcases appendTo_ok h sec k v hs hname with ⟨⟨v', hv'⟩, ht⟩ | ⟨hno, c', h1, h2⟩
      · right
        refine ⟨?_, by rw [ht]; rfl⟩
        rw [NoRepeat, List.pairwise_append]
        intro hp
        exact hp.2.2 _ hv' (sec, k, v) (by simp) rfl
      · rw [h1]
        simp only [Res.ok_bind, Res.pure_eq]
        have hn' : NoRepeat (E ++ [(sec, k, v)]) := by
          rw [NoRepeat, List.pairwise_append]
          refine ⟨hn, by simp, ?_⟩
          intro a ha b hb
          rw [List.mem_singleton] at hb
          subst hb
          intro he
          simp only [Prod.mk.injEq] at he
          exact hno ⟨a.2.2, by rw [← he.1, ← he.2]; exact ha⟩
        have := ih c' sec (E ++ [(sec, k, v)]) S h2 hn' hs hok'
        simpa only [names, List.append_assoc, List.singleton_append] using this

theorem rep_empty : Rep (mapInsert ([] : Conf) ([], [])).1 [] [[]] := by
  constructor
  · intro s k v
    simp only [mapInsert, List.any_nil, Bool.false_eq_true, if_false, place, query, querySection, mapFind, List.find?_cons, List.find?_nil]
    by_cases h : s = []
    · simp [h, Section.queryValue, mapFind]
    · simp [show ¬ ([] : Str) = s from fun h' => h h'.symm]
  · intro s
    simp only [mapInsert, List.any_nil, Bool.false_eq_true, if_false, place, querySection, mapFind, List.find?_cons, List.find?_nil]
    by_cases h : s = []
    · simp [h]
    · simp [show ¬ ([] : Str) = s from fun h' => h h'.symm, h]

/-! ## Printing and loading -/

/-- A section: keys are names, sorted. -/
def SecValid (m : Section) : Prop := Sorted m ∧ ∀ p ∈ m, Name p.1

/-- A configuration as the API builds it. -/
def Valid (c : Conf) : Prop := Sorted c ∧ ∀ p ∈ c, Name p.1 ∧ SecValid p.2

/-- A value that survives: no LF inside, no CR at the end. -/
def ValueOk (v : Str) : Prop := 10 ∉ v ∧ v.getLast? ≠ some 13

/-- What the printed text says. -/
def itemsOf (c : Conf) : List Item :=
  (c.map fun p => (if p.1 ≠ [] then [Item.section p.1] else []) ++ p.2.map fun q => Item.entry q.1 q.2).flatten

/-- The printed lines. -/
def linesOf (c : Conf) : List Str :=
  (c.map fun p => (if p.1 ≠ [] then [[91] ++ p.1 ++ [93]] else []) ++ p.2.map fun q => q.1 ++ [61] ++ q.2).flatten

theorem getlines_line (a r : Str) (ha : 10 ∉ a) : ∀ cur, getlines cur (a ++ 10 :: r) = (cur ++ a) :: getlines [] r := by
  induction a with
  | nil => intro cur; simp [getlines]
  | cons c a ih =>
    intro cur
    simp only [List.mem_cons, not_or] at ha
    rw [List.cons_append, getlines, if_neg (fun h => ha.1 h.symm), ih ha.2]
    simp

theorem getlines_lines (ls : List Str) (h : ∀ l ∈ ls, 10 ∉ l) : getlines [] (ls.map (· ++ [10])).flatten = ls := by
  induction ls with
  | nil => rfl
  | cons l ls ih =>
    rw [List.map_cons, List.flatten_cons, List.append_assoc, List.singleton_append, getlines_line l _ (h l (by simp)),
      ih (fun l' hl' => h l' (by simp [hl']))]
    rfl

theorem toString_eq (c : Conf) : toString c = ((linesOf c).map (· ++ [10])).flatten := by
  rw [toString, linesOf]
  induction c with
  | nil => rfl
  | cons p c ih =>
    rw [List.map_cons, List.flatten_cons, ih, List.map_cons, List.flatten_cons, List.map_append, List.flatten_append]
    congr 1
    rw [List.map_append, List.flatten_append]
    congr 1
    · split <;> simp
    · simp [Section.toString, Function.comp_def]

theorem says_append (a b : List Str) (i j : List Item) (h1 : Says a i) (h2 : Says b j) : Says (a ++ b) (i ++ j) := by
  induction h1 with
  | nil => exact h2
  | cons l ls i is hl _ ih => exact .cons l _ i _ hl ih

theorem says_map {α : Type} (l : List α) (f : α → Str) (g : α → Item) (h : ∀ x ∈ l, Line (chomp (f x)) (g x)) : Says (l.map f) (l.map g) := by
  induction l with
  | nil => exact .nil
  | cons x l ih => exact .cons _ _ _ _ (h x (by simp)) (ih (fun y hy => h y (by simp [hy])))

theorem chomp_of (l : Str) (h : l.getLast? ≠ some 13) : chomp l = l := by rw [chomp, if_neg h]

theorem says_print (c : Conf) (hv : Valid c) (hval : ∀ p ∈ c, ∀ q ∈ p.2, ValueOk q.2) : Says (linesOf c) (itemsOf c) := by
  rw [linesOf, itemsOf]
  have hv2 := hv.2
  clear hv
  induction c with
  | nil => exact .nil
  | cons p c ih =>
    rw [List.map_cons, List.flatten_cons, List.map_cons, List.flatten_cons]
    apply says_append
    · apply says_append
      · by_cases h : p.1 ≠ []
        · rw [if_pos h, if_pos h]
          refine .cons _ _ _ _ ?_ .nil
          rw [chomp_of]
          · exact .section p.1 (hv2 p (by simp)).1
          · rw [List.getLast?_append]; simp
        · rw [if_neg h, if_neg h]
          exact .nil
      · apply says_map
        intro q hq
        have h1 := (hv2 p (by simp)).2.2 q hq
        have h2 := hval p (by simp) q hq
        rw [chomp_of]
        · have := Line.entry q.1 [] q.2 h1 (by simp)
          simpa using this
        · by_cases hq2 : q.2 = []
          · rw [hq2]; simp
          · rw [List.getLast?_append, List.getLast?_eq_some_getLast hq2]
            have := h2.2
            rw [List.getLast?_eq_some_getLast hq2] at this
            simpa using this
    · exact ih (fun p' hp' => hval p' (by simp [hp'])) (fun p' hp' => hv2 p' (by simp [hp']))

theorem linesOf_no_lf (c : Conf) (hv : Valid c) (hval : ∀ p ∈ c, ∀ q ∈ p.2, ValueOk q.2) : ∀ l ∈ linesOf c, 10 ∉ l := by
  intro l hl
  have n10 : ∀ n, Name n → 10 ∉ n := fun n hn => name_not n hn 10 (by simp [NameChar])
  simp only [linesOf, List.mem_flatten, List.mem_map] at hl
  obtain ⟨ls, ⟨p, hp, rfl⟩, hl⟩ := hl
  rw [List.mem_append] at hl
  rcases hl with hl | hl
  · split at hl
    · rw [List.mem_singleton] at hl
      subst hl
      have := n10 p.1 (hv.2 p hp).1
      simp [this]
    · simp at hl
  · simp only [List.mem_map] at hl
    obtain ⟨q, hq, rfl⟩ := hl
    have h1 := n10 q.1 ((hv.2 p hp).2.2 q hq)
    have h2 := (hval p hp q hq).1
    simp [h1, h2]

theorem find_last (pre : Conf) (sec : Str) (m : Section) (h : ∀ p ∈ pre, p.1 ≠ sec) : querySection (pre ++ [(sec, m)]) sec = some m := by
  rw [querySection, mapFind, List.find?_append]
  have : pre.find? (fun y => decide (y.1 = sec)) = none := by
    rw [List.find?_eq_none]
    intro p hp
    simpa using h p hp
  rw [this]
  simp

theorem assign_last (pre : Conf) (sec : Str) (m m' : Section) (h : ∀ p ∈ pre, p.1 ≠ sec) : assign (pre ++ [(sec, m)]) sec m' = pre ++ [(sec, m')] := by
  rw [assign, List.map_append]
  congr 1
  · conv => rhs; rw [← List.map_id pre]
    apply List.map_congr_left
    intro p hp
    rw [if_neg (h p hp)]; rfl
  · simp

theorem loadItems_append (a b : List Item) : ∀ c sec c' , loadItems c sec a = .ok c' →
    ∃ sec', loadItems c sec (a ++ b) = loadItems c' sec' b ∧ ((∃ n, Item.section n ∈ a) ∨ sec' = sec) := by
  induction a with
  | nil => intro c sec c' h; simp only [loadItems] at h; injection h with h; subst h; exact ⟨sec, rfl, .inr rfl⟩
  | cons i a ih =>
    intro c sec c' h
    rw [loadItems] at h
    rw [Res.bind_eq_ok] at h
    obtain ⟨p, h1, h2⟩ := h
    obtain ⟨sec', e1, e2⟩ := ih p.1 p.2 c' h2
    refine ⟨sec', ?_, ?_⟩
    · rw [List.cons_append, loadItems, h1]; exact e1
    · rcases e2 with ⟨n, hn⟩ | e2
      · exact .inl ⟨n, by simp [hn]⟩
      · cases i with
        | skip =>
          simp only [applyItem] at h1
          injection h1 with h1
          right; rw [e2, ← h1]
        | «section» n => exact .inl ⟨n, by simp⟩
        | entry k v =>
          simp only [applyItem] at h1
          rw [Res.bind_eq_ok] at h1
          obtain ⟨c1, _, h1⟩ := h1
          simp only [Res.pure_eq] at h1
          injection h1 with h1
          right; rw [e2, ← h1]

/-- Loading the entries of the last section. -/
theorem load_entries (pre : Conf) (sec : Str) (rest : List Item) (hpre : ∀ p ∈ pre, p.1 ≠ sec) (kvs : Section) : ∀ (done : Section), SecValid (done ++ kvs) →
    loadItems (pre ++ [(sec, done)]) sec ((kvs.map fun q => Item.entry q.1 q.2) ++ rest) = loadItems (pre ++ [(sec, done ++ kvs)]) sec rest := by
  induction kvs with
  | nil => intro done _; simp
  | cons q kvs ih =>
    intro done hv
    have hsort := hv.1
    rw [Sorted, List.pairwise_append] at hsort
    have hlt : ∀ y ∈ done, strLt y.1 q.1 = true := fun y hy => hsort.2.2 y hy q (by simp)
    have hany : (done.any fun y => decide (y.1 = q.1)) = false := by
      rw [List.any_eq_false]
      intro y hy
      have := hlt y hy
      simp only [decide_eq_true_eq]
      intro he
      rw [he, strLt_irrefl] at this
      cases this
    have happ : appendTo (pre ++ [(sec, done)]) sec q.1 q.2 = .ok (pre ++ [(sec, done ++ [q])]) := by
      rw [appendTo, find_last pre sec done hpre]
      simp only [Section.append]
      rw [if_neg (by simp [(isName_iff q.1).mpr (hv.2 q (by simp))]), mapInsert, if_neg (by rw [hany]; simp), place_last _ _ hlt]
      simp only [Bool.not_true, Bool.false_eq_true, if_false, Res.ok_bind, Res.pure_eq]
      rw [assign_last pre sec _ _ hpre, hany]
      rfl
    rw [List.map_cons, List.cons_append, loadItems]
    simp only [applyItem, happ, Res.ok_bind, Res.pure_eq]
    rw [ih (done ++ [q]) (by simpa using hv)]
    simp

theorem load_sections (c : Conf) : ∀ (pre : Conf) (sec : Str), Valid (pre ++ c) → (∀ p ∈ c, p.1 ≠ []) →
    loadItems pre sec (itemsOf c) = .ok (pre ++ c) := by
  induction c with
  | nil => intro pre sec _ _; simp [itemsOf, loadItems]
  | cons p c ih =>
    intro pre sec hv hne
    have hsort := hv.1
    rw [Sorted, List.pairwise_append] at hsort
    have hlt : ∀ y ∈ pre, strLt y.1 p.1 = true := fun y hy => hsort.2.2 y hy p (by simp)
    have hpre : ∀ y ∈ pre, y.1 ≠ p.1 := by
      intro y hy he
      have := hlt y hy
      rw [he, strLt_irrefl] at this
      cases this
    have hany : (pre.any fun y => decide (y.1 = p.1)) = false := by
      rw [List.any_eq_false]
      intro y hy
      simpa using hpre y hy
    have hp := hv.2 p (by simp)
    have hit : itemsOf (p :: c) = [Item.section p.1] ++ ((p.2.map fun q => Item.entry q.1 q.2) ++ itemsOf c) := by
      rw [itemsOf, List.map_cons, List.flatten_cons, if_pos (hne p (by simp))]
      simp [itemsOf]
    rw [hit, List.singleton_append, loadItems]
    simp only [applyItem, appendSection]
    rw [if_neg (by simp [(isName_iff p.1).mpr hp.1]), mapInsert, if_neg (by rw [hany]; simp), place_last _ _ (by simpa using hlt)]
    simp only [Res.ok_bind, Res.pure_eq]
    have := load_entries pre p.1 (itemsOf c) hpre p.2 [] (by simpa using hp.2)
    rw [List.nil_append] at this
    rw [this, ih (pre ++ [(p.1, p.2)]) p.1 (by simpa using hv) (fun q hq => hne q (by simp [hq]))]
    simp

/-- Loading a printed configuration into an empty one. -/
theorem load_print (c : Conf) (hv : Valid c) (hval : ∀ p ∈ c, ∀ q ∈ p.2, ValueOk q.2) :
    load [] (toString c) = .ok (if (querySection c []).isSome then c else ([], []) :: c) := by
  rw [load, appendSection, if_neg (by simp [isName]), mapInsert, if_neg (by simp), toString_eq]
  simp only [Res.ok_bind, place]
  rw [getlines_lines _ (linesOf_no_lf c hv hval), loadLines_says _ _ (says_print c hv hval)]
  have tail_ne : ∀ (p : Str × Section) (c : Conf), Sorted (p :: c) → ∀ q ∈ c, q.1 ≠ [] := by
    intro p c hs q hq he
    rw [Sorted, List.pairwise_cons] at hs
    have := hs.1 q hq
    rw [he] at this
    cases hp : p.1 <;> simp [hp, strLt] at this
  cases c with
  | nil => simp [itemsOf, loadItems, querySection, mapFind]
  | cons p c =>
    by_cases h0 : p.1 = []
    · -- the global section comes first
      have hp := hv.2 p (by simp)
      have hit : itemsOf (p :: c) = (p.2.map fun q => Item.entry q.1 q.2) ++ itemsOf c := by
        rw [itemsOf, List.map_cons, List.flatten_cons, if_neg (by simp [h0])]
        simp [itemsOf]
      rw [hit]
      have := load_entries [] [] (itemsOf c) (by simp) p.2 [] (by simpa using hp.2)
      rw [List.nil_append, List.nil_append, List.nil_append] at this
      have hpe : (([], p.2) : Str × Section) = p := by rw [← h0]
      rw [hpe] at this
      rw [this, load_sections c [p] [] (by simpa using hv) (tail_ne p c hv.1)]
      have : (querySection (p :: c) []).isSome = true := by simp [querySection, mapFind, h0]
      rw [if_pos this]
      rfl
    · have hall : ∀ q ∈ p :: c, q.1 ≠ [] := by
        intro q hq
        simp only [List.mem_cons] at hq
        rcases hq with rfl | hq
        · exact h0
        · exact tail_ne p c hv.1 q hq
      have hnone : ¬ (querySection (p :: c) []).isSome = true := by
        rw [querySection, ← any_iff, List.any_eq_true]
        rintro ⟨q, hq, he⟩
        exact hall q hq (by simpa using he)
      rw [if_neg hnone, load_sections (p :: c) [([], [])] [] ?_ hall]
      · rfl
      · refine ⟨?_, ?_⟩
        · rw [Sorted, List.singleton_append, List.pairwise_cons]
          refine ⟨?_, hv.1⟩
          intro q hq
          cases hq1 : q.1 with
          | nil => exact absurd hq1 (hall q hq)
          | cons x t => rfl
        · intro q hq
          rw [List.singleton_append, List.mem_cons] at hq
          rcases hq with rfl | hq
          · exact ⟨by simp [Name], by simp [SecValid, Sorted]⟩
          · exact hv.2 q hq

/-! ## The API keeps configurations valid -/

theorem mapInsert_sorted {β : Type} (m : List (Str × β)) (x : Str × β) (hm : Sorted m) : Sorted (mapInsert m x).1 := by
  rw [mapInsert]
  split
  · exact hm
  · rename_i h
    apply place_sorted _ _ hm
    intro y hy he
    apply h
    rw [List.any_eq_true]
    exact ⟨y, hy, by simpa using he⟩

theorem mapInsert_mem {β : Type} (m : List (Str × β)) (x y : Str × β) (h : y ∈ (mapInsert m x).1) : y = x ∨ y ∈ m := by
  rw [mapInsert] at h
  split at h
  · exact .inr h
  · rwa [place_mem] at h

theorem append_valid (s s' : Section) (k v : Str) (hs : SecValid s) (h : Section.append s k v = .ok s') : SecValid s' := by
  rw [Section.append] at h
  split at h
  · cases h
  · rename_i hk
    simp only at h
    split at h
    · cases h
    · injection h with h
      subst h
      refine ⟨mapInsert_sorted _ _ hs.1, ?_⟩
      intro p hp
      rcases mapInsert_mem _ _ _ hp with rfl | hp
      · exact (isName_iff k).mp (by simpa using hk)
      · exact hs.2 p hp

theorem appendSection_valid (c c' : Conf) (n : Str) (hc : Valid c) (h : appendSection c n = .ok c') : Valid c' := by
  rw [appendSection] at h
  split at h
  · cases h
  · rename_i hk
    injection h with h
    subst h
    refine ⟨mapInsert_sorted _ _ hc.1, ?_⟩
    intro p hp
    rcases mapInsert_mem _ _ _ hp with rfl | hp
    · exact ⟨(isName_iff n).mp (by simpa using hk), by simp [SecValid, Sorted]⟩
    · exact hc.2 p hp

theorem assign_valid (c : Conf) (n : Str) (s : Section) (hc : Valid c) (hs : SecValid s) : Valid (assign c n s) := by
  refine ⟨?_, ?_⟩
  · have := hc.1
    rw [Sorted] at this ⊢
    rw [assign, List.pairwise_map]
    apply this.imp
    intro a b hab
    split <;> split <;> exact hab
  · intro p hp
    simp only [assign, List.mem_map] at hp
    obtain ⟨q, hq, rfl⟩ := hp
    split
    · exact ⟨(hc.2 q hq).1, hs⟩
    · exact hc.2 q hq

theorem find_valid (c : Conf) (n : Str) (s : Section) (hc : Valid c) (h : querySection c n = some s) : SecValid s := by
  rw [querySection, mapFind, Option.map_eq_some_iff] at h
  obtain ⟨p, hp, rfl⟩ := h
  exact (hc.2 p (List.mem_of_find?_eq_some hp)).2

theorem appendTo_valid (c c' : Conf) (n k v : Str) (hc : Valid c) (h : appendTo c n k v = .ok c') : Valid c' := by
  rw [appendTo] at h
  cases hq : querySection c n with
  | none => rw [hq] at h; cases h
  | some s =>
    rw [hq] at h
    simp only at h
    rw [Res.bind_eq_ok] at h
    obtain ⟨s', h1, h2⟩ := h
    simp only [Res.pure_eq] at h2
    injection h2 with h2
    subst h2
    exact assign_valid c n s' hc (append_valid s s' k v (find_valid c n s hc hq) h1)

theorem loadItems_valid (items : List Item) : ∀ (c c' : Conf) (sec : Str), Valid c → loadItems c sec items = .ok c' → Valid c' := by
  induction items with
  | nil => intro c c' sec hc h; simp only [loadItems] at h; injection h with h; subst h; exact hc
  | cons i items ih =>
    intro c c' sec hc h
    rw [loadItems, Res.bind_eq_ok] at h
    obtain ⟨p, h1, h2⟩ := h
    refine ih p.1 c' p.2 ?_ h2
    cases i with
    | skip => simp only [applyItem] at h1; injection h1 with h1; subst h1; exact hc
    | «section» n =>
      simp only [applyItem] at h1
      rw [Res.bind_eq_ok] at h1
      obtain ⟨c1, h3, h4⟩ := h1
      simp only [Res.pure_eq] at h4
      injection h4 with h4
      subst h4
      exact appendSection_valid c c1 n hc h3
    | entry k v =>
      simp only [applyItem] at h1
      rw [Res.bind_eq_ok] at h1
      obtain ⟨c1, h3, h4⟩ := h1
      simp only [Res.pure_eq] at h4
      injection h4 with h4
      subst h4
      exact appendTo_valid c c1 sec k v hc h3

theorem load_valid (c c' : Conf) (text : Str) (hc : Valid c) (h : load c text = .ok c') : Valid c' := by
  rw [load, Res.bind_eq_ok] at h
  obtain ⟨c1, h1, h2⟩ := h
  obtain ⟨items, hi⟩ := loadLines_ok _ _ _ _ h2
  rw [loadLines_says _ _ hi] at h2
  exact loadItems_valid items c1 c' [] (appendSection_valid c c1 [] hc h1) h2

end Verif.Config
