import Verif.Spec.SvdSmpl
import Verif.Props.SvdText
import Verif.Props.PlsiSmpl

set_option linter.unusedSimpArgs false

/-!
# C122: the program `svd_smpl`
-/
namespace Verif.Props.SvdSmpl
open Verif.SvdSmpl Verif.SvdText
open Verif.Spec.SvdSmpl Verif.Spec.SvdText
open Verif.Spec.Numeral

theorem atoiArg_ok {v : Str} {n : Nat} (h : IsRank v n) (hlen : v.length < 2 ^ 64 - 1) : atoiArg v = .ok n := by
  obtain ⟨hz, hne, hv, hn⟩ := h
  have hm : v.head? ≠ some 45 := by
    intro e
    cases v with
    | nil => cases e
    | cons c t =>
      simp only [List.head?_cons, Option.some.injEq] at e
      subst e
      have : digit? 45 = none := by decide
      simp only [value?, List.foldl_cons, this] at hv
      exact absurd (hv.symm.trans (Props.SvdText.value_none t)) (by simp)
  have hi : Spec.PlsiSmpl.IsInt v n := by
    rw [Spec.PlsiSmpl.IsInt, Props.PlsiSmpl.upToNul_id hz]
    have hp : parseInt (2 ^ 31) (2 ^ 31 - 1) v = (parseNat 10 (2 ^ 31 - 1) v).map (fun v : Nat => (v : Int)) := by
      cases v with
      | nil => rfl
      | cons c t =>
        unfold parseInt
        split
        · rename_i e
          cases e
          exact absurd rfl hm
        · rfl
    rw [hp, parseNat, if_neg hne, hv]
    simp only
    rw [if_pos (by omega)]
    rfl
  exact Props.PlsiSmpl.atoiArg_ok hz hlen hm hi

/-! ## Arguments -/

/-- The two names that the words give. -/
def names : List Str → Str → Str → Option (Str × Str)
  | [], i, o => if i = [] then none else if o = [] then some (i, i) else some (i, o)
  | x :: ws, i, o => if i = [] then names ws x o else if o = [] then names ws i x else none

theorem args_reads {l ws : List Str} {r0 r : Nat} (h : Reads l r0 ws r) : ∀ (i o : Str), (∀ v ∈ l, v.length < 2 ^ 64 - 1) →
    args l ⟨i, o, r0⟩ = .ok ((names ws i o).map fun p => ⟨p.1, p.2, r⟩) := by
  induction h with
  | nil =>
    intro i o _
    rw [args, names, finish]
    dsimp only
    split
    · rfl
    · split <;> rfl
  | opt hv _ ih =>
    intro i o hl
    rw [args, if_pos (by rfl), atoiArg_ok hv (hl _ (by simp)), Res.ok_bind]
    exact ih i o fun v hv => hl v (by simp [hv])
  | @word x r0 r rest ws hx h ih =>
    intro i o hl
    have ih := fun i o => ih i o fun v hv => hl v (by simp [hv])
    have key : args (x :: rest) ⟨i, o, r0⟩ = match word x ⟨i, o, r0⟩ with
        | none => .ok none
        | some a => args rest a := by
      cases rest with
      | nil => rfl
      | cons v rest =>
        rw [args, if_neg (by rcases hx with hx | hx; exact hx; cases hx)]
        rfl
    rw [key, names, word]
    dsimp only
    by_cases hi : i = []
    · rw [if_pos hi, if_pos hi]
      exact ih x o
    · rw [if_neg hi, if_neg hi]
      by_cases ho : o = []
      · rw [if_pos ho, if_pos ho]
        exact ih i x
      · rw [if_neg ho, if_neg ho]
        rfl

/-- C122: one word is the name of the input and the base of the names of the output; of two, the first is the input and the second the output; without
a word, or with a third one, the usage is shown.  The rank is the last one given, or 10. -/
theorem C122_args {l ws : List Str} {r : Nat} (h : Reads l 10 ws r) (hl : ∀ v ∈ l, v.length < 2 ^ 64 - 1) (i o : Str) (hi : i ≠ []) (ho : o ≠ []) :
    (ws = [i] → args l ⟨[], [], 10⟩ = .ok (some ⟨i, i, r⟩)) ∧ (ws = [i, o] → args l ⟨[], [], 10⟩ = .ok (some ⟨i, o, r⟩)) ∧
    (ws = [] ∨ (∃ x t, ws = i :: o :: x :: t) → args l ⟨[], [], 10⟩ = .ok none) := by
  have e := args_reads h [] [] hl
  have e' : args l ⟨[], [], 10⟩ = .ok ((names ws [] []).map fun p => ⟨p.1, p.2, r⟩) := e
  rw [e']
  refine ⟨?_, ?_, ?_⟩
  · rintro rfl
    simp [names, hi]
  · rintro rfl
    simp [names, hi, ho]
  · rintro (rfl | ⟨x, t, rfl⟩)
    · rfl
    · simp [names, hi, ho]

/-- `-r 3 a -r 12 b` -/
example : args [[45, 114], [51], [97], [45, 114], [49, 50], [98]] ⟨[], [], 10⟩ = .ok (some ⟨[97], [98], 12⟩) :=
  (C122_args (l := [[45, 114], [51], [97], [45, 114], [49, 50], [98]]) (ws := [[97], [98]]) (r := 12)
    (.opt (n := 3) ⟨by decide, by decide, by decide +kernel, by decide⟩ (.word (.inl (by decide)) (.opt (n := 12)
      ⟨by decide, by decide, by decide +kernel, by decide⟩ (.word (.inl (by decide)) .nil)))) (by decide) [97] [98] (by decide) (by decide)).2.1 rfl

/-- C122 (finding): `-r` at the end is taken as the name of the output. -/
theorem C122_finding_last_r (i : Str) (hi : i ≠ []) (h2 : i ≠ [45, 114]) (hl : i.length < 2 ^ 64 - 1) :
    args [i, [45, 114]] ⟨[], [], 10⟩ = .ok (some ⟨i, [45, 114], 10⟩) :=
  (C122_args (.word (.inl h2) (.word (.inr rfl) .nil)) (by simpa using hl) i _ hi (by decide)).2.1 rfl

/-- C122 (finding): a rank with a sign, or one that is not a number, makes `atoi` read behind the end of the argument. -/
theorem C122_finding_rank_word : args [[45, 114], [45, 53], [97]] ⟨[], [], 10⟩ = .ub ∧ args [[45, 114], [97, 98], [97]] ⟨[], [], 10⟩ = .ub := by
  decide +kernel

/-! ## Files -/

theorem put_files (w : World) (n t : Str) (h : w.writable n = true) (x : Str) : (w.put n t).files x = if x = n then some t else w.files x := by
  rw [World.put, if_pos h]

theorem put_writable (w : World) (n t : Str) : (w.put n t).writable = w.writable := by
  unfold World.put; split <;> rfl

theorem ext_ne (o : Str) {a b : UInt8} (h : a ≠ b) : o ++ ext a ≠ o ++ ext b := by
  intro e
  have := List.append_cancel_left e
  simp only [ext, List.cons.injEq, and_true, true_and] at this
  exact h this

/-- The names of the three files that are written: `.U`, `.S` and `.V` are appended. -/
def Outs (w : World) (o : Str) : Prop := w.writable (o ++ [46, 85]) = true ∧ w.writable (o ++ [46, 83]) = true ∧ w.writable (o ++ [46, 86]) = true

theorem save_files {V : Type} (io : NumIO V) (w : World) (o : Str) (f : Factors V) (h : Outs w o) :
    (save io w o f).files (o ++ ext 85) = some (saveMatrix io f.S.length f.U) ∧
    (save io w o f).files (o ++ ext 83) = some (saveVector io f.S) ∧
    (save io w o f).files (o ++ ext 86) = some (saveMatrix io f.S.length f.V') ∧
    ∀ x, x ≠ o ++ ext 85 → x ≠ o ++ ext 83 → x ≠ o ++ ext 86 → (save io w o f).files x = w.files x := by
  have h1 : w.writable (o ++ ext 85) = true := h.1
  have h2 : w.writable (o ++ ext 83) = true := h.2.1
  have h3 : w.writable (o ++ ext 86) = true := h.2.2
  have e : ∀ x, (save io w o f).files x = if x = o ++ ext 86 then some (saveMatrix io f.S.length f.V') else if x = o ++ ext 83 then
      some (saveVector io f.S) else if x = o ++ ext 85 then some (saveMatrix io f.S.length f.U) else w.files x := by
    intro x
    rw [save, put_files _ _ _ (by rw [put_writable, put_writable]; exact h3), put_files _ _ _ (by rw [put_writable]; exact h2), put_files _ _ _ h1]
  refine ⟨?_, ?_, ?_, fun x a b c => ?_⟩
  · rw [e, if_neg (ext_ne o (by decide)), if_neg (ext_ne o (by decide)), if_pos rfl]
  · rw [e, if_neg (ext_ne o (by decide)), if_pos rfl]
  · rw [e, if_pos rfl]
  · rw [e, if_neg c, if_neg b, if_neg a]

/-- What is in the files after a success: the factors, as their eight digits are read. -/
def Written {V : Type} (io : NumIO V) (rd : V → V) (w : World) (o : Str) (f : Factors V) (w' : World) : Prop :=
  loadMatrix io (w'.files (o ++ [46, 85])) = .ok (some (f.U.map (·.map rd))) ∧
  loadVector io (w'.files (o ++ [46, 83])) = .ok (some (f.S.map rd)) ∧
  loadMatrix io (w'.files (o ++ [46, 86])) = .ok (some (f.V'.map (·.map rd))) ∧
  ∀ x, x ≠ o ++ [46, 85] → x ≠ o ++ [46, 83] → x ≠ o ++ [46, 86] → w'.files x = w.files x

theorem save_written {V : Type} (io : NumIO V) (hw : WritesNat io) (rd : V → V) (hx : ∀ x, Readable io x (rd x)) (w : World) (o : Str)
    (f : Factors V) (h : Outs w o) (m n r : Nat) (hm : 1 ≤ m ∧ m < 2 ^ 31) (hn : 1 ≤ n ∧ n < 2 ^ 31) (hr : 1 ≤ r ∧ r < 2 ^ 31) (hs : Sizes m n r f) :
    Written io rd w o f (save io w o f) := by
  obtain ⟨e1, e2, e3, e4⟩ := save_files io w o f h
  obtain ⟨s1, s2, s3, s4, s5⟩ := hs
  subst s1 s3 s4
  refine ⟨?_, ?_, ?_, e4⟩
  · show loadMatrix io ((save io w o f).files (o ++ ext 85)) = _
    rw [e1]
    exact Props.SvdText.C100_dense io hw rd _ _ hr hm s2 fun _ _ x _ => hx x
  · show loadVector io ((save io w o f).files (o ++ ext 83)) = _
    rw [e2]
    exact Props.SvdText.C100_vector io hw rd _ hr fun x _ => hx x
  · show loadMatrix io ((save io w o f).files (o ++ ext 86)) = _
    rw [e3]
    exact Props.SvdText.C100_dense io hw rd _ _ hr hn s5 fun _ _ x _ => hx x

theorem int_bound_header {file : Option Str} {h : Header} {rest : Str} (e : loadHeader file = .ok (some (h, rest))) :
    h.row ≤ 2147483647 ∧ h.col ≤ 2147483647 := by
  rcases Props.SvdText.loadHeader_spec file with ⟨h1, h2⟩ | ⟨h1, h2 | ⟨h', rest', h2, h3, h4, h5, h6⟩⟩
  · rw [h1] at e; cases e
  · rw [h2] at e; cases e
  · rw [h2] at e
    cases e
    exact ⟨h4, h6⟩

/-- What C73 says about `ComputeSVD`: it fails for a rank that is not positive, otherwise the factors have the sizes for the least of the rank, the
rows and the columns. -/
structure Computes {V : Type} (svd : Svd V) : Prop where
  dense : ∀ (m n : Nat) (A : List (List V)) (rank : Int), 1 ≤ m → 1 ≤ n → A.length = m → (∀ x ∈ A, x.length = n) → 0 < rank →
    ∃ f, svd.dense A rank = some f ∧ Sizes m n (min (min m n) rank.toNat) f
  sparse : ∀ (m n : Nat) (A : List (List (Nat × V))) (rank : Int), 1 ≤ m → 1 ≤ n → A.length = m → (∀ x ∈ A, Ascending n x) → 0 < rank →
    ∃ f, svd.sparse n A rank = some f ∧ Sizes m n (min (min m n) rank.toNat) f
  dense_zero : ∀ A (rank : Int), rank ≤ 0 → svd.dense A rank = none
  sparse_zero : ∀ n A (rank : Int), rank ≤ 0 → svd.sparse n A rank = none

/-- The input is taken: which factors are computed from it, for a matrix of `m` rows and `n` columns. -/
inductive Takes {V : Type} (io : NumIO V) (svd : Svd V) (file : Option Str) (rank : Int) : (m n : Nat) → Option (Factors V) → Prop
  | sparse {h : Header} {rest : Str} {SA : List (List (Nat × V))} (hh : loadHeader file = .ok (some (h, rest)))
      (e : loadSparseMatrix io file = .ok (some SA)) : Takes io svd file rank SA.length h.col.toNat (svd.sparse h.col.toNat SA rank)
  | dense {h : Header} {rest : Str} {A : List (List V)} (hh : loadHeader file = .ok (some (h, rest))) (hd : h.isSparse = false)
      (e : loadMatrix io file = .ok (some A)) : Takes io svd file rank A.length h.col.toNat (svd.dense A rank)

theorem run_takes {V : Type} {io : NumIO V} {svd : Svd V} {w : World} {a : Args} {m n : Nat} {f : Option (Factors V)}
    (h : Takes io svd (w.files a.input) a.rank m n f) : run io svd w a = .ok (true, save io w a.output (factors f)) := by
  cases h with
  | @sparse h rest SA hh e =>
    rw [run, e, Res.ok_bind]
    have : columns (w.files a.input) = h.col.toNat := by rw [columns, hh]
    simp only [Res.pure_eq]
    rw [this]
  | dense hh hd e =>
    have e0 : loadSparseMatrix io (w.files a.input) = .ok none := by
      rw [loadSparseMatrix, hh, Res.ok_bind]
      simp only [hd]
      rw [if_pos (by simp)]
      rfl
    rw [run, e0, Res.ok_bind]
    simp only
    rw [e, Res.ok_bind]
    rfl

theorem takes_sizes {V : Type} {io : NumIO V} (hf : Forward io) {svd : Svd V} (hc : Computes svd) {file : Option Str} {rank : Int} {m n : Nat}
    {f : Option (Factors V)} (h : Takes io svd file rank m n f) (hr : 0 < rank) :
    (1 ≤ m ∧ m < 2 ^ 31) ∧ (1 ≤ n ∧ n < 2 ^ 31) ∧ ∃ g, f = some g ∧ Sizes m n (min (min m n) rank.toNat) g := by
  cases h with
  | @sparse h rest SA hh e =>
    have hb := int_bound_header hh
    obtain ⟨h', rest', e1, e2, e3, e4, e5⟩ := Props.SvdText.C100_any_sparse io file SA e
    rw [hh] at e1
    cases e1
    rcases Props.SvdText.loadHeader_spec file with ⟨h1, h2⟩ | ⟨h1, h2 | ⟨h', rest', h2, h3, h4, h5, h6⟩⟩
    · rw [h1] at hh; cases hh
    · rw [h2] at hh; cases hh
    · rw [h2] at hh
      cases hh
      exact ⟨by omega, by omega, hc.sparse _ _ SA rank (by omega) (by omega) rfl e5 hr⟩
  | @dense h rest A hh hd e =>
    have hb := int_bound_header hh
    obtain ⟨h', rest', e1, e2, e3, e4, e5, e6⟩ := (Props.SvdText.C100_any_matrix io hf file).2.2 A e
    rw [hh] at e1
    cases e1
    exact ⟨by omega, by omega, hc.dense _ _ A rank (by omega) (by omega) rfl (fun x hx => by have := e6 x hx; omega) hr⟩

/-- C122: for an input that is loaded and a positive rank the program writes the three factors, of the least of the rank, the rows and the columns,
so that they can be read back, touches no other file, and ends with the status 0. -/
theorem C122_success {V : Type} (io : NumIO V) (hw : WritesNat io) (hf : Forward io) (rd : V → V) (hx : ∀ x, Readable io x (rd x)) (svd : Svd V)
    (hc : Computes svd) (w : World) (argv : List Str) (a : Args) (ha : args argv ⟨[], [], 10⟩ = .ok (some a)) (hr : 0 < a.rank)
    (ho : Outs w a.output) (m n : Nat) (f : Option (Factors V)) (ht : Takes io svd (w.files a.input) a.rank m n f) :
    ∃ g w', f = some g ∧ Sizes m n (min (min m n) a.rank.toNat) g ∧ main io svd argv w = .ok (0, w') ∧ Written io rd w a.output g w' := by
  obtain ⟨hm, hn, g, hg, hs⟩ := takes_sizes hf hc ht hr
  refine ⟨g, _, hg, hs, ?_, save_written io hw rd hx w a.output g ho m n _ hm hn ⟨by omega, by omega⟩ hs⟩
  rw [main, ha, Res.ok_bind]
  simp only
  rw [run_takes ht, Res.ok_bind, hg]
  rfl

/-- Factors of the right sizes, all zero. -/
def zeros (m n r : Nat) : Factors Nat := ⟨List.replicate m (List.replicate r 0), List.replicate r 0, List.replicate n (List.replicate r 0)⟩

theorem zeros_sizes (m n r : Nat) : Sizes m n r (zeros m n r) := by
  refine ⟨by simp [zeros], ?_, by simp [zeros], by simp [zeros], ?_⟩ <;>
  · intro x hx
    simp only [zeros] at hx
    rw [(List.mem_replicate.1 hx).2, List.length_replicate]

/-- A `ComputeSVD` for the examples. -/
def zeroSvd : Svd Nat where
  dense A rank := if rank ≤ 0 then none else
    some (zeros A.length (A.head?.getD []).length (min (min A.length (A.head?.getD []).length) rank.toNat))
  sparse n A rank := if rank ≤ 0 then none else some (zeros A.length n (min (min A.length n) rank.toNat))

theorem zeroSvd_computes : Computes zeroSvd where
  dense := by
    intro m n A rank hm hn hA hl hr
    cases A with
    | nil => simp only [List.length_nil] at hA; omega
    | cons x A =>
      have hx := hl x (by simp)
      subst hA hx
      exact ⟨_, if_neg (by omega), zeros_sizes _ _ _⟩
  sparse := by
    intro m n A rank hm hn hA _ hr
    subst hA
    exact ⟨_, if_neg (by omega), zeros_sizes _ _ _⟩
  dense_zero := fun A rank h => if_pos h
  sparse_zero := fun n A rank h => if_pos h

/-- `svd_smpl a b -r 1` for a sparse matrix. -/
example (w : World) (ho : Outs w [98]) (hi : w.files [97] = some (Props.SvdText.bytes "# M S 1 3\n0:5 2:7\n")) :
    ∃ w', main Props.SvdText.natIO zeroSvd [[97], [98], [45, 114], [49]] w = .ok (0, w') ∧
      Written Props.SvdText.natIO id w [98] (zeros 1 3 1) w' := by
  have ht : Takes Props.SvdText.natIO zeroSvd (w.files [97]) 1 1 3 (some (zeros 1 3 1)) := by
    rw [hi]
    exact .sparse (h := ⟨true, true, 1, 3⟩) (rest := Props.SvdText.bytes "0:5 2:7\n") (SA := [[(0, 5), (2, 7)]]) (by decide +kernel) (by decide +kernel)
  obtain ⟨g, w', hg, _, h1, h2⟩ := C122_success Props.SvdText.natIO Props.SvdText.natIO_writes Props.SvdText.natIO_forward id
    Props.SvdText.natIO_readable zeroSvd zeroSvd_computes w [[97], [98], [45, 114], [49]] ⟨[97], [98], 1⟩ (by decide +kernel) (by decide) ho 1 3 _ ht
  simp only [Option.some.injEq] at hg
  subst hg
  exact ⟨w', h1, h2⟩

/-- C122 (finding): an input called `x.U` is overwritten when the output is called `x`. -/
theorem C122_finding_overwrites {V : Type} (io : NumIO V) (svd : Svd V) (w : World) (o : Str) (rank : Int) (m n : Nat) (f : Option (Factors V))
    (ho : Outs w o) (ht : Takes io svd (w.files (o ++ [46, 85])) rank m n f) :
    ∃ w', run io svd w ⟨o ++ [46, 85], o, rank⟩ = .ok (true, w') ∧
      w'.files (o ++ [46, 85]) = some (saveMatrix io (factors f).S.length (factors f).U) :=
  ⟨_, run_takes ht, (save_files io w o _ ho).1⟩

/-- C122: the usage ends the program with the status 1 and no file is touched. -/
theorem C122_usage {V : Type} (io : NumIO V) (svd : Svd V) (w : World) (argv : List Str) (h : args argv ⟨[], [], 10⟩ = .ok none) :
    main io svd argv w = .ok (1, w) := by
  rw [main, h, Res.ok_bind]
  rfl

/-- C122 (finding): when the input cannot be loaded `Run` returns false and no file is touched, and the status is 0 all the same. -/
theorem C122_finding_status {V : Type} (io : NumIO V) (svd : Svd V) (w : World) (argv : List Str) (a : Args)
    (ha : args argv ⟨[], [], 10⟩ = .ok (some a)) (hs : loadSparseMatrix io (w.files a.input) = .ok none)
    (hd : loadMatrix io (w.files a.input) = .ok none) : run io svd w a = .ok (false, w) ∧ main io svd argv w = .ok (0, w) := by
  have h : run io svd w a = .ok (false, w) := by
    rw [run, hs, Res.ok_bind]
    simp only
    rw [hd, Res.ok_bind]
    rfl
  refine ⟨h, ?_⟩
  rw [main, ha, Res.ok_bind]
  simp only
  rw [h]
  rfl

/-- A file that does not exist. -/
example {V : Type} (io : NumIO V) (svd : Svd V) (w : World) (h : w.files [97] = none) : main io svd [[97]] w = .ok (0, w) :=
  C122_finding_status io svd w [[97]] ⟨[97], [97], 10⟩ rfl (by rw [h]; rfl) (by rw [h]; rfl) |>.2

/-- C122 (finding): for the rank 0 the status is 0 and files without rows and columns are written, which `LoadMatrix` and `LoadVector` do not accept;
what was in the files is lost. -/
theorem C122_finding_rank_zero {V : Type} (io : NumIO V) (svd : Svd V) (hc : Computes svd) (w : World)
    (argv : List Str) (a : Args) (ha : args argv ⟨[], [], 10⟩ = .ok (some a)) (hr : a.rank = 0) (ho : Outs w a.output) (m n : Nat)
    (f : Option (Factors V)) (ht : Takes io svd (w.files a.input) a.rank m n f) (h0 : io.nat 0 = [48]) :
    ∃ w', main io svd argv w = .ok (0, w') ∧
      w'.files (a.output ++ [46, 85]) = some [35, 32, 77, 32, 68, 32, 48, 32, 48, 10] ∧ loadMatrix io (w'.files (a.output ++ [46, 85])) = .ok none ∧
      w'.files (a.output ++ [46, 83]) = some [35, 32, 86, 32, 68, 32, 48, 10] ∧ loadVector io (w'.files (a.output ++ [46, 83])) = .ok none := by
  have hn : f = none := by
    cases ht with
    | sparse hh e => exact hc.sparse_zero _ _ _ (by omega)
    | dense hh hd e => exact hc.dense_zero _ _ (by omega)
  obtain ⟨e1, e2, -, -⟩ := save_files io w a.output (factors (none : Option (Factors V))) ho
  have l1 : loadHeader (some [35, 32, 77, 32, 68, 32, 48, 32, 48, 10]) = .ok none := by decide +kernel
  have l2 : loadHeader (some [35, 32, 86, 32, 68, 32, 48, 10]) = .ok none := by decide +kernel
  have t1 : saveMatrix io 0 ([] : List (List V)) = [35, 32, 77, 32, 68, 32, 48, 32, 48, 10] := by simp [saveMatrix, h0]
  have t2 : saveVector io ([] : List V) = [35, 32, 86, 32, 68, 32, 48, 10] := by simp [saveVector, h0]
  refine ⟨_, ?_, e1.trans (by rw [← t1]; rfl), ?_, e2.trans (by rw [← t2]; rfl), ?_⟩
  · rw [main, ha, Res.ok_bind]
    simp only
    rw [run_takes ht, Res.ok_bind, hn]
    rfl
  · show loadMatrix io ((save io w a.output _).files (a.output ++ ext 85)) = _
    rw [e1]
    have : saveMatrix io (factors (none : Option (Factors V))).S.length (factors (none : Option (Factors V))).U = _ := t1
    rw [this, loadMatrix, l1]
    rfl
  · show loadVector io ((save io w a.output _).files (a.output ++ ext 83)) = _
    rw [e2]
    have : saveVector io (factors (none : Option (Factors V))).S = _ := t2
    rw [this, loadVector, l2]
    rfl

/-- C122 (finding): a blank first line, or positions of a row of a sparse matrix that do not ascend, are undefined behaviour. -/
theorem C122_finding_input (svd : Svd Nat) (w : World) (a : Args) :
    (w.files a.input = some [10] → run Props.SvdText.natIO svd w a = .ub) ∧
    (w.files a.input = some (Props.SvdText.bytes "# M S 1 3\n2:7 0:5\n") → run Props.SvdText.natIO svd w a = .ub) := by
  refine ⟨fun h => ?_, fun h => ?_⟩
  · rw [run, h]
    rfl
  · rw [run, h, Props.SvdText.C100_finding_order]
    rfl

#print axioms C122_args
#print axioms C122_success
#print axioms C122_usage
#print axioms C122_finding_last_r
#print axioms C122_finding_rank_word
#print axioms C122_finding_status
#print axioms C122_finding_rank_zero
#print axioms C122_finding_overwrites
#print axioms C122_finding_input

end Verif.Props.SvdSmpl
