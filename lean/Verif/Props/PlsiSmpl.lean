import Verif.Props.Csv
import Verif.Proof.PlsiSmpl
import Mathlib.Tactic.NormNum
import Mathlib.Tactic.Linarith

set_option linter.unusedSimpArgs false

/-!
# C121: the pLSI sample program (sample/plsi_smpl.cpp)
-/
namespace Verif.Props.PlsiSmpl
open Verif.PlsiSmpl Verif.Plsi Verif.Spec.PlsiSmpl Verif.Spec.Plsi
open Verif.Props.Plsi
open Verif.Spec.TopScore (IsTop)

/-! ## Loading -/

/-- Loading a file whose rows are numbers (fewer than 2^31 of them): it fails only if an item has two rows; otherwise the known users and
items are those of the rows with at least one user, each once, and the observations are exactly the pairs of the rows, each once. -/
theorem C121_load (lines : List (List (List UInt8))) (rows : List (Int × List Int)) (h : Says lines rows) (h31 : fieldsOf rows < 2 ^ 31) :
    (loadRows lines Plsi.empty = .throw ∧ ¬ (rows.map (·.1)).Nodup) ∨
    ∃ s, loadRows lines Plsi.empty = .ok s ∧ DataOk s ∧ s.userlist.Nodup ∧ s.itemlist.Nodup ∧
      (∀ U, U ∈ s.userlist ↔ HasUser rows U) ∧ (∀ I, I ∈ s.itemlist ↔ HasItem rows I) ∧
      (∀ u y, (u, y) ∈ obs s ↔ ∃ U I, s.userlist[u]? = some U ∧ s.itemlist[y]? = some I ∧ Observed rows I U) ∧
      (obs s).Nodup ∧ (obs s).length < 2 ^ 31 ∧ s.z = [] ∧ s.userZ = [] ∧ s.itemZ = [] := by
  rcases loadRows_ok lines rows h [] Plsi.empty loaded_empty (by simp [Plsi.empty]; omega) with ⟨e, hn⟩ | ⟨s, e, L⟩
  · exact .inl ⟨e, hn⟩
  · rw [List.nil_append] at L
    exact .inr ⟨s, e, L.data, L.userNodup, L.itemNodup, L.users, L.items, L.mem_obs, L.nodup_obs, by have := L.few; omega, L.z, L.userZ,
      L.itemZ⟩

/-- A file of lines of words between single blanks, quoted or not, is loaded as its rows. -/
theorem C121_file (max : Nat) (rows : List (List Spec.Csv.Field × List UInt8))
    (hl : ∀ p ∈ rows, Spec.Csv.RowLegal ' '.toUInt8 p.1 ∧ (p.2 = [10] ∨ p.2 = [13, 10])) (hs : (rows.map fun p => Spec.Csv.size p.1).sum < max)
    (upto : Nat) (junk : List UInt8) (hj : 0 < junk.length) (fuel n : Nat)
    (hu : (rows.map fun p => Spec.Csv.renderRow ' '.toUInt8 p.1 ++ p.2).flatten.length ≤ upto)
    (hf : (rows.map fun p => Spec.Csv.renderRow ' '.toUInt8 p.1 ++ p.2).flatten.length + 1 ≤ fuel) (hn : rows.length + 1 ≤ n) (s : Plsi) :
    load max (some (rows.map fun p => Spec.Csv.renderRow ' '.toUInt8 p.1 ++ p.2).flatten) upto junk fuel n s =
      loadRows (rows.map fun p => Spec.Csv.fields p.1) s := by
  generalize hc : (rows.map fun p => Spec.Csv.renderRow ' '.toUInt8 p.1 ++ p.2).flatten = content at hu hf ⊢
  have hrest : (CsvFile.openIn (some content) upto).rest = content := by simp [CsvFile.openIn, List.take_of_length_le hu]
  obtain ⟨r, hr⟩ := (Props.Csv.C24_separators (CsvFile.openIn (some content) upto) ' '.toUInt8 junk).1 (.inr (.inr (.inr rfl)))
  have := Props.Csv.C24_reads_foreign_text max ' '.toUInt8 rows hl hs _ (hrest.trans hc.symm) junk hj r hr fuel n (by rw [hrest]; exact hf) hn
  rw [load, CsvFile.readFile]
  rw [show (32 : UInt8) = ' '.toUInt8 from rfl, hr, Res.ok_bind, this, Res.ok_bind]

/-- `5 7` and `6 "9"`. -/
example : load 1000 (some [53, 32, 55, 10, 54, 32, 34, 57, 34, 13, 10]) 100 [0] 100 100 Plsi.empty =
    loadRows [[[53], [55]], [[54], [57]]] Plsi.empty := by
  refine C121_file 1000 [([⟨false, [53]⟩, ⟨false, [55]⟩], [10]), ([⟨false, [54]⟩, ⟨true, [57]⟩], [13, 10])] ?_ (by decide) 100 [0] (by decide) 100 100
    (by decide) (by decide) (by decide) _
  intro p hp
  simp only [List.mem_cons, List.not_mem_nil, or_false] at hp
  rcases hp with rfl | rfl <;> refine ⟨⟨?_, ?_⟩, by decide⟩ <;> simp [Spec.Csv.Field.Legal] <;> decide

def exLines : List (List (List UInt8)) := [[[53], [55], [57]], [[54]], [[54], [57]]]

theorem exSays : Says exLines [(5, [7, 9]), (6, [9])] := by
  refine .row (by decide +kernel : IsInt [53] 5) (.cons (by decide +kernel : IsInt [55] 7) (.cons (by decide +kernel : IsInt [57] 9) .nil)) ?_
  refine .alone (by decide +kernel : IsInt [54] 6) ?_
  exact .row (by decide +kernel : IsInt [54] 6) (.cons (by decide +kernel : IsInt [57] 9) .nil) .nil

example : ∃ s, loadRows exLines Plsi.empty = .ok s ∧ s.userlist.Nodup := by
  rcases C121_load exLines _ exSays (by decide) with ⟨_, h⟩ | ⟨s, e, _, h, _⟩
  · exact absurd (by decide) h
  · exact ⟨s, e, h⟩

/-- Finding: a blank line (which the CSV reader returns as a row without fields) makes `line[0]` undefined (plsi_smpl.cpp:20). -/
theorem C121_finding_blank_line (lines rest : List (List (List UInt8))) (rows : List (Int × List Int)) (h : Says lines rows)
    (h31 : fieldsOf rows < 2 ^ 31) (hd : (rows.map (·.1)).Nodup) : loadRows (lines ++ [] :: rest) Plsi.empty = .ub := by
  rcases C121_load lines rows h h31 with ⟨_, hn⟩ | ⟨s, e, _⟩
  · exact absurd hd hn
  · rw [loadRows_append, e, Res.ok_bind, loadRows]
    rfl

example : loadRows (exLines ++ [] :: [[[54], [57]]]) Plsi.empty = .ub := C121_finding_blank_line _ _ _ exSays (by decide) (by decide)

/-- A field that is not a number ends the loading with an exception: an item, or a user after users that are numbers. -/
theorem C121_not_a_number (lines rest : List (List (List UInt8))) (rows : List (Int × List Int)) (h : Says lines rows)
    (h31 : fieldsOf rows < 2 ^ 31) (f : List UInt8) (hf : ∀ v, ¬ IsInt f v)
    (hm : ¬ Spec.Numeral.MinThenMore (2 ^ 31) (Spec.Numeral.upToNul f)) (more : List (List UInt8)) :
    loadRows (lines ++ (f :: more) :: rest) Plsi.empty = .throw ∧
    ∀ (g : List UInt8) (v : Int) (fs : List (List UInt8)) (us : List Int), IsInt g v → AreInts fs us →
      loadRows (lines ++ (g :: (fs ++ f :: more)) :: rest) Plsi.empty = .throw := by
  have ht : atoiInt f = .throw := by
    have := Props.Numeral.C05_atoi_signed_partial Atoi.sint32 (2 ^ 31) sint32_mem false (f ++ [0]) f.length (by simp)
      (by rwa [List.take_left])
    rw [List.take_left] at this
    cases hp : Spec.Numeral.parseInt (2 ^ 31) (2 ^ 31 - 1) (Spec.Numeral.upToNul f) with
    | some v => exact absurd hp (hf v)
    | none =>
      rw [hp] at this
      unfold Props.Numeral.Reported at this
      simp only [Bool.false_eq_true, if_false] at this
      rw [atoiInt, Atoi.atoiS, this]
      rfl
  have hloop : ∀ (fs : List (List UInt8)) (us : List Int), AreInts fs us → ∀ ids s, userLoop (fs ++ f :: more) ids s = .throw := by
    intro fs us hfs
    induction hfs with
    | nil => intro ids s; rw [List.nil_append, userLoop, ht]; rfl
    | cons hg _ ih => intro ids s; rw [List.cons_append, userLoop, atoiInt_ok hg, Res.ok_bind]; exact ih _ _
  rcases C121_load lines rows h h31 with ⟨e, _⟩ | ⟨s, e, _⟩
  · exact ⟨by rw [loadRows_append, e]; rfl, fun g v fs us _ _ => by rw [loadRows_append, e]; rfl⟩
  · refine ⟨?_, fun g v fs us hg hfs => ?_⟩
    · rw [loadRows_append, e, Res.ok_bind, loadRows, at?_eq_ok (show 0 < (f :: more).length by simp), Res.ok_bind,
        List.getElem_cons_zero, ht]
      rfl
    · rw [loadRows_append, e, Res.ok_bind, loadRows, at?_eq_ok (show 0 < (g :: (fs ++ f :: more)).length by simp), Res.ok_bind,
        List.getElem_cons_zero, atoiInt_ok hg, Res.ok_bind, if_neg (by simp)]
      show (loadRow v (fs ++ f :: more) s >>= _) = _
      rw [loadRow, hloop fs us hfs]
      rfl

/-- "x" is not a number. -/
example : (∀ v, ¬ IsInt [120] v) ∧ ¬ Spec.Numeral.MinThenMore (2 ^ 31) (Spec.Numeral.upToNul [120]) := by
  refine ⟨fun v h => ?_, ?_⟩
  · have : Spec.Numeral.parseInt (2 ^ 31) (2 ^ 31 - 1) (Spec.Numeral.upToNul [120]) = none := by decide +kernel
    rw [IsInt, this] at h
    cases h
  · rintro ⟨k, d, c, r, e, _⟩
    simp [Spec.Numeral.upToNul] at e

/-- Finding: two rows of one item are not merged.  If a user of the second row has an id that is not beyond those of the first, loading
fails. -/
theorem C121_finding_item_twice :
    loadRows [[[53], [55], [57]], [[53], [55]]] Plsi.empty = .throw ∧
    (loadRows [[[53], [55], [57]], [[53], [56]]] Plsi.empty >>= fun s => Res.ok s.matrix) = .ok [[0, 1, 2]] := by
  constructor <;> rfl

/-! ## Learning -/

/-- Every user and every item has an observation. -/
structure Covered (s : Plsi) : Prop where
  users : ∀ u < s.users.length, ∃ y, (u, y) ∈ obs s
  items : ∀ y < s.items.length, ∃ u, (u, y) ∈ obs s

/-- Loading distinct items and `startLearning` give a state in which learning is defined and every user and item is observed. -/
theorem C121_start (lines : List (List (List UInt8))) (rows : List (Int × List Int)) (h : Says lines rows) (h31 : fieldsOf rows < 2 ^ 31)
    (hd : (rows.map (·.1)).Nodup) (hne : rows ≠ []) (K : Nat) (hK : 1 ≤ K) :
    ∃ s s', loadRows lines Plsi.empty = .ok s ∧ startLearning s K = .ok s' ∧ Learning s' ∧ Covered s' ∧ s'.z.length = K ∧
      s'.userlist = s.userlist ∧ s'.itemlist = s.itemlist ∧ obs s' = obs s := by
  rcases loadRows_ok lines rows h [] Plsi.empty loaded_empty (by simp [Plsi.empty]; omega) with ⟨_, hn⟩ | ⟨s, e, L⟩
  · exact absurd hd hn
  rw [List.nil_append] at L
  obtain ⟨r0, hr0⟩ := List.exists_mem_of_ne_nil rows hne
  have hr1 := says_users h r0 hr0
  obtain ⟨U0, hU0⟩ := List.exists_mem_of_ne_nil _ hr1
  have hmU := (L.users U0).2 ⟨r0, hr0, hU0⟩
  have hmI := (L.items r0.1).2 ⟨r0, hr0, rfl⟩
  have hlu : s.users.length = s.userlist.length := by rw [L.data.users]; simp
  have hli : s.items.length = s.itemlist.length := by rw [L.data.items]; simp
  have hMu : s.users ≠ [] := by
    rw [← List.length_pos_iff, hlu]; exact List.length_pos_of_mem hmU
  have hMi : s.items ≠ [] := by
    rw [← List.length_pos_iff, hli]; exact List.length_pos_of_mem hmI
  obtain ⟨s', e', HD, ho, h1, h2, hz, _, _, hp⟩ := C69_start s L.data K hK L.z L.userZ L.itemZ hMu hMi
  have hcu : ∀ u < s.users.length, ∃ y, (u, y) ∈ obs s := by
    intro u hu
    rw [hlu] at hu
    obtain ⟨r, hr, hr2⟩ := (L.users _).1 (List.getElem_mem hu)
    obtain ⟨y, hy, ey⟩ := List.getElem_of_mem ((L.items r.1).2 ⟨r, hr, rfl⟩)
    exact ⟨y, (L.mem_obs u y).2 ⟨_, _, List.getElem?_eq_getElem hu, List.getElem?_eq_getElem hy, r, hr, ey.symm, hr2⟩⟩
  have hci : ∀ y < s.items.length, ∃ u, (u, y) ∈ obs s := by
    intro y hy
    rw [hli] at hy
    obtain ⟨r, hr, hr1⟩ := (L.items _).1 (List.getElem_mem hy)
    obtain ⟨U, hU⟩ := List.exists_mem_of_ne_nil _ (says_users h r hr)
    obtain ⟨u, hu, eu⟩ := List.getElem_of_mem ((L.users U).2 ⟨r, hr, hU⟩)
    exact ⟨u, (L.mem_obs u y).2 ⟨U, _, by rw [List.getElem?_eq_getElem hu, eu], List.getElem?_eq_getElem hy, r, hr, hr1, hU⟩⟩
  have hos : obs s ≠ [] := by
    obtain ⟨y, hy⟩ := hcu 0 (List.length_pos_iff.2 hMu)
    exact List.ne_nil_of_mem hy
  have zipInj : ∀ (a b : List Int), a.zipIdx = b.zipIdx → a = b := by
    intro a b hab
    have := congrArg (List.map Prod.fst) hab
    rwa [List.zipIdx_map_fst, List.zipIdx_map_fst] at this
  refine ⟨s, s', e, e', ⟨HD, by rw [ho]; exact hos, by rw [ho]; have := L.few; omega, hp⟩, ⟨?_, ?_⟩, by rw [hz]; simp, ?_, ?_, ho⟩
  · rw [h1, ho]; exact hcu
  · rw [h2, ho]; exact hci
  · apply zipInj; rw [← HD.users, h1, L.data.users]
  · apply zipInj; rw [← HD.items, h2, L.data.items]

/-- The lines of the learning phase belong together: numbered from `i`, the temperature goes down by a tenth after each line with a gain
below 1, and the gain is the difference to the line before. -/
def Report : (i c : Nat) → (pre : ℝ) → List Line → Prop
  | _, _, _, [] => True
  | i, c, pre, l :: ls => l.i = i ∧ l.beta = 0.9 ^ c ∧ l.gain = l.lik - pre ∧
    (l.gain < 1 → Report (i + 1) (c + 1) l.lik ls) ∧ (¬ l.gain < 1 → Report (i + 1) c l.lik ls)

open Classical in
/-- The lines with a gain below 1. -/
noncomputable def slow (ls : List Line) : List Line := ls.filter fun l => l.gain < 1

theorem small43 : (0.01 : ℝ) ≤ 0.9 ^ 43 := by norm_num
theorem small44 : (0.9 : ℝ) ^ 44 < 0.01 := by norm_num

theorem beta_small {c : Nat} (hc : c ≤ 43) : (0.9 : ℝ) ^ c * 0.9 < 0.01 ↔ c = 43 := by
  constructor
  · intro h
    by_cases h' : c + 1 ≤ 43
    · exfalso
      have h1 := pow_le_pow_of_le_one (by norm_num : (0 : ℝ) ≤ 0.9) (by norm_num) h'
      have h2 := small43
      rw [pow_succ 0.9 c] at h1
      exact absurd h (not_lt.2 (h2.trans h1))
    · omega
  · rintro rfl
    have := small44
    rwa [pow_succ] at this

theorem learnLoop_ok : ∀ (cnt i c : Nat) (pre : ℝ) (s : Plsi), c ≤ 43 → Learning s →
    ∃ ls s', learnLoop cnt i (0.9 ^ c) pre s = .ok (ls, s') ∧ Learning s' ∧ obs s' = obs s ∧ s'.users = s.users ∧ s'.items = s.items ∧
      ls.length ≤ cnt ∧ (∀ j, steps (fun _ => 1) ls.length j s = .ok (ls.map (·.lik), s')) ∧ Report i c pre ls ∧
      (slow ls).length + c ≤ 44 ∧ (ls.length < cnt → (slow ls).length + c = 44 ∧ ∃ l ∈ ls.getLast?, l.gain < 1) := by
  intro cnt
  induction cnt with
  | zero =>
    intro i c pre s hc L
    exact ⟨[], s, rfl, L, rfl, rfl, rfl, by simp, fun j => rfl, trivial, by simp [slow]; omega, by simp⟩
  | succ cnt ih =>
    intro i c pre s hc L
    obtain ⟨s1, e, L1, ho, hu, hi, _⟩ := C69_step s L 1
    generalize hl : (((obs s).map fun d => Real.log (∑ k ∈ Finset.range s.z.length,
        (pz s.z k * pc s.userZ k d.1 * pc s.itemZ k d.2) ^ (1 : ℝ))).sum) = lik at e
    rw [learnLoop, e, Res.ok_bind]
    dsimp only
    by_cases hg : lik - pre < 1
    · rw [if_pos hg]
      by_cases hb : (0.9 : ℝ) ^ c * 0.9 < 0.01
      · rw [if_pos hb]
        have hc43 := (beta_small hc).1 hb
        have hs : slow [⟨i, 0.9 ^ c, lik, lik - pre⟩] = [⟨i, 0.9 ^ c, lik, lik - pre⟩] := by simp [slow, hg]
        refine ⟨_, s1, rfl, L1, ho, hu, hi, by simp, fun j => ?_, ⟨rfl, rfl, rfl, fun _ => trivial, fun _ => trivial⟩, ?_, fun _ => ?_⟩
        · show steps _ 1 j s = _
          rw [steps, e]
          rfl
        · rw [hs, List.length_singleton]; omega
        · rw [hs, List.length_singleton]
          exact ⟨by omega, _, rfl, hg⟩
      · rw [if_neg hb]
        have hc' : c + 1 ≤ 43 := by
          by_cases h : c = 43
          · exact absurd ((beta_small hc).2 h) hb
          · omega
        obtain ⟨ls, s2, e2, L2, ho2, hu2, hi2, hlen, hst, hr, hsl, hend⟩ := ih (i + 1) (c + 1) lik s1 hc' L1
        rw [pow_succ] at e2
        rw [e2, Res.ok_bind]
        have hs : slow (⟨i, 0.9 ^ c, lik, lik - pre⟩ :: ls) = ⟨i, 0.9 ^ c, lik, lik - pre⟩ :: slow ls := by simp [slow, hg]
        refine ⟨_, s2, rfl, L2, ho2.trans ho, hu2.trans hu, hi2.trans hi, by simp; omega, fun j => ?_,
          ⟨rfl, rfl, rfl, fun _ => hr, fun h => absurd hg h⟩, by rw [hs, List.length_cons]; omega, fun h => ?_⟩
        · rw [List.length_cons, steps, e]
          show (steps _ _ _ s1 >>= _) = _
          rw [hst (j + 1)]
          rfl
        · obtain ⟨h1, l, h2, h3⟩ := hend (by simp at h; omega)
          rw [hs, List.length_cons]
          refine ⟨by omega, l, ?_, h3⟩
          rw [Option.mem_def] at h2 ⊢
          rw [List.getLast?_cons, h2]
          rfl
    · rw [if_neg hg]
      obtain ⟨ls, s2, e2, L2, ho2, hu2, hi2, hlen, hst, hr, hsl, hend⟩ := ih (i + 1) c lik s1 hc L1
      rw [e2, Res.ok_bind]
      have hs : slow (⟨i, 0.9 ^ c, lik, lik - pre⟩ :: ls) = slow ls := by simp [slow, hg]
      refine ⟨_, s2, rfl, L2, ho2.trans ho, hu2.trans hu, hi2.trans hi, by simp; omega, fun j => ?_,
        ⟨rfl, rfl, rfl, fun h => absurd h hg, fun _ => hr⟩, by rw [hs]; omega, fun h => ?_⟩
      · rw [List.length_cons, steps, e]
        show (steps _ _ _ s1 >>= _) = _
        rw [hst (j + 1)]
        rfl
      · obtain ⟨h1, l, h2, h3⟩ := hend (by simp at h; omega)
        rw [hs]
        refine ⟨by omega, l, ?_, h3⟩
        rw [Option.mem_def] at h2 ⊢
        rw [List.getLast?_cons, h2]
        rfl

/-- The learning phase: it is always defined and consists of plain `step()` calls, at most `Iter` of them; the printed likelihoods never go
down; there are at most 44 lines with a gain below 1, and the phase ends before `Iter` only with the 44th of them. -/
theorem C121_learn (s : Plsi) (L : Learning s) (iter : Nat) :
    ∃ ls s', learn iter s = .ok (ls, s') ∧ Learning s' ∧ obs s' = obs s ∧ s'.users = s.users ∧ s'.items = s.items ∧
      ls.length ≤ iter ∧ steps (fun _ => 1) ls.length 0 s = .ok (ls.map (·.lik), s') ∧ Report 0 0 (-10 ^ 30) ls ∧
      (ls.map (·.lik)).Pairwise (· ≤ ·) ∧ (∀ l ∈ ls, l.lik ≤ 0) ∧
      (slow ls).length ≤ 44 ∧ (ls.length < iter → (slow ls).length = 44 ∧ ∃ l ∈ ls.getLast?, l.gain < 1) := by
  obtain ⟨ls, s', e, L', ho, hu, hi, hlen, hst, hr, hsl, hend⟩ := learnLoop_ok iter 0 0 (-10 ^ 30) s (by omega) L
  obtain ⟨ls', s'', e', _, _, _, hp, hb, _⟩ := C69_learning ls.length 0 s L
  rw [hst 0] at e'
  injection e' with e'
  injection e' with e1 e2
  subst e1 e2
  rw [pow_zero] at e
  exact ⟨ls, s', e, L', ho, hu, hi, hlen, hst 0, hr, hp, fun l hl => (hb _ (List.mem_map_of_mem hl)).2.2, by omega, fun h => by
    have := hend h; exact ⟨by omega, this.2⟩⟩

/-- Finding: the temperature that is printed and counted down is not used: the phase is the same as plain `step()` (plsi_smpl.cpp:145). -/
theorem C121_finding_beta_unused (s : Plsi) (L : Learning s) (iter : Nat) (ls : List Line) (s' : Plsi) (h : learn iter s = .ok (ls, s')) :
    steps (fun _ => 1) ls.length 0 s = .ok (ls.map (·.lik), s') := by
  obtain ⟨ls2, s2, e, _, _, _, _, _, hst, _⟩ := C121_learn s L iter
  rw [e] at h
  injection h with h
  injection h with h1 h2
  subst h1 h2
  exact hst

/-! ## Questions -/

/-- The lines for a table. -/
def Printed (names : Int → List UInt8) (s : Plsi) (r : List (ℝ × Nat)) (o : List Out) : Prop :=
  ∃ keys : List Int, r.map (fun e => s.itemlist[e.2]?) = keys.map some ∧
    o = (r.zip keys).map fun p => .row p.1.1 p.2 (names p.2)

/-- What the program says to the words of the standard input.  `items` is the mode, `ty` the search type. -/
inductive Answers (names : Int → List UInt8) (s : Plsi) : Bool → Search → List (List UInt8) → List Out → Prop
  | eof {m : Bool} {ty : Search} : Answers names s m ty [] []
  | ui {m : Bool} {ty : Search} {ws : List (List UInt8)} {o : List Out} (h : Answers names s false ty ws o) :
      Answers names s m ty ([117, 105] :: ws) (.text "user => items\n" :: o)
  | ii {m : Bool} {ty : Search} {ws : List (List UInt8)} {o : List Out} (h : Answers names s true ty ws o) :
      Answers names s m ty ([105, 105] :: ws) (.text "item => items\n" :: o)
  | sj {m : Bool} {ty : Search} {ws : List (List UInt8)} {o : List Out} (h : Answers names s m .joint ws o) :
      Answers names s m ty ([115, 106] :: ws) (.text "search type: JOINT probability\n" :: o)
  | sc {m : Bool} {ty : Search} {ws : List (List UInt8)} {o : List Out} (h : Answers names s m .conditional ws o) :
      Answers names s m ty ([115, 99] :: ws) (.text "search type: CONDITIONAL probability\n" :: o)
  | sp {m : Bool} {ty : Search} {ws : List (List UInt8)} {o : List Out} (h : Answers names s m .posterior ws o) :
      Answers names s m ty ([115, 112] :: ws) (.text "search type: POSTERIOR probability\n" :: o)
  | user {ty : Search} {w : List UInt8} {U : Int} {u : Nat} {ws : List (List UInt8)} {r : List (ℝ × Nat)} {o o' : List Out}
      (hw : IsInt w U) (hu : s.userlist[u]? = some U)
      (hr : IsTop 10 ((List.range s.itemlist.length).map fun y =>
        (joint s.z s.userZ s.itemZ u y / marginal s.z s.userZ u, y)) r) (hp : Printed names s r o)
      (h : Answers names s false ty ws o') : Answers names s false ty (w :: ws) (o ++ o')
  | item {ty : Search} {w : List UInt8} {I : Int} {t : Nat} {ws : List (List UInt8)} {r : List (ℝ × Nat)} {o o' : List Out}
      (hw : IsInt w I) (ht : s.itemlist[t]? = some I)
      (hr : IsTop 10 ((List.range s.itemlist.length).map fun y =>
        (match ty with
          | .joint => joint s.z s.itemZ s.itemZ y t
          | .conditional => joint s.z s.itemZ s.itemZ y t / marginal s.z s.itemZ t
          | .posterior => joint s.z s.itemZ s.itemZ t y / marginal s.z s.itemZ y, y)) r) (hp : Printed names s r o)
      (h : Answers names s true ty ws o') : Answers names s true ty (w :: ws) (o ++ o')
  | bad {m : Bool} {ty : Search} {w : List UInt8} {ws : List (List UInt8)} (hc : w ∉ [[117, 105], [105, 105], [115, 106], [115, 99], [115, 112]])
      (hw : ∀ v, ¬ IsInt w v) : Answers names s m ty (w :: ws) [.error]

/-- The words are commands and numbers of known users (or, in the other mode, items), up to the end or to a word that is neither. -/
inductive Sensible (s : Plsi) : Bool → List (List UInt8) → Prop
  | eof {m : Bool} : Sensible s m []
  | ui {m : Bool} {ws : List (List UInt8)} (h : Sensible s false ws) : Sensible s m ([117, 105] :: ws)
  | ii {m : Bool} {ws : List (List UInt8)} (h : Sensible s true ws) : Sensible s m ([105, 105] :: ws)
  | type {m : Bool} {w : List UInt8} {ws : List (List UInt8)} (hw : w ∈ [[115, 106], [115, 99], [115, 112]]) (h : Sensible s m ws) :
      Sensible s m (w :: ws)
  | user {w : List UInt8} {U : Int} {ws : List (List UInt8)} (hw : IsInt w U) (hu : U ∈ s.userlist) (h : Sensible s false ws) :
      Sensible s false (w :: ws)
  | item {w : List UInt8} {I : Int} {ws : List (List UInt8)} (hw : IsInt w I) (hu : I ∈ s.itemlist) (h : Sensible s true ws) :
      Sensible s true (w :: ws)
  | bad {m : Bool} {w : List UInt8} {ws : List (List UInt8)} (hc : w ∉ [[117, 105], [105, 105], [115, 106], [115, 99], [115, 112]])
      (hw : ∀ v, ¬ IsInt w v) (hm : ¬ Spec.Numeral.MinThenMore (2 ^ 31) (Spec.Numeral.upToNul w)) : Sensible s m (w :: ws)

theorem b_ui : "ui".toUTF8.toList = [117, 105] := by decide +kernel
theorem b_ii : "ii".toUTF8.toList = [105, 105] := by decide +kernel
theorem b_sj : "sj".toUTF8.toList = [115, 106] := by decide +kernel
theorem b_sc : "sc".toUTF8.toList = [115, 99] := by decide +kernel
theorem b_sp : "sp".toUTF8.toList = [115, 112] := by decide +kernel

theorem command_none {w : List UInt8} (h : w ∉ [[117, 105], [105, 105], [115, 106], [115, 99], [115, 112]]) (m : Mode) :
    command w m = none := by
  simp only [List.mem_cons, List.not_mem_nil, or_false, not_or] at h
  unfold command
  rw [b_ui, b_ii, b_sj, b_sc, b_sp, if_neg h.1, if_neg h.2.1, if_neg h.2.2.1, if_neg h.2.2.2.1, if_neg h.2.2.2.2]

theorem int_not_command {w : List UInt8} {v : Int} (h : IsInt w v) : w ∉ [[117, 105], [105, 105], [115, 106], [115, 99], [115, 112]] := by
  have key : ∀ w ∈ [[117, 105], [105, 105], [115, 106], [115, 99], [115, 112]],
      Spec.Numeral.parseInt (2 ^ 31) (2 ^ 31 - 1) (Spec.Numeral.upToNul w) = none := by decide +kernel
  intro hm
  rw [IsInt, key w hm] at h
  cases h

theorem rows_ok (names : Int → List UInt8) (s : Plsi) : ∀ (r : List (ℝ × Nat)), (∀ e ∈ r, e.2 < s.itemlist.length) →
    ∃ o, rows names s r = .ok o ∧ Printed names s r o := by
  intro r
  induction r with
  | nil => intro _; exact ⟨[], rfl, [], rfl, rfl⟩
  | cons e r ih =>
    intro h
    obtain ⟨o, eo, keys, h1, h2⟩ := ih fun x hx => h x (List.mem_cons_of_mem _ hx)
    have hlt := h e List.mem_cons_self
    refine ⟨.row e.1 s.itemlist[e.2] (names s.itemlist[e.2]) :: o, ?_, s.itemlist[e.2] :: keys, ?_, ?_⟩
    · rw [rows, getItemKey, at?_eq_ok hlt, Res.ok_bind, eo]
      rfl
    · rw [List.map_cons, List.map_cons, h1, List.getElem?_eq_getElem hlt]
    · rw [List.zip_cons_cons, List.map_cons, h2]

theorem top_ids {f : Nat → ℝ} {n m : Nat} {r : List (ℝ × Nat)} (h : IsTop m ((List.range n).map fun y => (f y, y)) r) :
    ∀ e ∈ r, e.2 < n := by
  obtain ⟨_, is, h1, _⟩ := h
  intro e he
  have : some e ∈ r.map some := List.mem_map_of_mem he
  rw [h1] at this
  obtain ⟨i, _, hi⟩ := List.mem_map.1 this
  have := List.mem_of_getElem? hi
  obtain ⟨y, hy, rfl⟩ := List.mem_map.1 this
  exact List.mem_range.1 hy

theorem lookup_of_nodup {l : List Int} {x : Int} (hx : x ∈ l) : ∃ i, l.zipIdx.lookup x = some i ∧ l[i]? = some x := by
  cases e : l.zipIdx.lookup x with
  | none => exact absurd hx (lookup_none e)
  | some i =>
    have hl := lookup_zipIdx l x 0
    rw [e] at hl
    simp only [Nat.sub_zero, Nat.zero_le, true_and] at hl
    exact ⟨i, rfl, hl⟩

theorem marginal_pos {s : Plsi} (L : Learning s) (C : Covered s) :
    (∀ u < s.users.length, 0 < marginal s.z s.userZ u) ∧ ∀ y < s.items.length, 0 < marginal s.z s.itemZ y := by
  constructor
  · intro u hu
    obtain ⟨y, hy⟩ := C.users u hu
    refine Finset.sum_pos (fun k hk => ?_) ⟨0, Finset.mem_range.2 L.K⟩
    obtain ⟨h1, h2⟩ := L.params.pos k (Finset.mem_range.1 hk)
    exact mul_pos h1 (h2 _ hy).1
  · intro y hy
    obtain ⟨u, hu⟩ := C.items y hy
    refine Finset.sum_pos (fun k hk => ?_) ⟨0, Finset.mem_range.2 L.K⟩
    obtain ⟨h1, h2⟩ := L.params.pos k (Finset.mem_range.1 hk)
    exact mul_pos h1 (h2 _ hu).2

theorem ask_eq (names : Int → List UInt8) (m : Mode) (key : Int) (s : Plsi) (r : List (ℝ × Nat)) (o : List Out)
    (h : (if m.items then similarItems s key m.ty 10 else searchItems s key 10) = .ok (r, s)) (ho : rows names s r = .ok o) :
    ask names m key s = .ok (o, s) := by
  rw [ask]
  by_cases hm : m.items = true
  · rw [if_pos hm] at h ⊢
    rw [h, Res.ok_bind]
    dsimp only
    rw [ho]
    rfl
  · rw [if_neg hm] at h ⊢
    rw [h, Res.ok_bind]
    dsimp only
    rw [ho]
    rfl

/-- Questions about known users and items: the program answers every sensible input to its end, never undefined: for a user the ten items
with the highest p(y|x), for an item the ten with the highest p(y,t), p(y|t) or p(t|y). -/
theorem C121_questions (names : Int → List UInt8) (s : Plsi) (L : Learning s) (C : Covered s) (m : Bool) (ws : List (List UInt8))
    (h : Sensible s m ws) : ∀ ty, ∃ o, queries names ws ⟨m, ty⟩ s = .ok o ∧ Answers names s m ty ws o := by
  have hlu : s.users.length = s.userlist.length := by rw [L.data.users]; simp
  have hli : s.items.length = s.itemlist.length := by rw [L.data.items]; simp
  obtain ⟨pu, pi⟩ := marginal_pos L C
  induction h with
  | eof => intro ty; exact ⟨[], rfl, .eof⟩
  | @ui m _ _ ih =>
    intro ty
    obtain ⟨o, e, ha⟩ := ih ty
    refine ⟨_, ?_, .ui ha⟩
    rw [queries]
    have : command [117, 105] ⟨m, ty⟩ = some (.text "user => items\n", ⟨false, ty⟩) := by unfold command; rw [b_ui, if_pos rfl]
    rw [this]
    dsimp only
    rw [e]
    rfl
  | @ii m _ _ ih =>
    intro ty
    obtain ⟨o, e, ha⟩ := ih ty
    refine ⟨_, ?_, .ii ha⟩
    rw [queries]
    have : command [105, 105] ⟨m, ty⟩ = some (.text "item => items\n", ⟨true, ty⟩) := by
      unfold command; rw [b_ui, b_ii, if_neg (by decide), if_pos rfl]
    rw [this]
    dsimp only
    rw [e]
    rfl
  | @type m w ws hw _ ih =>
    intro ty
    simp only [List.mem_cons, List.not_mem_nil, or_false] at hw
    rcases hw with rfl | rfl | rfl
    · obtain ⟨o, e, ha⟩ := ih .joint
      refine ⟨_, ?_, .sj ha⟩
      rw [queries]
      have : command [115, 106] ⟨m, ty⟩ = some (.text "search type: JOINT probability\n", ⟨m, .joint⟩) := by
        unfold command; rw [b_ui, b_ii, b_sj, if_neg (by decide), if_neg (by decide), if_pos rfl]
      rw [this]
      dsimp only
      rw [e]
      rfl
    · obtain ⟨o, e, ha⟩ := ih .conditional
      refine ⟨_, ?_, .sc ha⟩
      rw [queries]
      have : command [115, 99] ⟨m, ty⟩ = some (.text "search type: CONDITIONAL probability\n", ⟨m, .conditional⟩) := by
        unfold command; rw [b_ui, b_ii, b_sj, b_sc, if_neg (by decide), if_neg (by decide), if_neg (by decide), if_pos rfl]
      rw [this]
      dsimp only
      rw [e]
      rfl
    · obtain ⟨o, e, ha⟩ := ih .posterior
      refine ⟨_, ?_, .sp ha⟩
      rw [queries]
      have : command [115, 112] ⟨m, ty⟩ = some (.text "search type: POSTERIOR probability\n", ⟨m, .posterior⟩) := by
        unfold command
        rw [b_ui, b_ii, b_sj, b_sc, b_sp, if_neg (by decide), if_neg (by decide), if_neg (by decide), if_neg (by decide), if_pos rfl]
      rw [this]
      dsimp only
      rw [e]
      rfl
  | @user w U ws hw hU _ ih =>
    intro ty
    obtain ⟨o', e, ha⟩ := ih ty
    obtain ⟨u, hl, hg⟩ := lookup_of_nodup hU
    rw [← L.data.users] at hl
    have hlt := (List.getElem?_eq_some_iff.1 hg).1
    obtain ⟨r, er, ht, _⟩ := C69_search_items s L U u 10 hl (pu u (by omega)) (by omega) (by omega)
    rw [hli] at ht
    obtain ⟨o, eo, hp⟩ := rows_ok names s r (top_ids ht)
    refine ⟨o ++ o', ?_, .user hw hg ht hp ha⟩
    rw [queries, command_none (int_not_command hw)]
    dsimp only
    rw [atoiInt_ok hw, Res.ok_bind, ask_eq names ⟨false, ty⟩ U s r o (by rw [if_neg (by simp)]; exact er) eo, thenMore]
    rw [e]
    rfl
  | @item w I ws hw hI _ ih =>
    intro ty
    obtain ⟨o', e, ha⟩ := ih ty
    obtain ⟨t, hl, hg⟩ := lookup_of_nodup hI
    rw [← L.data.items] at hl
    have hlt := (List.getElem?_eq_some_iff.1 hg).1
    obtain ⟨r, er, ht⟩ := C69_similar_items s L I t 10 ty hl (by omega) (by omega) (fun _ => pi t (by omega)) (fun _ i hi => pi i hi)
    have ht' : IsTop 10 ((List.range s.itemlist.length).map fun y =>
        (match ty with
          | .joint => joint s.z s.itemZ s.itemZ y t
          | .conditional => joint s.z s.itemZ s.itemZ y t / marginal s.z s.itemZ t
          | .posterior => joint s.z s.itemZ s.itemZ t y / marginal s.z s.itemZ y, y)) r := by
      rw [← hli]
      cases ty <;> exact ht
    obtain ⟨o, eo, hp⟩ := rows_ok names s r (top_ids ht')
    refine ⟨o ++ o', ?_, .item hw hg ht' hp ha⟩
    rw [queries, command_none (int_not_command hw)]
    dsimp only
    rw [atoiInt_ok hw, Res.ok_bind, ask_eq names ⟨true, ty⟩ I s r o (by rw [if_pos rfl]; exact er) eo, thenMore]
    rw [e]
    rfl
  | @bad m w ws hc hw hm =>
    intro ty
    refine ⟨[.error], ?_, .bad hc hw⟩
    rw [queries, command_none hc]
    dsimp only
    have ht : atoiInt w = .throw := by
      rcases atoiInt_cases w with ⟨v, hv⟩ | ⟨h, _⟩
      · exfalso
        have := Props.Numeral.C05_atoi_signed_partial Atoi.sint32 (2 ^ 31) sint32_mem false (w ++ [0]) w.length (by simp)
          (by rwa [List.take_left])
        rw [List.take_left] at this
        cases hp : Spec.Numeral.parseInt (2 ^ 31) (2 ^ 31 - 1) (Spec.Numeral.upToNul w) with
        | some v => exact hw v hp
        | none =>
          rw [hp] at this
          unfold Props.Numeral.Reported at this
          simp only [Bool.false_eq_true, if_false] at this
          rw [atoiInt, Atoi.atoiS, this] at hv
          cases hv
      · exact h
    rw [ht]
    rfl

/-- Finding: the number of a user (or item) that does not occur in the data makes the program read outside of the learned vectors. -/
theorem C121_finding_unknown (names : Int → List UInt8) (s : Plsi) (L : Learning s) (w : List UInt8) (v : Int) (hw : IsInt w v)
    (ws : List (List UInt8)) (ty : Search) :
    (v ∉ s.userlist → queries names (w :: ws) ⟨false, ty⟩ s = .ub) ∧ (v ∉ s.itemlist → queries names (w :: ws) ⟨true, ty⟩ s = .ub) := by
  have hnone : ∀ l : List Int, v ∉ l → l.zipIdx.lookup v = none := by
    intro l hl
    cases e : l.zipIdx.lookup v with
    | none => rfl
    | some i =>
      have h := lookup_zipIdx l v 0
      rw [e] at h
      simp only [Nat.sub_zero, Nat.zero_le, true_and] at h
      exact absurd (List.mem_of_getElem? h) hl
  constructor
  · intro h
    have := hnone _ h
    rw [← L.data.users] at this
    rw [queries, command_none (int_not_command hw)]
    dsimp only
    rw [atoiInt_ok hw, Res.ok_bind, ask, if_neg (by simp), C69_finding_unknown_user s L v 10 this]
    rfl
  · intro h
    have := hnone _ h
    rw [← L.data.items] at this
    rw [queries, command_none (int_not_command hw)]
    dsimp only
    rw [atoiInt_ok hw, Res.ok_bind, ask, if_pos rfl, C69_finding_unknown_item s L v ty 10 this]
    rfl

/-! ## The whole program -/

/-- The program on a file whose items are distinct and numbers, with at least one class, whatever `Iter` is, and a sensible standard input:
it loads the file, learns, and answers everything. -/
theorem C121_session (names : Int → List UInt8) (lines : List (List (List UInt8))) (data : List (Int × List Int)) (h : Says lines data)
    (h31 : fieldsOf data < 2 ^ 31) (hd : (data.map (·.1)).Nodup) (hne : data ≠ []) (K : Nat) (hK : 1 ≤ K) (iter : Nat)
    (ws : List (List UInt8)) (hs : ∀ s, (∀ U, U ∈ s.userlist ↔ HasUser data U) → (∀ I, I ∈ s.itemlist ↔ HasItem data I) →
      Sensible s false ws) :
    ∃ ls o s s', session names lines K iter ws = .ok (ls, o) ∧ Learning s ∧ s.z.length = K ∧
      steps (fun _ => 1) ls.length 0 s = .ok (ls.map (·.lik), s') ∧ (ls.map (·.lik)).Pairwise (· ≤ ·) ∧ ls.length ≤ iter ∧
      Answers names s' false .joint ws o := by
  obtain ⟨s0, s, e0, e1, L, C, hz, hul, hil, _⟩ := C121_start lines data h h31 hd hne K hK
  obtain ⟨ls, s', e2, L', ho, hu, hi, hlen, hst, _, hp, _⟩ := C121_learn s L iter
  have C' : Covered s' := ⟨by rw [hu, ho]; exact C.users, by rw [hi, ho]; exact C.items⟩
  rcases C121_load lines data h h31 with ⟨e, _⟩ | ⟨s0', e, D0, _, _, hU, hI, _⟩
  · rw [e0] at e; cases e
  rw [e0] at e
  injection e with e
  subst e
  have zipInj : ∀ (a b : List Int), a.zipIdx = b.zipIdx → a = b := by
    intro a b hab
    have := congrArg (List.map Prod.fst) hab
    rwa [List.zipIdx_map_fst, List.zipIdx_map_fst] at this
  have hul' : s'.userlist = s0.userlist := by
    rw [← hul]; apply zipInj; rw [← L'.data.users, hu, L.data.users]
  have hil' : s'.itemlist = s0.itemlist := by
    rw [← hil]; apply zipInj; rw [← L'.data.items, hi, L.data.items]
  obtain ⟨o, eo, ha⟩ := C121_questions names s' L' C' false ws (hs s' (by rw [hul']; exact hU) (by rw [hil']; exact hI)) .joint
  refine ⟨ls, o, s, s', ?_, L, hz, hst, hp, hlen, ha⟩
  rw [session, e0, Res.ok_bind, e1, Res.ok_bind, e2, Res.ok_bind, eo]
  rfl

/-- "9", "ii", "sc", "5", "x" for the small file. -/
example (names : Int → List UInt8) (iter : Nat) : ∃ r, session names exLines 2 iter [[57], [105, 105], [115, 99], [53], [120]] = .ok r := by
  obtain ⟨ls, o, s, s', e, _⟩ := C121_session names exLines _ exSays (by decide) (by decide) (by simp) 2 (by omega) iter
    [[57], [105, 105], [115, 99], [53], [120]] (by
      intro s hU hI
      refine .user (by decide +kernel : IsInt [57] 9) ((hU 9).2 ⟨(6, [9]), by simp, by simp⟩) (.ii (.type (by simp) (.item
        (by decide +kernel : IsInt [53] 5) ((hI 5).2 ⟨(5, [7, 9]), by simp, rfl⟩) (.bad (by decide) ?_ ?_))))
      · intro v h
        have : Spec.Numeral.parseInt (2 ^ 31) (2 ^ 31 - 1) (Spec.Numeral.upToNul [120]) = none := by decide +kernel
        rw [IsInt, this] at h
        cases h
      · rintro ⟨k, d, c, r, e, _⟩
        simp [Spec.Numeral.upToNul] at e)
  exact ⟨_, e⟩

/-! ## Arguments -/

/-- What pairs of options and values set, the later ones last; numbers without a sign. -/
inductive Given : List (List UInt8) → Args → Args → Prop
  | nil {a : Args} : Given [] a a
  | d {v : List UInt8} {rest : List (List UInt8)} {a b : Args} (h : Given rest ⟨v, a.K, a.iter⟩ b) : Given ([45, 100] :: v :: rest) a b
  | k {v : List UInt8} {n : Int} {rest : List (List UInt8)} {a b : Args} (hz : 0 ∉ v) (hm : v.head? ≠ some 45) (hv : IsInt v n)
      (h : Given rest ⟨a.dir, n, a.iter⟩ b) : Given ([45, 107] :: v :: rest) a b
  | i {v : List UInt8} {n : Int} {rest : List (List UInt8)} {a b : Args} (hz : 0 ∉ v) (hm : v.head? ≠ some 45) (hv : IsInt v n)
      (h : Given rest ⟨a.dir, a.K, n⟩ b) : Given ([45, 105] :: v :: rest) a b

theorem upToNul_id {v : List UInt8} (h : 0 ∉ v) : Spec.Numeral.upToNul v = v := by
  unfold Spec.Numeral.upToNul
  induction v with
  | nil => rfl
  | cons a v ih =>
    rw [List.mem_cons, not_or] at h
    rw [List.takeWhile_cons, if_pos (by simpa using fun e => h.1 e.symm), ih h.2]

theorem atoiArg_ok {v : List UInt8} {n : Int} (hz : 0 ∉ v) (hlen : v.length < 2 ^ 64 - 1) (hm : v.head? ≠ some 45) (hv : IsInt v n) :
    atoiArg v = .ok n := by
  have := Props.Numeral.C05_cstring_signed_partial Atoi.sint32 (2 ^ 31) sint32_mem false v [] hz (2 ^ 64 - 1) hlen (by omega)
    (fun h => absurd h hm) (by
      rintro ⟨k, d, c, r, e, _⟩
      rw [e] at hm
      exact hm rfl)
  rw [IsInt, upToNul_id hz] at hv
  rw [hv] at this
  unfold Props.Numeral.ReportedC at this
  rw [atoiArg, Atoi.atoiC, this]
  rfl

/-- Pairs of `-d`, `-k` and `-i` with their values are taken over. -/
theorem C121_args (l : List (List UInt8)) (a b : Args) (h : Given l a b) (hlen : ∀ v ∈ l, v.length < 2 ^ 64 - 1) :
    args l a = .ok (some b) := by
  have bd : "-d".toUTF8.toList = [45, 100] := by decide +kernel
  have bk : "-k".toUTF8.toList = [45, 107] := by decide +kernel
  have bi : "-i".toUTF8.toList = [45, 105] := by decide +kernel
  induction h with
  | nil => rfl
  | d _ ih =>
    rw [args, bd, if_pos rfl]
    exact ih fun v hv => hlen v (by simp [hv])
  | k hz hm hv _ ih =>
    rw [args, bd, bk, if_neg (by decide), if_pos rfl, atoiArg_ok hz (hlen _ (by simp)) hm hv, Res.ok_bind]
    exact ih fun v hv => hlen v (by simp [hv])
  | i hz hm hv _ ih =>
    rw [args, bd, bk, bi, if_neg (by decide), if_neg (by decide), if_pos rfl, atoiArg_ok hz (hlen _ (by simp)) hm hv, Res.ok_bind]
    exact ih fun v hv => hlen v (by simp [hv])

/-- After such pairs, an argument without a value or an unknown option gives the usage. -/
theorem C121_usage (l : List (List UInt8)) (a b : Args) (h : Given l a b) (hlen : ∀ v ∈ l, v.length < 2 ^ 64 - 1) (x : List UInt8)
    (rest : List (List UInt8)) (hx : rest = [] ∨ x ∉ [[45, 100], [45, 107], [45, 105]]) : args (l ++ x :: rest) a = .ok none := by
  have bd : "-d".toUTF8.toList = [45, 100] := by decide +kernel
  have bk : "-k".toUTF8.toList = [45, 107] := by decide +kernel
  have bi : "-i".toUTF8.toList = [45, 105] := by decide +kernel
  induction h with
  | nil =>
    rw [List.nil_append]
    cases rest with
    | nil => rfl
    | cons v rest =>
      rcases hx with hx | hx
      · cases hx
      · simp only [List.mem_cons, List.not_mem_nil, or_false, not_or] at hx
        rw [args, bd, bk, bi, if_neg hx.1, if_neg hx.2.1, if_neg hx.2.2]
  | d _ ih =>
    rw [List.cons_append, List.cons_append, args, bd, if_pos rfl]
    exact ih fun v hv => hlen v (by simp [hv])
  | k hz hm hv _ ih =>
    rw [List.cons_append, List.cons_append, args, bd, bk, if_neg (by decide), if_pos rfl, atoiArg_ok hz (hlen _ (by simp)) hm hv, Res.ok_bind]
    exact ih fun v hv => hlen v (by simp [hv])
  | i hz hm hv _ ih =>
    rw [List.cons_append, List.cons_append, args, bd, bk, bi, if_neg (by decide), if_neg (by decide), if_pos rfl,
      atoiArg_ok hz (hlen _ (by simp)) hm hv, Res.ok_bind]
    exact ih fun v hv => hlen v (by simp [hv])

/-- `-k 8 -d x -k 5`. -/
example : Given [[45, 107], [56], [45, 100], [120], [45, 107], [53]] ⟨[], 20, 100⟩ ⟨[120], 5, 100⟩ :=
  .k (by decide) (by decide) (by decide +kernel : IsInt [56] 8) (.d (.k (by decide) (by decide) (by decide +kernel : IsInt [53] 5) .nil))

#print axioms C121_load
#print axioms C121_file
#print axioms C121_finding_blank_line
#print axioms C121_not_a_number
#print axioms C121_finding_item_twice
#print axioms C121_start
#print axioms C121_learn
#print axioms C121_finding_beta_unused
#print axioms C121_questions
#print axioms C121_finding_unknown
#print axioms C121_session
#print axioms C121_args
#print axioms C121_usage

end Verif.Props.PlsiSmpl
