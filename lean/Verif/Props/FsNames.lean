import Verif.Spec.FsNames
set_option linter.unusedSimpArgs false

/-! # C141: renaming and removing files -/
namespace Verif.Props.FsNames
open Verif Verif.FsNames Verif.Spec.FsNames
open Verif.FileOps (doesFileExist)

theorem follow_some (w : World) : ∀ (n : Nat) (p : Bytes) (x : Node), w.follow n p = some x ↔ ∃ m, m ≤ n ∧ Leads w m p x := by
  intro n
  induction n with
  | zero =>
    intro p x
    constructor
    · intro h
      unfold World.follow World.entry at h
      cases hk : w.key p with
      | none => simp [hk] at h
      | some k =>
        cases he : w.ent k with
        | none => simp [hk, he] at h
        | some y =>
          cases y with
          | file i => simp [hk, he] at h; subst h; exact ⟨0, Nat.le_refl _, .file hk he⟩
          | dir i => simp [hk, he] at h; subst h; exact ⟨0, Nat.le_refl _, .dir hk he⟩
          | link t => simp [hk, he] at h
    · rintro ⟨m, hm, h⟩
      unfold World.follow World.entry
      cases h with
      | file h1 h2 => simp [h1, h2]
      | dir h1 h2 => simp [h1, h2]
      | link => omega
  | succ n ih =>
    intro p x
    constructor
    · intro h
      unfold World.follow World.entry at h
      cases hk : w.key p with
      | none => simp [hk] at h
      | some k =>
        cases he : w.ent k with
        | none => simp [hk, he] at h
        | some y =>
          cases y with
          | file i => simp [hk, he] at h; subst h; exact ⟨0, Nat.zero_le _, .file hk he⟩
          | dir i => simp [hk, he] at h; subst h; exact ⟨0, Nat.zero_le _, .dir hk he⟩
          | link t =>
            simp only [hk, he] at h
            obtain ⟨m, hm, hl⟩ := (ih t x).mp h
            exact ⟨m + 1, by omega, .link hk he hl⟩
    · rintro ⟨m, hm, h⟩
      unfold World.follow World.entry
      cases h with
      | file h1 h2 => simp [h1, h2]
      | dir h1 h2 => simp [h1, h2]
      | link h1 h2 h3 => simp only [h1, h2]; exact (ih _ _).mpr ⟨_, by omega, h3⟩

theorem cstr_plain {p : Bytes} (h : (0 : UInt8) ∉ p) : cstr p = p := by
  unfold cstr
  induction p with
  | nil => rfl
  | cons a p ih =>
    have h1 : a ≠ 0 := fun q => h (by simp [q])
    rw [List.takeWhile_cons, if_pos (by simpa using h1), ih fun q => h (List.mem_cons_of_mem _ q)]

theorem exist_plain (w : World) {p : Bytes} (h : Plain p) : exist w p = (w.stat p).isSome := by
  unfold exist doesFileExist
  cases hl : p.getLast? with
  | none => exact absurd (List.getLast?_eq_none_iff.mp hl) h.ne
  | some c =>
    have h1 : ¬ (c = 47 ∨ c = 92) := by
      rintro (q | q)
      · exact h.slash (by rw [hl, q])
      · exact h.back (by rw [hl, q])
    simp only [if_neg h1, cstr_plain h.zero]

/-- C141.  `DoesFileExist` says for a plain name whether it leads, through at most 40 links, to a file or a directory. -/
theorem C141_exist (w : World) (p : Bytes) (h : Plain p) : exist w p = true ↔ ∃ n x, n ≤ 40 ∧ Leads w n p x := by
  rw [exist_plain w h, Option.isSome_iff_exists]
  constructor
  · rintro ⟨x, hx⟩; obtain ⟨m, a, b⟩ := (follow_some w 40 p x).mp hx; exact ⟨m, x, a, b⟩
  · rintro ⟨n, x, a, b⟩; exact ⟨x, (follow_some w 40 p x).mpr ⟨n, a, b⟩⟩

/-- C141.  `GetFileSize` gives the number of bytes of the file the name leads to, and throws exactly if it leads to nothing. -/
theorem C141_size (w : World) (ds : Nat → Nat) (p : Bytes) (h : (0 : UInt8) ∉ p) :
    (∀ n i, n ≤ 40 → Leads w n p (.file i) → getFileSize w ds p = .ok (w.data i).length) ∧
    (∀ n i, n ≤ 40 → Leads w n p (.dir i) → getFileSize w ds p = .ok (ds i)) ∧
    (getFileSize w ds p = .throw ↔ ¬ ∃ n x, n ≤ 40 ∧ Leads w n p x) ∧ getFileSize w ds p ≠ .ub := by
  have nolink : ∀ n t, ¬ Leads w n p (.link t) := by
    intro n t hl
    generalize hx : Node.link t = x at hl
    clear h
    induction hl with
    | file => cases hx
    | dir => cases hx
    | link _ _ _ ih => exact ih hx
  unfold getFileSize
  rw [cstr_plain h]
  have key := fun x => follow_some w 40 p x
  refine ⟨fun n i a b => ?_, fun n i a b => ?_, ?_, ?_⟩
  · rw [World.stat, (key _).mpr ⟨n, a, b⟩]
  · rw [World.stat, (key _).mpr ⟨n, a, b⟩]
  · cases hs : w.stat p with
    | none =>
      simp only [true_iff]
      rintro ⟨n, x, a, b⟩
      have := (key x).mpr ⟨n, a, b⟩
      rw [World.stat, this] at hs; cases hs
    | some x =>
      obtain ⟨m, a, b⟩ := (key x).mp hs
      cases x with
      | file i => simp only [reduceCtorEq, false_iff, Classical.not_not]; exact ⟨m, _, a, b⟩
      | dir i => simp only [reduceCtorEq, false_iff, Classical.not_not]; exact ⟨m, _, a, b⟩
      | link t => exact absurd b (nolink m t)
  · cases w.stat p with
    | none => simp
    | some x => cases x <;> simp

theorem key_set (w : World) (k : Nat) (x : Option Node) : (w.set k x).key = w.key := rfl

/-- What stands under a name that does not exist for `DoesFileExist`. -/
theorem entry_free {w : World} {p : Bytes} (hp : Plain p) (h : exist w p = false) {k : Nat} (hk : w.key p = some k) :
    w.ent k = none ∨ ∃ t, w.ent k = some (.link t) := by
  cases he : w.ent k with
  | none => exact .inl rfl
  | some x =>
    cases x with
    | link t => exact .inr ⟨t, rfl⟩
    | file i =>
      have := (C141_exist w p hp).mpr ⟨0, _, Nat.zero_le _, .file hk he⟩
      rw [h] at this; cases this
    | dir i =>
      have := (C141_exist w p hp).mpr ⟨0, _, Nat.zero_le _, .dir hk he⟩
      rw [h] at this; cases this

/-- What a successful `rename` onto nothing or a link does. -/
theorem rename_free {w w' : World} {fail full : Bool} {p q : Bytes} (h : w.rename fail full p q = some w')
    (hq : ∀ k, w.key q = some k → w.ent k = none ∨ ∃ t, w.ent k = some (.link t)) :
    ∃ a b x, w.key p = some a ∧ w.key q = some b ∧ w.ent a = some x ∧
      ((a = b ∧ w' = w) ∨ (a ≠ b ∧ w' = (w.set b (some x)).set a none)) := by
  unfold World.rename at h
  cases ha : w.key p with
  | none => simp [ha] at h
  | some a =>
    cases hb : w.key q with
    | none => simp [ha, hb] at h
    | some b =>
      simp only [ha, hb] at h
      cases hx : w.ent a with
      | none => simp [hx] at h
      | some x =>
        simp only [hx] at h
        refine ⟨a, b, x, rfl, rfl, hx, ?_⟩
        by_cases hf : fail = true
        · simp [hf] at h
        · rw [if_neg hf] at h
          by_cases hab : a = b
          · rw [if_pos hab] at h; injection h with h; exact .inl ⟨hab, h.symm⟩
          · rw [if_neg hab] at h
            rcases hq b hb with hn | ⟨t, ht⟩
            · rw [hn] at h; cases x <;> (injection h with h; exact .inr ⟨hab, h.symm⟩)
            · rw [ht] at h
              cases x with
              | dir i => cases h
              | file i => injection h with h; exact .inr ⟨hab, h.symm⟩
              | link u => injection h with h; exact .inr ⟨hab, h.symm⟩

/-- C141.  If no other program interferes and the new name is plain and has no entry, `RenameFile` either throws and nothing changes, or the entry
has the new name, the old name is free, and all other names and all data are as before. -/
theorem C141_rename (w : World) (fail full : Bool) (src dst : Bytes) (hd : Plain dst) (hs : (0 : UInt8) ∉ src) (b : Nat) (hb : w.key dst = some b)
    (he : w.ent b = none) (r : Bool) (w' : World) (h : renameFile w (fun w => w) fail full src dst = (r, w')) :
    (r = false ∧ w' = w) ∨ (r = true ∧ ∃ a x, w.key src = some a ∧ a ≠ b ∧ w.ent a = some x ∧ w'.ent a = none ∧ w'.ent b = some x ∧
      (∀ k, k ≠ a → k ≠ b → w'.ent k = w.ent k) ∧ w'.data = w.data ∧ w'.key = w.key) := by
  unfold renameFile at h
  by_cases hx : exist w dst = true
  · rw [if_pos hx] at h; injection h with h1 h2; exact .inl ⟨h1.symm, h2.symm⟩
  · rw [if_neg hx, cstr_plain hd.zero, cstr_plain hs] at h
    dsimp only at h
    cases hr : w.rename fail full src dst with
    | none => rw [hr] at h; injection h with h1 h2; exact .inl ⟨h1.symm, h2.symm⟩
    | some w2 =>
      rw [hr] at h; injection h with h1 h2; subst h1 h2
      obtain ⟨a, b', x, ha, hb', hxa, hc⟩ := rename_free hr (fun k hk => entry_free hd (by simpa using hx) hk)
      rw [hb] at hb'; injection hb' with hb'; subst hb'
      rcases hc with ⟨hab, _⟩ | ⟨hab, hw⟩
      · subst hab; rw [he] at hxa; cases hxa
      · subst hw
        exact .inr ⟨rfl, a, x, ha, hab, hxa, by simp [World.set], by simp [World.set, Ne.symm hab],
          fun k h1 h2 => by simp [World.set, h1, h2], rfl, rfl⟩

/-- C141.  `RenameFile` throws whenever the new name leads to something, and then nothing changes. -/
theorem C141_no_overwrite (w : World) (other : World → World) (fail full : Bool) (src dst : Bytes) (hd : Plain dst) (n : Nat) (x : Node) (hn : n ≤ 40)
    (h : Leads w n dst x) : renameFile w other fail full src dst = (false, w) := by
  rw [renameFile, if_pos ((C141_exist w dst hd).mpr ⟨n, x, hn, h⟩)]

/-- C141.  `RemoveFile` removes exactly the entry of that name (a link, not what it leads to), and throws for directories and names that are
not there; if it throws nothing changes.  No data changes. -/
theorem C141_remove (w : World) (fail : Bool) (p : Bytes) (h : (0 : UInt8) ∉ p) (r : Bool) (w' : World) (hr : removeFile w fail p = (r, w')) :
    (r = false → w' = w) ∧ (r = true → ∃ k x, w.key p = some k ∧ w.ent k = some x ∧ (∀ i, x ≠ .dir i) ∧ w'.ent k = none ∧
      (∀ j, j ≠ k → w'.ent j = w.ent j) ∧ w'.data = w.data ∧ w'.key = w.key) ∧
    (∀ k x, w.key p = some k → w.ent k = some x → (∀ i, x ≠ .dir i) → fail = false → r = true) := by
  unfold removeFile at hr
  rw [cstr_plain h] at hr
  unfold World.unlink at hr
  cases hk : w.key p with
  | none => simp only [hk] at hr; injection hr with h1 h2; subst h1 h2; exact ⟨fun _ => rfl, fun q => (by cases q), fun k x q => (by cases q)⟩
  | some k =>
    cases he : w.ent k with
    | none =>
      simp only [hk, he] at hr; injection hr with h1 h2; subst h1 h2
      exact ⟨fun _ => rfl, fun q => (by cases q), fun k' x q1 q2 => by injection q1 with q1; subst q1; rw [he] at q2; cases q2⟩
    | some x =>
      by_cases hx : ∀ i, x ≠ .dir i
      · simp only [hk, he] at hr
        cases fail with
        | true =>
          simp at hr; obtain ⟨h1, h2⟩ := hr; subst h1 h2
          exact ⟨fun _ => rfl, fun q => (by cases q), fun _ _ _ _ _ q => by cases q⟩
        | false =>
          simp at hr; obtain ⟨h1, h2⟩ := hr; subst h1 h2
          exact ⟨fun q => (by cases q), fun _ => ⟨k, x, rfl, he, hx, by simp [World.set], fun j hj => by simp [World.set, hj], rfl, rfl⟩, fun _ _ _ _ _ _ => rfl⟩
      · obtain ⟨i, hi⟩ : ∃ i, x = .dir i := Classical.byContradiction fun q => hx fun i e => q ⟨i, e⟩
        subst hi
        simp only [hk, he] at hr; injection hr with h1 h2; subst h1 h2
        exact ⟨fun _ => rfl, fun q => (by cases q), fun k' y q1 q2 q3 => by
          injection q1 with q1; subst q1; rw [he] at q2; injection q2 with q2; exact absurd q2.symm (q3 i)⟩

/-- The names a program gives are plain. -/
def Good : Op → Prop
  | .rename s d _ _ => (0 : UInt8) ∉ s ∧ Plain d
  | .remove n _ => (0 : UInt8) ∉ n

theorem step_named (w : World) (s d : Bytes) (f g : Bool) (hs : (0 : UInt8) ∉ s) (hd : Plain d) (i : Nat) :
    (Named w i ↔ Named (step w (.rename s d f g)) i) ∧ (step w (.rename s d f g)).data = w.data := by
  unfold step
  dsimp only
  unfold renameFile
  by_cases hx : exist w d = true
  · rw [if_pos hx]; exact ⟨Iff.rfl, rfl⟩
  · rw [if_neg hx, cstr_plain hd.zero, cstr_plain hs]
    dsimp only
    cases hr : w.rename f g s d with
    | none => exact ⟨Iff.rfl, rfl⟩
    | some w' =>
      have hf := fun k hk => entry_free (k := k) hd (by simpa using hx) hk
      obtain ⟨a, b, x, ha, hb, hxa, hc⟩ := rename_free hr hf
      rcases hc with ⟨_, hw⟩ | ⟨hab, hw⟩
      · subst hw; exact ⟨Iff.rfl, rfl⟩
      · subst hw
        refine ⟨⟨fun ⟨k, hk⟩ => ?_, fun ⟨k, hk⟩ => ?_⟩, rfl⟩
        · by_cases hka : k = a
          · subst hka
            rw [hk] at hxa; injection hxa with hxa; subst hxa
            exact ⟨b, by simp [World.set, Ne.symm hab]⟩
          · have hkb : k ≠ b := by
              intro q; subst q
              rcases hf k hb with q | ⟨t, q⟩ <;> rw [hk] at q <;> cases q
            exact ⟨k, by simp [World.set, hka, hkb, hk]⟩
        · by_cases hka : k = a
          · simp [World.set, hka] at hk
          · by_cases hkb : k = b
            · simp [World.set, hkb, Ne.symm hab] at hk; exact ⟨a, by rw [hxa, hk]⟩
            · simp [World.set, hka, hkb] at hk; exact ⟨k, hk⟩

/-- C141.  No sequence of `RenameFile` calls with plain new names loses a file: exactly the files that had a name have one afterwards, with the same
data, whatever calls fail. -/
theorem C141_no_file_lost (w : World) (ops : List Op) (h : ∀ o ∈ ops, Good o) (hr : ∀ o ∈ ops, ∃ s d f g, o = .rename s d f g) (i : Nat) :
    (Named w i ↔ Named (run w ops) i) ∧ (run w ops).data = w.data := by
  induction ops generalizing w with
  | nil => exact ⟨Iff.rfl, rfl⟩
  | cons o ops ih =>
    obtain ⟨s, d, f, g, ho⟩ := hr o (List.mem_cons_self ..)
    have hg := h o (List.mem_cons_self ..)
    subst ho
    obtain ⟨h1, h2⟩ := step_named w s d f g hg.1 hg.2 i
    obtain ⟨h3, h4⟩ := ih (step w (.rename s d f g)) (fun o q => h o (List.mem_cons_of_mem _ q)) (fun o q => hr o (List.mem_cons_of_mem _ q))
    exact ⟨h1.trans h3, h4.trans h2⟩

/-- Finding for C141.  A new name that is a link leading nowhere counts as free: `RenameFile` replaces the link without a word. -/
theorem C141_finding_dangling (w : World) (full : Bool) (src dst t : Bytes) (hd : Plain dst) (hs : (0 : UInt8) ∉ src) (a b i : Nat)
    (ha : w.key src = some a) (hb : w.key dst = some b) (hab : a ≠ b) (hx : w.ent a = some (.file i)) (ht : w.ent b = some (.link t))
    (hn : ¬ ∃ n x, n ≤ 40 ∧ Leads w n dst x) :
    ∃ w', renameFile w (fun w => w) false full src dst = (true, w') ∧ w'.ent b = some (.file i) ∧ w'.ent a = none := by
  have he : exist w dst = false := by
    cases h : exist w dst with
    | false => rfl
    | true => exact absurd ((C141_exist w dst hd).mp h) hn
  refine ⟨(w.set b (some (.file i))).set a none, ?_, by simp [World.set, Ne.symm hab], by simp [World.set]⟩
  simp [renameFile, he, cstr_plain hd.zero, cstr_plain hs, World.rename, ha, hb, hx, ht, hab]

/-- Finding for C141.  Between the check and the renaming another program may make a file of the new name: `RenameFile` returns, and that file has
no name any more. -/
theorem C141_finding_race (w : World) (full : Bool) (src dst : Bytes) (hd : Plain dst) (hs : (0 : UInt8) ∉ src) (a b i j : Nat)
    (ha : w.key src = some a) (hb : w.key dst = some b) (hab : a ≠ b) (hx : w.ent a = some (.file i)) (hij : i ≠ j) (he : w.ent b = none)
    (hj : ¬ Named w j) :
    ∃ w', renameFile w (fun w => w.set b (some (.file j))) false full src dst = (true, w') ∧ Named (w.set b (some (.file j))) j ∧ ¬ Named w' j := by
  have hex : exist w dst = false := by
    rw [exist_plain w hd, World.stat]
    unfold World.follow World.entry
    simp [hb, he]
  refine ⟨((w.set b (some (.file j))).set b (some (.file i))).set a none, ?_, ⟨b, by simp [World.set]⟩, ?_⟩
  · simp [renameFile, hex, cstr_plain hd.zero, cstr_plain hs, World.rename, ha, hb, hx, World.set, hab, hij]
  · rintro ⟨k, hk⟩
    by_cases h1 : k = a
    · simp [World.set, h1] at hk
    · by_cases h2 : k = b
      · simp [World.set, h2, Ne.symm hab, hij] at hk
      · simp [World.set, h1, h2] at hk; exact hj ⟨k, hk⟩

/-- Finding for C141.  A name is cut at a zero byte: `RemoveFile` and `GetFileSize` work on another file than the one named. -/
theorem C141_finding_zero (w : World) (fail : Bool) (ds : Nat → Nat) (p q : Bytes) (h : (0 : UInt8) ∉ p) :
    removeFile w fail (p ++ 0 :: q) = removeFile w fail p ∧ getFileSize w ds (p ++ 0 :: q) = getFileSize w ds p := by
  have : cstr (p ++ 0 :: q) = cstr p := by
    rw [cstr_plain h]
    unfold cstr
    induction p with
    | nil => rfl
    | cons a p ih =>
      have h1 : a ≠ 0 := fun q => h (by simp [q])
      rw [List.cons_append, List.takeWhile_cons, if_pos (by simpa using h1), ih fun q => h (List.mem_cons_of_mem _ q)]
  simp only [removeFile, getFileSize, this, and_self]

/-! ## Cases -/

/-- `a` is a file, `b` is free, `l` leads to `a`, `m` leads nowhere. -/
def small : World where
  key p := if p = [97] then some 0 else if p = [98] then some 1 else if p = [108] then some 2 else if p = [109] then some 3 else none
  ent k := if k = 0 then some (.file 7) else if k = 2 then some (.link [97]) else if k = 3 then some (.link [122]) else none
  data _ := [1, 2, 3]

example : Plain [98] := ⟨by decide, by decide, by decide, by decide⟩
example : (renameFile small (fun w => w) false false [97] [98]).1 = true := by decide
example : (renameFile small (fun w => w) false false [97] [108]).1 = false := by decide
example : (renameFile small (fun w => w) false false [97] [109]).1 = true := by decide
example : Leads small 1 [108] (.file 7) := .link (k := 2) (t := [97]) rfl rfl (.file (k := 0) rfl rfl)
example : getFileSize small (fun _ => 0) [108] = .ok 3 := rfl
example : (removeFile small false [108]).1 = true := by decide
example : ¬ Named small 9 := by
  rintro ⟨k, hk⟩
  simp only [small] at hk
  repeat' split at hk
  all_goals simp at hk
example : ¬ ∃ n x, n ≤ 40 ∧ Leads small n [109] x := by
  rw [← C141_exist small [109] ⟨by decide, by decide, by decide, by decide⟩]; decide

#print axioms C141_exist
#print axioms C141_size
#print axioms C141_rename
#print axioms C141_no_overwrite
#print axioms C141_remove
#print axioms C141_no_file_lost
#print axioms C141_finding_dangling
#print axioms C141_finding_race
#print axioms C141_finding_zero

end Verif.Props.FsNames
