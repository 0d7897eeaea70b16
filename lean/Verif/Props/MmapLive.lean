import Verif.Model.MmapLive

/-!
# C159: a mapped file that others change
-/
set_option linter.unusedSimpArgs false

namespace Verif.Props.MmapLive
open Verif.MmapLive

/-- The file of the object. -/
def ino : Obj → Option Nat
  | .before => none
  | .opened i => some i
  | .sized i _ => some i
  | .ready i _ => some i

/-- `size_`, once it is known. -/
def size : Obj → Nat
  | .sized _ n => n
  | .ready _ n => n
  | _ => 0

theorem place_length (f : Bytes) (p : Nat) (b : Bytes) : f.length ≤ (place f p b).length := by
  simp only [place, List.length_append, List.length_take, List.length_replicate, List.length_drop]
  omega

/-- Files of the object are old. -/
structure Inv (s : St) : Prop where
  dir : ∀ n i, s.dir n = some i → i < s.next
  obj : ∀ i, ino s.obj = some i → i < s.next

theorem Inv.step {name : Nat} {m : Manners} {s s' : St} (I : Inv s) (st : Step name m s s') : Inv s' := by
  obtain ⟨i1, i2⟩ := I
  cases st with
  | install => constructor <;> intros <;> grind [upd]
  | _ => constructor <;> grind [upd, ino]

theorem inv {name : Nat} {m : Manners} {s0 s : St} (h0 : Start s0) (h : Steps name m s0 s) : Inv s := by
  induction h with
  | refl => exact ⟨h0.old, by rw [h0.obj]; simp [ino]⟩
  | tail _ st ih => exact ih.step st

/-- If files are only replaced, the file of the object stays as it was. -/
theorem same {name : Nat} {s0 s : St} (h0 : Start s0) (h : Steps name .replace s0 s) :
    (∀ i, ino s.obj = some i → s.data i = s.atOpen) ∧ ∀ i n, s.obj = .sized i n ∨ s.obj = .ready i n → n = s.atOpen.length := by
  induction h with
  | refl => rw [h0.obj]; simp [ino]
  | tail hs st ih =>
    have I := inv h0 hs
    obtain ⟨i1, i2⟩ := ih
    obtain ⟨j1, j2⟩ := I
    cases st with
    | write g => exact absurd rfl g
    | truncate g => cases g
    | _ => constructor <;> grind [upd, ino]

theorem pages {page n i : Nat} (hp : 0 < page) (hi : i < n) : i < (n + page - 1) / page * page := by
  have h1 := Nat.div_add_mod (n + page - 1) page
  have h2 := Nat.mod_lt (n + page - 1) hp
  rw [Nat.mul_comm]
  omega

/-- C159: if other programs change files only by putting new ones in their place or removing names, the object shows, for all its life, exactly what
the file contained when the constructor opened it. -/
theorem C159_replaced {name page : Nat} (hp : 0 < page) {s0 s : St} (h0 : Start s0) (h : Steps name .replace s0 s) {i n : Nat} (hr : s.obj = .ready i n) :
    n = s.atOpen.length ∧ ∀ k, (hk : k < n) → ∃ b, s.atOpen[k]? = some b ∧ readByte page s k = .byte b := by
  obtain ⟨h1, h2⟩ := same h0 h
  have hn := h2 i n (.inr hr)
  have hd := h1 i (by rw [hr]; rfl)
  refine ⟨hn, fun k hk => ?_⟩
  have hk' : k < s.atOpen.length := by omega
  refine ⟨s.atOpen[k], List.getElem?_eq_getElem hk', ?_⟩
  simp only [readByte, hr, hd, List.getElem?_eq_getElem hk']
  rw [if_neg (by omega), if_pos (pages hp hk)]

theorem grows {name : Nat} {m : Manners} (hm : m ≠ .any) {s0 s : St} (h0 : Start s0) (h : Steps name m s0 s) :
    ∀ i n, s.obj = .sized i n ∨ s.obj = .ready i n → n ≤ (s.data i).length := by
  induction h with
  | refl => rw [h0.obj]; simp
  | tail hs st ih =>
    have I := inv h0 hs
    obtain ⟨j1, j2⟩ := I
    cases st with
    | write g1 g2 =>
      rename_i ino' p b
      intro i k hk
      have h1 := ih i k hk
      simp only [upd]
      split
      · rename_i e; subst e; exact Nat.le_trans h1 (place_length _ p b)
      · exact h1
    | truncate g => exact absurd g hm
    | install =>
      intro i k hk
      have h1 := ih i k hk
      have h2 := j2 i (by rcases hk with hk | hk <;> simp only at hk <;> rw [hk] <;> rfl)
      simp only [upd]
      rw [if_neg (by omega)]
      exact h1
    | _ => intro i k hk; grind [upd, ino]

/-- C159: as long as files are not shortened, every byte below `size()` can be read and is the one the file contains at that moment: what others write
is seen; `size()` remains as it was in the constructor. -/
theorem C159_current {name page : Nat} (hp : 0 < page) {m : Manners} (hm : m ≠ .any) {s0 s : St} (h0 : Start s0) (h : Steps name m s0 s) {i n : Nat}
    (hr : s.obj = .ready i n) : ∀ k, k < n → ∃ b, (s.data i)[k]? = some b ∧ readByte page s k = .byte b := by
  intro k hk
  have hn := grows hm h0 h i n (.inr hr)
  have hk' : k < (s.data i).length := by omega
  refine ⟨(s.data i)[k], List.getElem?_eq_getElem hk', ?_⟩
  simp only [readByte, hr, List.getElem?_eq_getElem hk']
  rw [if_neg (by omega), if_pos (pages hp hk)]

/-- What a write does to the bytes that were there. -/
theorem place_get (f : Bytes) (p : Nat) (b : Bytes) (k : Nat) (hk : k < f.length) :
    (place f p b)[k]? = if p ≤ k ∧ k < p + b.length then b[k - p]? else f[k]? := by
  simp only [place, List.getElem?_append, List.length_append, List.length_take, List.length_replicate, List.getElem?_take, List.getElem?_drop]
  grind

/-- C159: what another program writes into the mapped file is seen at once, and at exactly the bytes it wrote. -/
theorem C159_seen {name page : Nat} (hp : 0 < page) {s0 s : St} (h0 : Start s0) (h : Steps name .write s0 s) {i n : Nat} (hr : s.obj = .ready i n)
    (f p : Nat) (b : Bytes) (k : Nat) (hk : k < n) :
    readByte page { s with data := upd s.data f (place (s.data f) p b) } k =
      if h : f = i ∧ p ≤ k ∧ k < p + b.length then .byte (b[k - p]'(by omega)) else readByte page s k := by
  have hn := grows (by decide) h0 h i n (.inr hr)
  have hk' : k < (s.data i).length := by omega
  by_cases e : f = i
  · subst e
    have hg := place_get (s.data f) p b k hk'
    simp only [readByte, hr, upd, if_true, hg, true_and]
    by_cases hb : p ≤ k ∧ k < p + b.length
    · have : k - p < b.length := by omega
      rw [dif_pos hb, if_pos hb, List.getElem?_eq_getElem this, if_neg (by omega)]
      simp only
      rw [if_pos (pages hp hk)]
    · rw [dif_neg hb, if_neg hb, List.getElem?_eq_getElem hk']
  · have e' : ¬ i = f := fun g => e g.symm
    simp [readByte, hr, upd, e, e']

/-- C159: whatever others do, also if they shorten the file, a read below `size()` gives the byte the file has there at the moment, or, if the file
is now too short, zero if the last page of the file reaches there, and otherwise the signal: never other memory. -/
theorem C159_any {page : Nat} (hp : 0 < page) {s : St} {i n : Nat} (hr : s.obj = .ready i n) {k : Nat} (hk : k < n) :
    (∃ b, (s.data i)[k]? = some b ∧ readByte page s k = .byte b) ∨
    ((s.data i).length ≤ k ∧ k / page ≤ ((s.data i).length - 1) / page ∧ (s.data i).length ≠ 0 ∧ readByte page s k = .byte 0) ∨
    ((s.data i).length ≤ k ∧ (((s.data i).length = 0) ∨ ((s.data i).length - 1) / page < k / page) ∧ readByte page s k = .bus) := by
  have h2 := pages hp hk
  cases hd : (s.data i)[k]? with
  | some b => exact .inl ⟨b, rfl, by simp only [readByte, hr, hd]; rw [if_neg (by omega), if_pos h2]⟩
  | none =>
    have hl : (s.data i).length ≤ k := List.getElem?_eq_none_iff.1 hd
    have hr' : readByte page s k = if k < ((s.data i).length + page - 1) / page * page then .byte 0 else .bus := by
      simp only [readByte, hr, hd]; rw [if_neg (by omega), if_pos h2]
    rw [hr']
    generalize (s.data i).length = len at *
    by_cases h0 : len = 0
    · subst h0
      have h1 : (0 + page - 1) / page * page = 0 := by rw [Nat.div_eq_of_lt (by omega)]; simp
      exact .inr (.inr ⟨hl, .inl rfl, by rw [if_neg (by omega)]⟩)
    · have e : (len + page - 1) / page = (len - 1) / page + 1 := by
        rw [show len + page - 1 = len - 1 + page by omega, Nat.add_div_right _ hp]
      rw [e]
      by_cases hc : k < ((len - 1) / page + 1) * page
      · exact .inr (.inl ⟨hl, Nat.le_of_lt_succ ((Nat.div_lt_iff_lt_mul hp).2 hc), h0, by rw [if_pos hc]⟩)
      · refine .inr (.inr ⟨hl, .inr ?_, by rw [if_neg hc]⟩)
        have := (Nat.le_div_iff_mul_le hp).2 (Nat.le_of_not_lt hc)
        omega

/-- C159: `size()` never changes. -/
theorem C159_size {name : Nat} {m : Manners} {s s' : St} (h : Steps name m s s') {i n : Nat} (hr : s.obj = .ready i n) : s'.obj = .ready i n := by
  induction h with
  | refl => exact hr
  | tail _ st ih => cases st <;> simp_all

/-- C159, finding: if a file is shortened, reading below `size()` ends the program with `SIGBUS`. -/
theorem C159_finding_bus (page : Nat) (hp : 0 < page) (c : Bytes) (hc : c ≠ []) : ∃ s0 s, Start s0 ∧ s0.data 0 = c ∧ Steps 7 .any s0 s ∧
    s.obj = .ready 0 c.length ∧ readByte page s 0 = .bus := by
  refine ⟨⟨fun n => if n = 7 then some 0 else none, fun _ => c, 1, .before, []⟩, _, ⟨rfl, by grind⟩, rfl,
    .tail (.tail (.tail (.tail .refl (.open (ino := 0) rfl (by simp))) (.stat rfl)) (.map rfl)) (.truncate (ino := 0) (len := 0) rfl (by simp)),
    rfl, ?_⟩
  have hl : 0 < c.length := List.length_pos_iff.2 hc
  simp only [readByte, upd, resize]
  have h1 : (0 + page - 1) / page * page = 0 := by rw [Nat.div_eq_of_lt (by omega)]; simp
  have h2 := pages hp hl
  have h3 : List.take 0 c ++ List.replicate (0 - c.length) (0 : UInt8) = [] := by simp
  simp only [h3, if_true, List.getElem?_nil, List.length_nil, h1]
  rw [if_neg (by omega), if_pos h2]
  rfl

/-- C159, finding: a file that is shortened between `fstat` and `mmap` gives an object whose bytes cannot be read though the constructor has returned. -/
theorem C159_finding_race (c : Bytes) : ∃ s0 s, Start s0 ∧ s0.data 0 = c ∧ Steps 7 .any s0 s ∧
    s.obj = .ready 0 c.length ∧ s.data 0 = [] := by
  refine ⟨⟨fun n => if n = 7 then some 0 else none, fun _ => c, 1, .before, []⟩, _, ⟨rfl, by grind⟩, rfl,
    .tail (.tail (.tail (.tail .refl (.open (ino := 0) rfl (by simp))) (.stat rfl)) (.truncate (ino := 0) (len := 0) rfl (by simp))) (.map rfl),
    rfl, by simp [upd, resize]⟩

/-- C159, finding: two reads of one byte can differ. -/
theorem C159_finding_changes : ∃ s0 s s', Start s0 ∧ Steps 7 .write s0 s ∧ Steps 7 .write s s' ∧ readByte 4096 s 0 = .byte 1 ∧ readByte 4096 s' 0 = .byte 2 := by
  refine ⟨⟨fun n => if n = 7 then some 0 else none, fun _ => [1], 1, .before, []⟩, _, _, ⟨rfl, by grind⟩,
    .tail (.tail (.tail .refl (.open (ino := 0) rfl (by simp))) (.stat rfl)) (.map rfl),
    .tail .refl (.write (ino := 0) (p := 0) (b := [2]) (by decide) (by simp)), by simp [readByte], by simp [readByte, upd, place]⟩

/-- The hypotheses of `C159_replaced` (and of `C159_any`) are met by an object whose file is replaced by another one while it lives. -/
example : ∃ s0 s, Start s0 ∧ Steps 7 .replace s0 s ∧ s.obj = .ready 0 2 ∧ s.dir 7 = some 1 ∧ s.data 1 = [9] ∧ s.atOpen = [1, 2] :=
  ⟨⟨fun n => if n = 7 then some 0 else none, fun _ => [1, 2], 1, .before, []⟩, _, ⟨rfl, by grind⟩,
    .tail (.tail (.tail (.tail .refl (.open (ino := 0) rfl (by simp))) (.stat rfl)) (.map rfl)) (.install (n := 7) (c := [9])), rfl, rfl, rfl, rfl⟩

#print axioms C159_replaced
#print axioms C159_current
#print axioms C159_seen
#print axioms C159_any
#print axioms C159_size
#print axioms C159_finding_bus
#print axioms C159_finding_race
#print axioms C159_finding_changes

end Verif.Props.MmapLive
