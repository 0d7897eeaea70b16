import Verif.Spec.FileOps
import Verif.Props.FileName
/-!
# C87–C89: `File` and the directory functions
-/
set_option linter.unusedSimpArgs false
namespace Verif.Props.FileOps
open Verif Verif.FileOps Verif.FileOpsSpec

/-! ## C87: the life of a descriptor -/

/-- Exactly the documented modes are taken; `out | trunc` is `out`. -/
theorem C87_mode (m : Mode) : (verifyMode m).isSome = true ↔ Documented m := by
  obtain ⟨i, o, a, t⟩ := m
  cases i <;> cases o <;> cases a <;> cases t <;> simp [verifyMode, Documented]

/-- `open` returns exactly if the object is closed, the mode is documented, the system gives a descriptor and, for appending, the
end can be found; then the object is open.  When it throws, the object holds no descriptor it did not hold before, unless the end could
not be found. -/
theorem C87_open (f : FileObj) (m : Mode) (a : OpenAns) :
    ((f.open m a).1 = true ↔ f.hdl = none ∧ Documented m ∧ a.fd? ≠ none ∧ (m.app = true → a.size = true ∧ a.seek = true)) ∧
    ((f.open m a).1 = true → (f.open m a).2.1.hdl = a.fd?) ∧
    ((f.open m a).1 = false → (f.open m a).2.1.hdl = f.hdl ∨
      (m.app = true ∧ (a.size = false ∨ a.seek = false) ∧ (f.open m a).2.1.hdl = a.fd?)) := by
  have hm := C87_mode m
  obtain ⟨h, dc, ro⟩ := f
  obtain ⟨fd, sz, sk⟩ := a
  cases h with
  | some x => simp [FileObj.open]
  | none =>
    cases hv : verifyMode m with
    | none =>
      have : ¬ Documented m := by rw [← hm, hv]; simp
      simp [FileObj.open, hv, this]
    | some r =>
      have : Documented m := by rw [← hm, hv]; simp
      cases fd with
      | none => simp [FileObj.open, hv, this]
      | some fd =>
        cases ha : m.app <;> cases sz <;> cases sk <;> simp [FileObj.open, hv, this, ha]

theorem verify_write {m : Mode} {r : Bool} (h : verifyMode m = some r) : (flagsOf m).write = !r := by
  obtain ⟨i, o, a, t⟩ := m
  cases i <;> cases o <;> cases a <;> cases t <;> simp_all [verifyMode, flagsOf] <;> simp [← h]

theorem accepts_append {r r1 r2 a b} (h : AcceptsAll r a r1) (h2 : AcceptsAll r1 b r2) : AcceptsAll r (a ++ b) r2 := by
  induction h with
  | nil => exact h2
  | cons x _ ih => exact .cons x (ih h2)

/-- What the object knows of the descriptor it holds. -/
def held (f : FileObj) : Option (Nat × Bool) := f.hdl.map (fun fd => (fd, !f.readOnly))

theorem open_accepts (f : FileObj) (m : Mode) (a : OpenAns) :
    AcceptsAll (held f) (f.open m a).2.2 (held (f.open m a).2.1) ∧ (f.doClose = true → (f.open m a).2.1.doClose = true) := by
  obtain ⟨h, dc, ro⟩ := f
  cases h with
  | some x => simp only [FileObj.open, Option.isSome_some, if_true]; exact ⟨.nil _, id⟩
  | none =>
    cases hv : verifyMode m with
    | none => simp only [FileObj.open, hv, Option.isSome_none, Bool.false_eq_true, if_false]; exact ⟨.nil _, fun _ => trivial⟩
    | some r =>
      cases hf : a.fd? with
      | none => simp only [FileObj.open, hv, hf, Option.isSome_none, Bool.false_eq_true, if_false]; exact ⟨.nil _, fun _ => trivial⟩
      | some fd =>
        simp only [FileObj.open, hv, hf, Option.isSome_none, Bool.false_eq_true, if_false, verify_write hv]
        exact ⟨.cons (.opened fd _) (.nil _), fun _ => trivial⟩

theorem step_accepts (f : FileObj) (o : Op) :
    AcceptsAll (held f) (f.step o).2 (held (f.step o).1) ∧ (f.doClose = true → (f.step o).1.doClose = true) := by
  cases o with
  | «open» m a => exact open_accepts f m a
  | sync ok => exact ⟨.nil _, id⟩
  | close ok =>
    obtain ⟨h, dc, ro⟩ := f
    cases h with
    | none => exact ⟨.nil _, id⟩
    | some fd => exact ⟨.cons (.closed fd _) (.nil _), id⟩

theorem steps_accepts (l : List Op) (f : FileObj) :
    AcceptsAll (held f) (f.steps l).2 (held (f.steps l).1) ∧ (f.doClose = true → (f.steps l).1.doClose = true) := by
  induction l generalizing f with
  | nil => exact ⟨.nil _, id⟩
  | cons o l ih =>
    rw [FileObj.steps]
    exact ⟨accepts_append (step_accepts f o).1 (ih _).1, fun h => (ih _).2 ((step_accepts f o).2 h)⟩

theorem destroy_accepts (f : FileObj) (hd : f.doClose = true) (s c : Bool) :
    ∃ r, AcceptsAll (held f) (f.destroy s c) r ∧ (r = none ∨ s = false ∧ ∃ fd, r = some (fd, true)) := by
  obtain ⟨h, dc, ro⟩ := f
  cases hd
  cases h with
  | none => exact ⟨none, by simp [FileObj.destroy, FileObj.sync, FileObj.close, held]; exact .nil _, .inl rfl⟩
  | some fd =>
    cases ro with
    | true =>
      refine ⟨none, ?_, .inl rfl⟩
      simp only [FileObj.destroy, FileObj.sync, FileObj.close, held]
      exact .cons (.closed fd _) (.nil _)
    | false =>
      cases s with
      | true =>
        refine ⟨none, ?_, .inl rfl⟩
        simp only [FileObj.destroy, FileObj.sync, FileObj.close, held]
        exact .cons (.closed fd _) (.nil _)
      | false => exact ⟨some (fd, true), .nil _, .inr ⟨rfl, fd, rfl⟩⟩

/-- Over the whole life of an object that is made without a handle, whatever the system answers and whatever is called (exceptions are
caught and the object used on): it opens a descriptor only while it holds none, closes only the one it holds, and at the end holds
none; the exception is a descriptor opened for writing whose last `fdatasync` failed. -/
theorem C87_life_partial (c : Ctor) (ops : List Op) (s cl : Bool) (hh : ∀ fd, c ≠ .handle fd)
    (happ : ∀ m a, c = .named m a → m.app = true → a.size = true ∧ a.seek = true) :
    ∃ r, AcceptsAll none (life c ops s cl) r ∧ (r = none ∨ s = false ∧ ∃ fd, r = some (fd, true)) := by
  have key : ∀ (f : FileObj), f.doClose = true → ∃ r, AcceptsAll (held f) ((f.steps ops).2 ++ (f.steps ops).1.destroy s cl) r ∧
      (r = none ∨ s = false ∧ ∃ fd, r = some (fd, true)) := by
    intro f hf
    obtain ⟨h1, h2⟩ := steps_accepts ops f
    obtain ⟨r, h3, h4⟩ := destroy_accepts _ (h2 hf) s cl
    exact ⟨r, accepts_append h1 h3, h4⟩
  cases c with
  | handle fd => exact absurd rfl (hh fd)
  | empty => exact key ⟨none, true, false⟩ rfl
  | named m a =>
    have h1 := open_accepts ⟨none, true, false⟩ m a
    have h2 := (C87_open ⟨none, true, false⟩ m a).2.2
    have hap := happ m a rfl
    rw [life]
    generalize (FileObj.open ⟨none, true, false⟩ m a) = x at h1 h2
    obtain ⟨b, f, evs⟩ := x
    cases b with
    | true =>
      simp only at h1 ⊢
      obtain ⟨r, h3, h4⟩ := key f (h1.2 trivial)
      rw [List.append_assoc]
      exact ⟨r, accepts_append h1.1 h3, h4⟩
    | false =>
      simp only at h1 h2 ⊢
      refine ⟨none, ?_, .inl rfl⟩
      have : held f = none := by
        rcases h2 trivial with h | ⟨h3, h4, _⟩
        · rw [held, h]; rfl
        · obtain ⟨p, q⟩ := hap h3
          rcases h4 with h | h
          · rw [p] at h; cases h
          · rw [q] at h; cases h
      rw [this] at h1
      exact h1.1

/-- A handle that was given to the object is closed only by a call of `close`, never by the destructor. -/
theorem C87_adopt (fd : Nat) (ops : List Op) (s cl : Bool) (h : ∀ ok, .close ok ∉ ops) : life (.handle fd) ops s cl = [] := by
  have key : ∀ (l : List Op), (∀ ok, .close ok ∉ l) → FileObj.steps ⟨some fd, false, false⟩ l = (⟨some fd, false, false⟩, []) := by
    intro l
    induction l with
    | nil => intro _; rfl
    | cons o l ih =>
      intro h
      have e : FileObj.step ⟨some fd, false, false⟩ o = (⟨some fd, false, false⟩, []) := by
        cases o with
        | «open» m a => rfl
        | sync ok => rfl
        | close ok => exact absurd (by simp) (h ok)
      rw [FileObj.steps, e, ih (fun ok hm => h ok (by simp [hm]))]
      rfl
  rw [life, key ops h]
  rfl

/-- A closed adopted object can be used like a new one. -/
theorem C87_adopt_closed (fd : Nat) (ok : Bool) (ops : List Op) (s cl : Bool) :
    ∃ r, AcceptsAll (some (fd, true)) (life (.handle fd) (.close ok :: ops) s cl) r ∧
      (r = none ∨ s = false ∧ ∃ fd, r = some (fd, true)) := by
  have e : life (.handle fd) (.close ok :: ops) s cl = .closed fd :: ((FileObj.steps ⟨none, false, false⟩ ops).2 ++
      (FileObj.steps ⟨none, false, false⟩ ops).1.destroy s cl) := rfl
  rw [e]
  have key : ∀ (l : List Op) (f : FileObj), f.doClose = true ∨ f.hdl = none → (f.steps l).1.doClose = true ∨ (f.steps l).1.hdl = none := by
    intro l
    induction l with
    | nil => exact fun _ => id
    | cons o l ih =>
      intro f hf
      rw [FileObj.steps]
      refine ih _ ?_
      rcases hf with h | h
      · exact .inl ((step_accepts f o).2 h)
      · obtain ⟨x, dc, ro⟩ := f
        cases h
        cases o with
        | «open» m a =>
          left
          cases hv : verifyMode m <;> cases hf : a.fd? <;> simp [FileObj.step, FileObj.open, hv, hf]
        | sync ok => exact .inr rfl
        | close ok => exact .inr rfl
  have h1 := (steps_accepts ops ⟨none, false, false⟩).1
  rcases key ops ⟨none, false, false⟩ (.inr rfl) with h | h
  · obtain ⟨r, h3, h4⟩ := destroy_accepts _ h s cl
    exact ⟨r, .cons (.closed fd true) (accepts_append h1 h3), h4⟩
  · refine ⟨none, .cons (.closed fd true) ?_, .inl rfl⟩
    generalize FileObj.steps ⟨none, false, false⟩ ops = x at h h1
    obtain ⟨⟨hd, dc, ro⟩, ev⟩ := x
    cases h
    have : FileObj.destroy ⟨none, dc, ro⟩ s cl = [] := by cases dc <;> simp [FileObj.destroy, FileObj.sync, FileObj.close]
    simp only at h1 ⊢
    rw [this, List.append_nil]
    exact h1

/-- Finding: when `fdatasync` fails in the destructor, as it always does for a pipe or a terminal, the descriptor is never closed. -/
theorem C87_finding_sync (m : Mode) (hm : m = ⟨false, true, false, false⟩) (fd : Nat) (cl : Bool) :
    life (.named m ⟨some fd, true, true⟩) [] false cl = [.opened fd true] ∧
    ∀ c, life (.named m ⟨some fd, true, true⟩) [.close c] false cl = [.opened fd true, .closed fd] := by
  subst hm
  exact ⟨rfl, fun _ => rfl⟩

/-- Finding: a constructor for appending that cannot find the end (a pipe) throws and leaves the descriptor open for ever. -/
theorem C87_finding_append (fd : Nat) (ops : List Op) (s cl : Bool) :
    life (.named ⟨false, true, true, false⟩ ⟨some fd, true, false⟩) ops s cl = [.opened fd true] := rfl

-- a file read, closed, written and left to the destructor
/-- `sync` on an object without a file, or with one opened for reading, returns whatever the system would say; otherwise it throws
exactly if the system reports an error. -/
theorem C87_sync (f : FileObj) (ok : Bool) : f.sync ok = false ↔ (∃ fd, f.hdl = some fd) ∧ f.readOnly = false ∧ ok = false := by
  obtain ⟨h, d, r⟩ := f
  cases h <;> cases r <;> cases ok <;> simp [FileObj.sync]

example : life (.named ⟨true, false, false, false⟩ ⟨some 3, true, true⟩)
    [.close true, .open ⟨false, true, true, false⟩ ⟨some 4, true, true⟩, .sync true] true true =
    [.opened 3 false, .closed 3, .opened 4 true, .closed 4] := rfl
example : ∀ m a, (Ctor.named ⟨false, true, true, false⟩ ⟨some 4, true, true⟩) = .named m a → m.app = true →
    a.size = true ∧ a.seek = true := by rintro _ _ h _; cases h; exact ⟨rfl, rfl⟩

/-! ## C88: the contents -/

theorem overlay_length (old : Bytes) (p : Nat) (b : Bytes) : (overlay old p b).length = max old.length (p + b.length) := by
  simp only [overlay, List.length_append, List.length_take, List.length_replicate, List.length_drop]
  omega

theorem overlay_get (old : Bytes) (p : Nat) (b : Bytes) (i : Nat) : (overlay old p b)[i]? =
    if i < p then (if i < old.length then old[i]? else some 0) else if i < p + b.length then b[i - p]? else old[i]? := by
  simp only [overlay]
  simp only [List.getElem?_append, List.length_append, List.length_take, List.length_replicate]
  have e : min p old.length + (p - old.length) = p := by omega
  rw [e]
  by_cases h1 : i < p
  · have h2 : i < p + b.length := by omega
    simp only [h1, h2, if_true]
    by_cases h3 : i < old.length
    · have h4 : i < min p old.length := by omega
      simp only [h3, h4, if_true, List.getElem?_take_of_lt h1]
    · have h4 : ¬ i < min p old.length := by omega
      have h5 : i - min p old.length < p - old.length := by omega
      simp only [h3, h4, if_false, List.getElem?_replicate, h5, if_true]
  · by_cases h2 : i < p + b.length
    · simp only [h1, h2, if_true, if_false]
    · simp only [h1, h2, if_false, List.getElem?_drop]
      congr 1
      omega

/-- Where a seek counts from: the begin, the position or the end of the file. -/
def seekBase (old : Bytes) (d : Desc) : Dir → Int
  | .beg => 0
  | .cur => d.pos
  | .fin => old.length

/-- `seek` moves the position of this descriptor to the target, counted from the begin, the position or the end, and changes nothing else; it throws
exactly for a target before the begin. -/
theorem C88_seek (w : FS) (fd : Nat) (d : Desc) (old : Bytes) (pos : Int) (dir : Dir) (hd : w.desc fd = some d)
    (ho : w.files d.file = some old) :
    (w.seek fd pos dir = none ↔ seekBase old d dir + pos < 0) ∧
    ∀ w', w.seek fd pos dir = some w' → w'.files = w.files ∧ (∀ i, i ≠ fd → w'.desc i = w.desc i) ∧
      ∃ p : Nat, (p : Int) = seekBase old d dir + pos ∧ w'.desc fd = some { d with pos := p } := by
  have h : w.seek fd pos dir = w.sysSeek fd (seekBase old d dir + pos) := by
    cases dir <;> simp [FS.seek, seekBase, hd, FS.getSize, ho]
  rw [h, FS.sysSeek, hd]
  dsimp only
  split
  · rename_i h0
    exact ⟨⟨fun _ => h0, fun _ => rfl⟩, fun w' e => by cases e⟩
  · rename_i h0
    refine ⟨⟨fun e => (by cases e), fun e => absurd e h0⟩, fun w' e => ?_⟩
    injection e with e
    subst e
    exact ⟨rfl, fun i hi => by simp [hi], (seekBase old d dir + pos).toNat, by omega, by simp⟩

/-- After `seek` and `write` through a file opened for writing (not appending) every byte of the file is the new one where it was
written, the old one elsewhere, zero in a gap; other files are unchanged, and the size is the greater of the two ends. -/
theorem C88_overwrite (w : FS) (fd : Nat) (d : Desc) (old b : Bytes) (p : Nat) (hd : w.desc fd = some d) (hw : d.flags.write = true)
    (ha : d.flags.append = false) (ho : w.files d.file = some old) (hb : b ≠ []) :
    ∃ w1 w2 new, w.seek fd p .beg = some w1 ∧ w1.write fd b = some w2 ∧ w2.files d.file = some new ∧
      (∀ i, new[i]? = byteAfter old p b i) ∧ w2.getSize fd = some (max old.length (p + b.length)) ∧
      (∀ g, g ≠ d.file → w2.files g = w.files g) := by
  have h1 : w.seek fd p .beg = some { w with desc := fun i => if i = fd then some { d with pos := p } else w.desc i } := by
    simp only [FS.seek, FS.sysSeek, hd]
    rw [if_neg (by omega)]
    rfl
  refine ⟨_, _, overlay old p b, h1, by rw [FS.write, if_neg hb]; simp only [FS.sysWrite, if_true, hw, ha, ho, Bool.not_true,
    Bool.false_eq_true, if_false, Option.getD_some]; rfl, ?_, ?_, ?_, ?_⟩
  · simp
  · intro i
    rw [overlay_get, byteAfter]
    have := List.length_pos_iff.2 hb
    by_cases c1 : i < p
    · have c0 : ¬ p ≤ i := by omega
      by_cases c2 : i < old.length <;> simp only [c0, c1, c2, false_and, if_true, if_false]
    · have c0 : p ≤ i := by omega
      by_cases c2 : i < p + b.length
      · simp only [c0, c1, c2, true_and, if_true, if_false]
      · by_cases c3 : i < old.length
        · simp only [c0, c1, c2, c3, true_and, and_false, if_true, if_false]
        · simp only [c0, c1, c2, c3, true_and, and_false, if_true, if_false]
          exact List.getElem?_eq_none (by omega)
  · simp [FS.getSize, overlay_length]
  · intro g hg
    simp [hg]

/-- The descriptor `fd` appends to the file `name`. -/
def Appends (w : FS) (name fd : Nat) : Prop :=
  ∃ d, w.desc fd = some d ∧ d.file = name ∧ d.flags.write = true ∧ d.flags.append = true

theorem overlay_end (old b : Bytes) : overlay old old.length b = old ++ b := by
  simp [overlay, List.drop_eq_nil_of_le]

theorem write_append {w : FS} {name fd : Nat} {old b : Bytes} (h : Appends w name fd) (ho : w.files name = some old) :
    ∃ w', w.write fd b = some w' ∧ w'.files name = some (old ++ b) ∧ (∀ g, g ≠ name → w'.files g = w.files g) ∧
      ∀ fd', Appends w name fd' → Appends w' name fd' := by
  obtain ⟨d, h1, rfl, h3, h4⟩ := h
  rw [FS.write]
  by_cases hb : b = []
  · rw [if_pos hb]
    exact ⟨w, rfl, by rw [ho, hb, List.append_nil], fun _ _ => rfl, fun _ => id⟩
  · rw [if_neg hb]
    simp only [FS.sysWrite, h1, h3, h4, ho, Bool.not_true, Bool.false_eq_true, if_false, if_true, Option.getD_some, overlay_end]
    refine ⟨_, rfl, by simp, fun g hg => by simp [hg], ?_⟩
    rintro fd' ⟨d', p1, p2, p3, p4⟩
    by_cases e : fd' = fd
    · subst e
      rw [h1] at p1
      cases p1
      exact ⟨{ d with pos := old.length + b.length }, by simp only [if_true], rfl, h3, h4⟩
    · exact ⟨d', by simp only [e, if_false]; exact p1, p2, p3, p4⟩

/-- `open` for appending keeps what is in the file (or makes an empty one) and gives a descriptor that appends; the other files are
untouched. -/
theorem C88_open_append (w : FS) (name fd : Nat) :
    ∃ w', w.openFile name fd ⟨false, true, true, false⟩ = some w' ∧ w'.files name = some ((w.files name).getD []) ∧
      (∀ g, g ≠ name → w'.files g = w.files g) ∧ Appends w' name fd ∧
      (∀ fd', fd' ≠ fd → Appends w name fd' → Appends w' name fd') := by
  have h0 : ∀ (fs : Nat → Option Bytes), ∃ w' : FS, (match FS.getSize ⟨fs, fun i => if i = fd then some ⟨name, 0, ⟨true, true, true, false⟩⟩ else w.desc i⟩ fd with
      | none => none
      | some n => FS.seek ⟨fs, fun i => if i = fd then some ⟨name, 0, ⟨true, true, true, false⟩⟩ else w.desc i⟩ fd n .beg) = some w' ∧
      w'.files = fs ∧ Appends w' name fd ∧ (∀ fd', fd' ≠ fd → Appends w name fd' → Appends w' name fd') := by
    intro fs
    simp only [FS.getSize, if_true, Option.map_some, FS.seek, FS.sysSeek]
    rw [if_neg (by omega)]
    refine ⟨_, rfl, rfl, ⟨⟨name, (((fs name).getD []).length : Int).toNat, ⟨true, true, true, false⟩⟩, by simp only [if_true], rfl, rfl, rfl⟩, ?_⟩
    rintro fd' hne ⟨d, h1, h2⟩
    exact ⟨d, by simp only [hne, if_false]; exact h1, h2⟩
  simp only [FS.openFile, verifyMode, flagsOf, FS.sysOpen]
  cases hf : w.files name with
  | none =>
    simp only [Bool.false_eq_true, if_false, if_true, Bool.false_and, Bool.and_false, beq_iff_eq]
    obtain ⟨w', h1, h2, h3, h4⟩ := h0 (fun i => if i = name then some [] else w.files i)
    exact ⟨w', h1, by simp [h2], fun g hg => by simp [h2, hg], h3, h4⟩
  | some old =>
    simp only [Bool.false_eq_true, if_false, if_true, Bool.false_and, Bool.and_false, beq_iff_eq, and_false]
    obtain ⟨w', h1, h2, h3, h4⟩ := h0 w.files
    exact ⟨w', h1, by simp [h2, hf], fun g hg => by simp [h2, hg], h3, h4⟩

/-- Any number of objects appending to one file in any order: the file is what it was and then all the writes in the order they were
made, none overwritten; the other files are untouched. -/
theorem C88_append (w : FS) (name : Nat) (old : Bytes) (ho : w.files name = some old) (l : List (Nat × Bytes))
    (h : ∀ x ∈ l, Appends w name x.1) :
    ∃ w', w.writes l = some w' ∧ w'.files name = some (old ++ (l.map (·.2)).flatten) ∧ ∀ g, g ≠ name → w'.files g = w.files g := by
  induction l generalizing w old with
  | nil => exact ⟨w, rfl, by simp [ho], fun _ _ => rfl⟩
  | cons x l ih =>
    obtain ⟨fd, b⟩ := x
    obtain ⟨w1, h1, h2, h3, h4⟩ := write_append (b := b) (h (fd, b) (by simp)) ho
    obtain ⟨w2, h5, h6, h7⟩ := ih w1 (old ++ b) h2 (fun y hy => h4 _ (h y (by simp [hy])))
    refine ⟨w2, by rw [FS.writes, h1]; exact h5, by rw [h6]; simp, fun g hg => by rw [h7 g hg, h3 g hg]⟩

/-- Consecutive reads give consecutive pieces of the file, each as long as asked unless the file ends: together the first `i` reads
give the next bytes, as many as they asked for.  Nothing is changed. -/
theorem C88_read (w : FS) (fd : Nat) (d : Desc) (old : Bytes) (hd : w.desc fd = some d) (hr : d.flags.write = false)
    (ho : w.files d.file = some old) (l : List Nat) :
    ∃ bs w', w.reads fd l = some (bs, w') ∧ (∀ i, (bs.take i).flatten = (old.drop d.pos).take (l.take i).sum) ∧
      w'.files = w.files ∧ bs.length = l.length := by
  induction l generalizing w d with
  | nil => exact ⟨[], w, rfl, by simp, rfl, rfl⟩
  | cons n l ih =>
    have e : w.readSome fd n = some ((old.drop d.pos).take n, { w with desc := fun i => if i = fd then
        (some { d with pos := d.pos + ((old.drop d.pos).take n).length }) else w.desc i }) := by
      simp only [FS.readSome, hd, hr, ho, Bool.false_eq_true, if_false, Option.getD_some]
    obtain ⟨bs, w', h1, h2, h3, h4⟩ := ih { w with desc := fun i => if i = fd then
        (some { d with pos := d.pos + ((old.drop d.pos).take n).length }) else w.desc i }
        { d with pos := d.pos + ((old.drop d.pos).take n).length } (by simp only [if_true]) hr ho
    refine ⟨(old.drop d.pos).take n :: bs, w', by simp only [FS.reads, e, h1], ?_, h3, by simp [h4]⟩
    intro i
    cases i with
    | zero => simp
    | succ i =>
      rw [List.take_succ_cons, List.take_succ_cons, List.flatten_cons, h2, List.sum_cons]
      simp only [List.length_take, List.length_drop]
      by_cases c : n ≤ old.length - d.pos
      · rw [Nat.min_eq_left c, ← List.drop_drop, ← List.take_add]
      · have c1 : (old.drop d.pos).length ≤ n := by rw [List.length_drop]; omega
        rw [Nat.min_eq_right (by omega), List.take_of_length_le c1, List.take_of_length_le (l := old.drop d.pos) (by omega),
          show old.drop (d.pos + (old.length - d.pos)) = [] from List.drop_eq_nil_of_le (by omega), List.take_nil, List.append_nil]

/-- Bytes written at the position of a file at its end. -/
theorem writes_here {w : FS} {name fd : Nat} {d : Desc} {old : Bytes} (hd : w.desc fd = some d) (hn : d.file = name)
    (hw : d.flags.write = true) (ha : d.flags.append = false) (ho : w.files name = some old) (hp : d.pos = old.length)
    (l : List Bytes) : ∃ w', w.writes (l.map (fd, ·)) = some w' ∧ w'.files name = some (old ++ l.flatten) ∧
      (∀ g, g ≠ name → w'.files g = w.files g) ∧ ∀ fd', fd' ≠ fd → w'.desc fd' = w.desc fd' := by
  subst hn
  induction l generalizing w d old with
  | nil => exact ⟨w, rfl, by simp [ho], fun _ _ => rfl, fun _ _ => rfl⟩
  | cons b l ih =>
    rw [List.map_cons, FS.writes, FS.write]
    by_cases hb : b = []
    · rw [if_pos hb, hb]
      simpa using ih hd hw ha hp ho
    · rw [if_neg hb]
      simp only [FS.sysWrite, hd, hw, ha, ho, Bool.not_true, Bool.false_eq_true, if_false, Option.getD_some, hp, overlay_end]
      obtain ⟨w', h1, h2, h3, h4⟩ := ih (w := ⟨fun i => if i = d.file then some (old ++ b) else w.files i,
        fun i => if i = fd then some ⟨d.file, old.length + b.length, d.flags⟩ else w.desc i⟩)
        (d := ⟨d.file, old.length + b.length, d.flags⟩) (old := old ++ b) (by simp) hw ha (by simp) (by simp)
      refine ⟨w', h1, by rw [h2]; simp, fun g hg => ?_, fun g hg => ?_⟩
      · rw [h3 g hg]; simp [hg]
      · rw [h4 g hg]; simp [hg]

/-- What is written into a new or truncated file, in any number of pieces, and then read through another object, in any number of
pieces, is the same bytes; the old contents are gone and the other files are untouched. -/
theorem C88_roundtrip (w : FS) (name fd fd' : Nat) (t : Bool) (l : List Bytes) (ns : List Nat) (hn : l.flatten.length ≤ ns.sum) :
    ∃ w1 w2 w3 bs w4, w.openFile name fd ⟨false, true, false, t⟩ = some w1 ∧ w1.writes (l.map (fd, ·)) = some w2 ∧
      (w2.sysClose fd).openFile name fd' ⟨true, false, false, false⟩ = some w3 ∧ w3.reads fd' ns = some (bs, w4) ∧
      bs.flatten = l.flatten ∧ w3.getSize fd' = some l.flatten.length ∧ ∀ g, g ≠ name → w4.files g = w.files g := by
  have h1 : ∃ w1, w.openFile name fd ⟨false, true, false, t⟩ = some w1 ∧ w1.desc fd = some ⟨name, 0, ⟨true, true, false, true⟩⟩ ∧
      w1.files name = some [] ∧ ∀ g, g ≠ name → w1.files g = w.files g := by
    simp only [FS.openFile, verifyMode, flagsOf, FS.sysOpen]
    cases hf : w.files name <;>
      refine ⟨_, by simp only [Bool.false_eq_true, if_false, if_true, Bool.false_and, beq_iff_eq]; rfl, by simp, by simp, ?_⟩ <;>
      intro g hg <;> simp [hg]
  obtain ⟨w1, e1, d1, f1, o1⟩ := h1
  obtain ⟨w2, e2, f2, o2, _⟩ := writes_here d1 rfl rfl rfl f1 rfl l
  simp only [List.nil_append] at f2
  have h3 : (w2.sysClose fd).openFile name fd' ⟨true, false, false, false⟩ =
      some ⟨w2.files, fun i => if i = fd' then some ⟨name, 0, ⟨false, false, false, false⟩⟩ else (w2.sysClose fd).desc i⟩ := by
    simp only [FS.openFile, verifyMode, flagsOf, FS.sysOpen, FS.sysClose, f2]
    simp
  obtain ⟨bs, w4, e4, f4, o4, _⟩ := C88_read ⟨w2.files, fun i => if i = fd' then some ⟨name, 0, ⟨false, false, false, false⟩⟩ else
    (w2.sysClose fd).desc i⟩ fd' ⟨name, 0, ⟨false, false, false, false⟩⟩ l.flatten (by simp) rfl f2 ns
  refine ⟨w1, w2, _, bs, w4, e1, e2, h3, e4, ?_, by simp [FS.getSize, f2], fun g hg => by rw [o4, o2 g hg, o1 g hg]⟩
  have := f4 (max bs.length ns.length)
  rw [List.take_of_length_le (by omega), List.take_of_length_le (l := ns) (by omega), List.drop_zero, List.take_of_length_le hn] at this
  exact this

/-- A file cannot be written through an object opened for reading, nor read through one opened for writing; opening a missing file
for reading throws. -/
theorem C88_direction (w : FS) (name fd : Nat) (m : Mode) (w' : FS) (h : w.openFile name fd m = some w') (b : Bytes) (hb : b ≠ [])
    (n : Nat) : (m.inp = true → w'.write fd b = none) ∧ (m.out = true → w'.readSome fd n = none) ∧
    (m.inp = true → w.files name ≠ none) := by
  obtain ⟨i, o, a, t⟩ := m
  rw [FS.openFile] at h
  cases i <;> cases o <;> cases a <;> cases t <;> simp [verifyMode] at h ⊢ <;> cases hf : w.files name <;>
    simp [FS.sysOpen, flagsOf, hf, FS.getSize, FS.seek, FS.sysSeek] at h <;> first | (subst h; simp [FS.readSome, FS.write, FS.sysWrite, hb]) | skip

-- two objects appending in turn to a file with contents
example : ∃ w : FS, (∀ x ∈ [(3, [1]), (4, [2, 3]), (3, [4])], Appends w 0 x.1) ∧ w.files 0 = some [9] ∧
    (w.writes [(3, [1]), (4, [2, 3]), (3, [4])]).bind (fun w => w.files 0) = some [9, 1, 2, 3, 4] := by
  refine ⟨⟨fun _ => some [9], fun _ => some ⟨0, 0, ⟨true, true, true, false⟩⟩⟩, ?_, rfl, by decide⟩
  intro x _
  exact ⟨_, rfl, rfl, rfl, rfl⟩
example : overlay [1, 2, 3] 5 [7] = [1, 2, 3, 0, 0, 7] ∧ overlay [1, 2, 3] 1 [7] = [1, 7, 3] := by decide
example : ∃ w' : FS, FS.openFile ⟨fun _ => some [1], fun _ => none⟩ 0 3 ⟨true, false, false, false⟩ = some w' ∧
    w'.write 3 [5] = none := ⟨_, rfl, rfl⟩

/-! ## C89: directories and names -/

theorem fileLoop_ok {cond : Bytes → Bytes → Res Bool} {ext : Bytes} {sel : Bytes → Bool} (entries list : List (Bytes × Nat))
    (h : ∀ x ∈ entries, isDots x.1 = false → cond x.1 ext = .ok (sel x.1)) :
    fileLoop cond ext entries list = (.ok true, list ++ entries.filter (fun x => !isDots x.1 && sel x.1),
      List.replicate (entries.length + 1) .readdir) := by
  induction entries generalizing list with
  | nil => simp [fileLoop]
  | cons x l ih =>
    have hx := h x (by simp)
    have e : filterAndPush cond ext list x = .ok (list ++ [x].filter (fun x => !isDots x.1 && sel x.1)) := by
      rw [filterAndPush]
      by_cases c : x.1 = [46] ∨ x.1 = [46, 46]
      · have : isDots x.1 = true := by rcases c with c | c <;> simp [isDots, c]
        rw [if_pos c]; simp [this]
      · have : isDots x.1 = false := by
          rw [not_or] at c
          simp [isDots, c.1, c.2]
        rw [if_neg c, hx this]
        cases hs : sel x.1 <;> simp [this, hs]
    rw [fileLoop, e]
    simp only
    rw [ih _ (fun y hy => h y (by simp [hy]))]
    simp only [List.append_assoc, ← List.filter_append, List.singleton_append, List.length_cons, List.replicate_succ]

/-- `GetFileList` with its default filter appends to the list exactly the entries other than "." and ".." that have the extension
(all of them for the empty one), in the order of the system, and closes the directory once, after reading to the end. -/
theorem C89_list (entries list : List (Bytes × Nat)) (ext : Bytes) :
    ∃ new evs, getFileList true entries FileName.hasExtension ext list = (.ok true, list ++ new, evs) ∧
      new.Sublist entries ∧ (∀ x, x ∈ new ↔ x ∈ entries ∧ x.1 ≠ [46] ∧ x.1 ≠ [46, 46] ∧ HasExt x.1 ext) ∧
      (∀ x, x.1 ≠ [46] → x.1 ≠ [46, 46] → HasExt x.1 ext → new.count x = entries.count x) ∧
      evs = [.opendir] ++ List.replicate (entries.length + 1) .readdir ++ [.closedir] := by
  let sel : Bytes → Bool := fun n => match FileName.hasExtension n ext with | .ok b => b | _ => false
  have hs : ∀ n, FileName.hasExtension n ext = .ok (sel n) ∧ (sel n = true ↔ HasExt n ext) := by
    intro n
    obtain ⟨r, h1, h2⟩ := FileName.C56_has_extension n ext
    simp only [sel, h1]
    exact ⟨trivial, h2⟩
  have e := fileLoop_ok (cond := FileName.hasExtension) (ext := ext) (sel := sel) entries list (fun x _ _ => (hs x.1).1)
  have hd : ∀ s : Bytes, isDots s = false ↔ s ≠ [46] ∧ s ≠ [46, 46] := by intro s; simp [isDots]
  refine ⟨_, _, by simp only [getFileList, Bool.not_true, Bool.false_eq_true, if_false, e]; rfl, List.filter_sublist, ?_, ?_, rfl⟩
  · intro x
    rw [List.mem_filter, Bool.and_eq_true, Bool.not_eq_true', hd, (hs x.1).2]
    simp only [and_assoc]
  · intro x h1 h2 h3
    exact List.count_filter (by simp only [(hd x.1).2 ⟨h1, h2⟩, (hs x.1).2.2 h3]; rfl)

theorem fileLoop_reads (cond : Bytes → Bytes → Res Bool) (ext : Bytes) (entries list : List (Bytes × Nat)) :
    DirEv.closedir ∉ (fileLoop cond ext entries list).2.2 ∧ ∃ new, (fileLoop cond ext entries list).2.1 = list ++ new := by
  induction entries generalizing list with
  | nil => simp [fileLoop]
  | cons x l ih =>
    rw [fileLoop]
    cases h : filterAndPush cond ext list x with
    | throw => simp
    | ub => simp
    | ok list' =>
      simp only [List.mem_cons, not_or]
      obtain ⟨h1, new, h2⟩ := ih list'
      refine ⟨⟨by simp, h1⟩, ?_⟩
      rw [h2]
      rw [filterAndPush] at h
      split at h
      · cases h; exact ⟨new, rfl⟩
      · cases hc : cond x.1 ext with
        | throw => rw [hc] at h; cases h
        | ub => rw [hc] at h; cases h
        | ok b =>
          rw [hc] at h
          simp only [Res.ok_bind, Res.pure_eq, Res.ok.injEq] at h
          subst h
          cases b
          · exact ⟨new, rfl⟩
          · exact ⟨x :: new, by simp⟩

/-- Whatever the filter does, also if it throws: the directory is closed exactly once, as the last call, if it was opened; what was
in the list before stays; false means that the directory could not be opened, and then the list is unchanged. -/
theorem C89_closed (opened : Bool) (entries list : List (Bytes × Nat)) (cond : Bytes → Bytes → Res Bool) (ext : Bytes) :
    (getFileList opened entries cond ext list).2.2.count .closedir = (if opened then 1 else 0) ∧
    (opened = true → (getFileList opened entries cond ext list).2.2.getLast? = some .closedir) ∧
    (∃ new, (getFileList opened entries cond ext list).2.1 = list ++ new) ∧
    (opened = false → getFileList opened entries cond ext list = (.ok false, list, [.opendir])) ∧
    (opened = true → (getFileList opened entries cond ext list).1 ≠ .ok false) := by
  cases opened with
  | false => simp [getFileList]
  | true =>
    obtain ⟨h1, h2⟩ := fileLoop_reads cond ext entries list
    simp only [getFileList, Bool.not_true, Bool.false_eq_true, if_false, if_true, List.count_append,
      List.count_eq_zero.2 h1]
    refine ⟨by decide, fun _ => by rw [List.getLast?_concat], h2, by simp, fun _ => ?_⟩
    clear h1 h2
    induction entries generalizing list with
    | nil => simp [fileLoop]
    | cons x l ih =>
      rw [fileLoop]
      split
      · exact ih _
      · simp
      · simp

/-- Finding: some file systems do not tell the type of an entry; then `isFile` and `isDirectory` throw. Otherwise they tell files from
directories, and a symbolic link (10) is neither. -/
theorem C89_finding_unknown : isFile 0 = .throw ∧ isDirectory 0 = .throw ∧ isFile 8 = .ok true ∧ isDirectory 4 = .ok true ∧
    isFile 10 = .ok false ∧ isDirectory 10 = .ok false ∧ ∀ a, a ≠ 0 → ∃ f d, isFile a = .ok f ∧ isDirectory a = .ok d ∧ (f && d) = false := by
  refine ⟨rfl, rfl, rfl, rfl, rfl, rfl, fun a h => ⟨_, _, by rw [isFile, if_neg h], by rw [isDirectory, if_neg h], ?_⟩⟩
  by_cases h1 : a = 8
  · subst h1; rfl
  · simp [h1]

/-- `DoesFileExist` is what the system says of the path, without one slash at its end; the empty path does not exist. -/
theorem C89_exist (stat : Bytes → Bool) (p : Bytes) :
    doesFileExist stat [] = false ∧ doesFileExist stat (p ++ [47]) = stat p ∧
    (p ≠ [] → p.getLast? ≠ some 47 → p.getLast? ≠ some 92 → doesFileExist stat p = stat p) := by
  refine ⟨rfl, by simp [doesFileExist], fun h h1 h2 => ?_⟩
  rw [doesFileExist]
  cases hl : p.getLast? with
  | none => simp at hl; exact absurd hl h
  | some c =>
    rw [hl] at h1 h2
    simp only [ne_eq, Option.some.injEq] at h1 h2
    simp [h1, h2]

/-- `RenameFile` never renames onto something that the system finds under the new name (which does not end with a slash or
backslash); it returns exactly if the new name was free and the system renamed. -/
theorem C89_rename (stat : Bytes → Bool) (ren : Bool) (to : Bytes) (h : to ≠ []) (h1 : to.getLast? ≠ some 47)
    (h2 : to.getLast? ≠ some 92) :
    ((renameFile stat ren to).1 = true ↔ stat to = false) ∧ ((renameFile stat ren to).2 = true ↔ stat to = false ∧ ren = true) := by
  have e := (C89_exist stat to).2.2 h h1 h2
  rw [renameFile, e]
  cases stat to <;> simp

/-- Finding: a backslash at the end is cut like a slash, also on Linux where it belongs to the name: a file named `a\` is not seen (and
overwritten by `RenameFile`) if there is no `a`. -/
theorem C89_finding_backslash (a : Bytes) (stat : Bytes → Bool) (h : stat a = false) (hb : stat (a ++ [92]) = true) (ren : Bool) :
    doesFileExist stat (a ++ [92]) = false ∧ renameFile stat ren (a ++ [92]) = (true, ren) := by
  have : doesFileExist stat (a ++ [92]) = false := by simp [doesFileExist, h]
  exact ⟨this, by simp [renameFile, this]⟩

/-- Finding: the root directory does not exist (the system finds nothing under the empty name). -/
theorem C89_finding_root (stat : Bytes → Bool) (h : stat [] = false) : doesFileExist stat [47] = false := by
  simp [doesFileExist, h]

/-- `GetExePath` of a program whose path is shorter than 4095 bytes splits the path after its last slash; the base name is the rest,
without ".exe". -/
theorem C89_exe (dir name : Bytes) (hn : (47 : UInt8) ∉ name) (hl : (dir ++ 47 :: name).length ≤ 4094) :
    ∃ base, getExePath (some (dir ++ 47 :: name)) = .ok (dir ++ [47], some base) ∧
      (name = base ++ [46, 101, 120, 101] ∨ (base = name ∧ ¬ ∃ b, name = b ++ [46, 101, 120, 101])) := by
  have ht : (dir ++ 47 :: name).take 4094 = dir ++ 47 :: name := List.take_of_length_le hl
  have hf : FileName.findLast 47 (dir ++ 47 :: name) (dir ++ 47 :: name).length = some dir.length := by
    rcases FileName.findLast_eq 47 (dir ++ 47 :: name) _ (Nat.le_refl _) with ⟨_, h⟩ | ⟨pos, h1, h2, h3, h4⟩
    · rw [List.take_length] at h
      exact absurd (by simp) h
    · rw [h1]
      rw [List.take_length] at h4
      by_cases c : pos < dir.length
      · rw [List.drop_append_of_le_length (by omega)] at h4
        exact absurd (by simp) h4
      · by_cases c2 : pos = dir.length
        · rw [c2]
        · rw [List.getElem?_append_right (by omega)] at h3
          have : pos - dir.length = (pos - dir.length - 1) + 1 := by omega
          rw [this, List.getElem?_cons_succ] at h3
          exact absurd (List.mem_of_getElem? h3) hn
  obtain ⟨base, suffix, h1, h2⟩ := FileName.C56_base_name name
  have hd : (dir ++ 47 :: name).drop (dir.length + 1) = name := by
    rw [List.drop_append, List.drop_eq_nil_of_le (by omega)]
    simp
  have hk : (dir ++ 47 :: name).take (dir.length + 1) = dir ++ [47] := by
    rw [List.take_append, List.take_of_length_le (by omega)]
    simp
  rw [getExePath]
  simp only [ht, hf, hd, hk, h1, Res.ok_bind, Res.pure_eq]
  refine ⟨_, rfl, ?_⟩
  by_cases hs : suffix = [101, 120, 101]
  · rw [if_pos hs]
    rcases h2 with ⟨_, _, h⟩ | ⟨h, _⟩
    · rw [hs] at h; cases h
    · exact .inl (by rw [h, hs])
  · rw [if_neg hs]
    refine .inr ⟨rfl, ?_⟩
    rintro ⟨b, hb⟩
    rcases h2 with ⟨h, _, _⟩ | ⟨h, h3⟩
    · exact h (by simp [hb])
    · rw [hb] at h
      exact hs (FileName.append_dot_inj (x := [101, 120, 101]) h (by decide) h3).2.symm

/-- Finding: a longer path is cut without notice; if the cut falls into a directory the wrong directory is returned. -/
theorem C89_finding_long (d x n : Bytes) (hd : d.length = 4000) (hx : (47 : UInt8) ∉ x) (hl : 93 < x.length) (hn : (47 : UInt8) ∉ n) :
    ∃ b, getExePath (some (d ++ 47 :: (x ++ 47 :: n))) = .ok (d ++ [47], b) := by
  have h93 : (47 : UInt8) ∉ x.take 93 := fun h => hx (List.mem_of_mem_take h)
  obtain ⟨b, h, _⟩ := C89_exe d (x.take 93) h93 (by simp; omega)
  refine ⟨some b, ?_⟩
  rw [← h, getExePath, getExePath]
  have : (d ++ 47 :: (x ++ 47 :: n)).take 4094 = (d ++ 47 :: x.take 93).take 4094 := by
    rw [List.take_append, List.take_append, hd]
    simp only [show 4094 - 4000 = 93 + 1 by rfl, List.take_succ_cons]
    rw [List.take_append_of_le_length (by omega), List.take_take]
    simp
  simp only [this]

-- "/a/b.exe"
example : getExePath (some [47, 97, 47, 98, 46, 101, 120, 101]) = .ok ([47, 97, 47], some [98]) := by decide
example : getFileList true [([46], 4), ([97, 46, 99], 8), ([46, 46], 4), ([98], 8)] FileName.hasExtension [99] [] =
    (.ok true, [([97, 46, 99], 8)], [.opendir, .readdir, .readdir, .readdir, .readdir, .readdir, .closedir]) := by decide

#print axioms C88_seek
#print axioms C87_mode
#print axioms C87_open
#print axioms C87_life_partial
#print axioms C87_adopt
#print axioms C87_adopt_closed
#print axioms C88_overwrite
#print axioms C88_open_append
#print axioms C88_append
#print axioms C88_read
#print axioms C88_roundtrip
#print axioms C88_direction
#print axioms C89_list
#print axioms C89_closed
#print axioms C89_exist
#print axioms C89_rename
#print axioms C89_exe
#print axioms C89_finding_long

end Verif.Props.FileOps
