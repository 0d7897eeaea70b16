import Verif.Spec.FileWin
import Verif.Props.FileOps
import Verif.Props.PartialIO

set_option linter.unusedSimpArgs false

/-!
# C143: `File` on Windows and on POSIX
-/
namespace Verif.Props.FileWin
open Verif.FileOps Verif.FileWin Verif.FileWinSpec

/-- A descriptor on the two systems. -/
def SameDesc (files : Nat → _root_.Option Bytes) : _root_.Option Desc → _root_.Option Desc → Prop
  | none, none => True
  | some p, some q => q.file = p.file ∧ q.pos = p.pos ∧ q.flags.write = p.flags.write ∧ q.flags.append = false ∧
      (p.flags.append = true → p.pos = ((files p.file).getD []).length)
  | _, _ => False

/-- The same files, the same positions, and appenders stand at the end. -/
structure Rel (p q : FS) : Prop where
  files : q.files = p.files
  desc : ∀ fd, SameDesc p.files (p.desc fd) (q.desc fd)

theorem rel_closed (w : FS) (h : Closed w) : Rel w w := ⟨rfl, fun fd => by rw [h fd]; trivial⟩

theorem desc_some {p q : FS} (r : Rel p q) {fd : Nat} {d : Desc} (h : p.desc fd = some d) :
    ∃ e, q.desc fd = some e ∧ e.file = d.file ∧ e.pos = d.pos ∧ e.flags.write = d.flags.write ∧ e.flags.append = false ∧
      (d.flags.append = true → d.pos = ((p.files d.file).getD []).length) := by
  have := r.desc fd
  rw [h] at this
  cases hq : q.desc fd with
  | none => rw [hq] at this; exact this.elim
  | some e => rw [hq] at this; exact ⟨e, rfl, this⟩

theorem desc_none {p q : FS} (r : Rel p q) {fd : Nat} (h : p.desc fd = none) : q.desc fd = none := by
  have := r.desc fd
  rw [h] at this
  cases hq : q.desc fd with
  | none => rfl
  | some e => rw [hq] at this; exact this.elim

/-- A descriptor of another file is not touched by a change of a file. -/
theorem same_other {files : Nat → _root_.Option Bytes} {a b : _root_.Option Desc} {name : Nat} {v : _root_.Option Bytes}
    (h : SameDesc files a b) (hn : ∀ d, a = some d → d.flags.append = true → d.file ≠ name) :
    SameDesc (fun i => if i = name then v else files i) a b := by
  cases a with
  | none => cases b <;> exact h
  | some x =>
    cases b with
    | none => exact h
    | some y =>
      obtain ⟨h1, h2, h3, h4, h5⟩ := h
      refine ⟨h1, h2, h3, h4, fun ha => ?_⟩
      dsimp only
      rw [if_neg (hn x rfl ha)]
      exact h5 ha

theorem step_write {p q : FS} (r : Rel p q) (fd : Nat) (b : Bytes) (g : Gentle p (.write fd b)) :
    (posixStep p (.write fd b)).1 = (winStep q (.write fd b)).1 ∧ Rel (posixStep p (.write fd b)).2 (winStep q (.write fd b)).2 := by
  rw [posixStep, winStep, FS.write, FileWin.write]
  by_cases hb : b = []
  · rw [if_pos hb, if_pos hb]; exact ⟨rfl, r⟩
  · rw [if_neg hb, if_neg hb, FS.sysWrite, writeFile]
    cases hd : p.desc fd with
    | none => rw [desc_none r hd]; exact ⟨rfl, r⟩
    | some d =>
      obtain ⟨e, he, e1, e2, e3, e4, e5⟩ := desc_some r hd
      rw [he]
      dsimp only
      rw [e3]
      cases hw : d.flags.write with
      | false => exact ⟨rfl, r⟩
      | true =>
        have hp : (if d.flags.append = true then ((p.files d.file).getD []).length else d.pos) = d.pos := by
          by_cases ha : d.flags.append = true
          · rw [if_pos ha, e5 ha]
          · rw [if_neg ha]
        simp only [Bool.not_true, Bool.false_eq_true, if_false, if_true, plain]
        refine ⟨trivial, ?_, ?_⟩
        · dsimp only
          rw [hp, e1, e2, r.files]
        · intro fd'
          dsimp only
          rw [hp]
          by_cases hf : fd' = fd
          · rw [if_pos hf, if_pos hf]
            refine ⟨e1, by rw [e2], e3, e4, fun ha => ?_⟩
            dsimp only
            rw [if_pos rfl]
            have := e5 ha
            simp only [Option.getD_some, overlay, List.length_append, List.length_take, List.length_replicate, List.length_drop]
            omega
          · rw [if_neg hf, if_neg hf]
            refine same_other (r.desc fd') fun d' h' ha hn => ?_
            exact g d hd ⟨fd', d', hf, h', ha, hn⟩

theorem step_seek {p q : FS} (r : Rel p q) (fd : Nat) (pos : Int) (dir : Dir) (g : Gentle p (.seek fd pos dir)) :
    (posixStep p (.seek fd pos dir)).1 = (winStep q (.seek fd pos dir)).1 ∧
      Rel (posixStep p (.seek fd pos dir)).2 (winStep q (.seek fd pos dir)).2 := by
  rw [posixStep, winStep, setFilePointer]
  cases hd : p.desc fd with
  | none =>
    rw [desc_none r hd]
    have : p.seek fd pos dir = none := by cases dir <;> simp [FS.seek, FS.sysSeek, FS.getSize, hd]
    rw [this]
    exact ⟨rfl, r⟩
  | some d =>
    obtain ⟨e, he, e1, e2, e3, e4, e5⟩ := desc_some r hd
    rw [he]
    dsimp only
    have hs : p.seek fd pos dir = p.sysSeek fd (pointerBase q e dir + pos) := by
      cases dir <;> simp [FS.seek, FS.getSize, hd, e1, e2, r.files, pointerBase]
    rw [hs, FS.sysSeek, hd]
    dsimp only
    generalize hb : pointerBase q e dir = base
    by_cases hn : base + pos < 0
    · rw [if_pos hn, if_pos hn]; exact ⟨rfl, r⟩
    · rw [if_neg hn, if_neg hn]
      refine ⟨rfl, r.files, fun fd' => ?_⟩
      dsimp only [plain]
      by_cases hf : fd' = fd
      · rw [if_pos hf, if_pos hf]
        refine ⟨e1, rfl, e3, e4, fun ha => ?_⟩
        rw [g d hd] at ha
        cases ha
      · rw [if_neg hf, if_neg hf]
        exact r.desc fd'

theorem step_read {p q : FS} (r : Rel p q) (ha : ∀ fd d, p.desc fd = some d → d.flags.append = true → d.flags.write = true)
    (fd n : Nat) :
    (posixStep p (.readSome fd n)).1 = (winStep q (.readSome fd n)).1 ∧
      Rel (posixStep p (.readSome fd n)).2 (winStep q (.readSome fd n)).2 := by
  rw [posixStep, winStep, FS.readSome, readFile]
  cases hd : p.desc fd with
  | none => rw [desc_none r hd]; exact ⟨rfl, r⟩
  | some d =>
    obtain ⟨e, he, e1, e2, e3, e4, e5⟩ := desc_some r hd
    rw [he]
    dsimp only
    rw [e3]
    cases hw : d.flags.write with
    | true => exact ⟨rfl, r⟩
    | false =>
      simp only [Bool.false_eq_true, if_false]
      refine ⟨by rw [e1, e2, r.files], r.files, fun fd' => ?_⟩
      dsimp only
      by_cases hf : fd' = fd
      · rw [if_pos hf, if_pos hf]
        refine ⟨e1, by rw [e1, e2, r.files], e3, e4, fun h => ?_⟩
        rw [ha fd d hd h] at hw
        cases hw
      · rw [if_neg hf, if_neg hf]
        exact r.desc fd'

theorem step_size {p q : FS} (r : Rel p q) (fd : Nat) :
    (posixStep p (.getSize fd)).1 = (winStep q (.getSize fd)).1 ∧
      Rel (posixStep p (.getSize fd)).2 (winStep q (.getSize fd)).2 := by
  rw [posixStep, winStep, FS.getSize, getFileSize]
  cases hd : p.desc fd with
  | none => rw [desc_none r hd]; exact ⟨rfl, r⟩
  | some d =>
    obtain ⟨e, he, e1, e2, e3, e4, e5⟩ := desc_some r hd
    rw [he]
    dsimp only [Option.map_some]
    rw [e1, r.files]
    exact ⟨rfl, r⟩

theorem step_close {p q : FS} (r : Rel p q) (fd : Nat) :
    (posixStep p (.close fd)).1 = (winStep q (.close fd)).1 ∧ Rel (posixStep p (.close fd)).2 (winStep q (.close fd)).2 := by
  refine ⟨rfl, r.files, fun fd' => ?_⟩
  dsimp only [posixStep, winStep, FS.sysClose]
  by_cases hf : fd' = fd
  · rw [if_pos hf, if_pos hf]; trivial
  · rw [if_neg hf, if_neg hf]; exact r.desc fd'

/-- What `open` does on POSIX, in the four cases. -/
theorem posix_open (p : FS) (name fd : Nat) (m : Mode) :
    p.openFile name fd m = match verifyMode m with
      | none => none
      | some _ =>
        if m.out = true then
          if m.app = true then
            some ⟨fun i => if i = name then some ((p.files name).getD []) else p.files i,
              fun i => if i = fd then some ⟨name, ((p.files name).getD []).length, ⟨true, true, true, false⟩⟩ else p.desc i⟩
          else some ⟨fun i => if i = name then some [] else p.files i,
              fun i => if i = fd then some ⟨name, 0, ⟨true, true, false, true⟩⟩ else p.desc i⟩
        else if p.files name = none then none
        else some ⟨p.files, fun i => if i = fd then some ⟨name, 0, ⟨false, false, false, false⟩⟩ else p.desc i⟩ := by
  obtain ⟨i, o, a, t⟩ := m
  have e : ∀ x : Bytes, p.files name = some x → (fun i => if i = name then some x else p.files i) = p.files := by
    intro x hx; funext i; by_cases h : i = name
    · rw [if_pos h, h, hx]
    · rw [if_neg h]
  have e2 : ∀ y : Desc, (fun i => if i = fd then some y else if i = fd then some ⟨name, 0, ⟨true, true, true, false⟩⟩ else p.desc i) =
      fun i => if i = fd then some y else p.desc i := by
    intro y; funext i; by_cases h : i = fd <;> simp [h]
  cases i <;> cases o <;> cases a <;> cases t <;> cases hf : p.files name <;>
    simp [FS.openFile, verifyMode, FS.sysOpen, flagsOf, hf, FS.getSize, FS.seek, FS.sysSeek, e, e2]

/-- What `open` does on Windows. -/
theorem win_open (p : FS) (name fd : Nat) (m : Mode) :
    FileWin.openFile p name fd m = match verifyMode m with
      | none => none
      | some _ =>
        if m.out = true then
          if m.app = true then
            some ⟨fun i => if i = name then some ((p.files name).getD []) else p.files i,
              fun i => if i = fd then some ⟨name, ((p.files name).getD []).length, ⟨true, true, false, false⟩⟩ else p.desc i⟩
          else some ⟨fun i => if i = name then some [] else p.files i,
              fun i => if i = fd then some ⟨name, 0, ⟨true, true, false, true⟩⟩ else p.desc i⟩
        else if p.files name = none then none
        else some ⟨p.files, fun i => if i = fd then some ⟨name, 0, ⟨false, false, false, false⟩⟩ else p.desc i⟩ := by
  obtain ⟨i, o, a, t⟩ := m
  have e : ∀ x : Bytes, p.files name = some x → (fun i => if i = name then some x else p.files i) = p.files := by
    intro x hx; funext i; by_cases h : i = name
    · rw [if_pos h, h, hx]
    · rw [if_neg h]
  have e2 : ∀ y : Desc, (fun i => if i = fd then some y else if i = fd then some ⟨name, 0, ⟨true, true, false, false⟩⟩ else p.desc i) =
      fun i => if i = fd then some y else p.desc i := by
    intro y; funext i; by_cases h : i = fd <;> simp [h]
  have d1 : (Disp.openAlways != Disp.openExisting) = true := rfl
  have d2 : (Disp.createAlways != Disp.openExisting) = true := rfl
  have d3 : (Disp.openExisting != Disp.openExisting) = false := rfl
  have d4 : (Disp.openAlways == Disp.createAlways) = false := rfl
  have d5 : (Disp.openExisting == Disp.createAlways) = false := rfl
  cases i <;> cases o <;> cases a <;> cases t <;> cases hf : p.files name <;>
    simp [FileWin.openFile, verifyMode, createFile, createArgs, hf, getFileSize, setFilePointer, pointerBase, e, e2, d1, d2, d3, d4, d5]

theorem step_open {p q : FS} (r : Rel p q) (name fd : Nat) (m : Mode) (g : Gentle p (.open name fd m)) :
    (posixStep p (.open name fd m)).1 = (winStep q (.open name fd m)).1 ∧
      Rel (posixStep p (.open name fd m)).2 (winStep q (.open name fd m)).2 := by
  rw [posixStep, winStep, posix_open, win_open, r.files]
  cases verifyMode m with
  | none => exact ⟨rfl, r⟩
  | some b =>
    dsimp only
    by_cases ho : m.out = true
    · rw [if_pos ho, if_pos ho]
      by_cases ha : m.app = true
      · rw [if_pos ha, if_pos ha]
        refine ⟨rfl, rfl, fun fd' => ?_⟩
        dsimp only [plain]
        by_cases hf : fd' = fd
        · rw [if_pos hf, if_pos hf]
          exact ⟨rfl, rfl, rfl, rfl, fun _ => by dsimp only; rw [if_pos rfl]; rfl⟩
        · rw [if_neg hf, if_neg hf]
          have h := r.desc fd'
          cases hx : p.desc fd' with
          | none => rw [hx] at h; cases hy : q.desc fd' <;> rw [hy] at h <;> exact h
          | some x =>
            rw [hx] at h
            cases hy : q.desc fd' with
            | none => rw [hy] at h; exact h
            | some y =>
              rw [hy] at h
              obtain ⟨h1, h2, h3, h4, h5⟩ := h
              refine ⟨h1, h2, h3, h4, fun hh => ?_⟩
              dsimp only
              by_cases hn : x.file = name
              · rw [if_pos hn, h5 hh, hn]; rfl
              · rw [if_neg hn]; exact h5 hh
      · rw [if_neg ha, if_neg ha]
        refine ⟨rfl, rfl, fun fd' => ?_⟩
        dsimp only [plain]
        by_cases hf : fd' = fd
        · rw [if_pos hf, if_pos hf]
          exact ⟨rfl, rfl, rfl, rfl, fun h => by cases h⟩
        · rw [if_neg hf, if_neg hf]
          refine same_other (r.desc fd') fun d' h' hap hn => ?_
          exact g ho (by simpa using ha) ⟨fd', d', hf, h', hap, hn⟩
    · rw [if_neg ho, if_neg ho]
      by_cases hn : p.files name = none
      · rw [if_pos hn, if_pos hn]; exact ⟨rfl, r⟩
      · rw [if_neg hn, if_neg hn]
        refine ⟨rfl, rfl, fun fd' => ?_⟩
        dsimp only [plain]
        by_cases hf : fd' = fd
        · rw [if_pos hf, if_pos hf]
          exact ⟨rfl, rfl, rfl, rfl, fun h => by cases h⟩
        · rw [if_neg hf, if_neg hf]; exact r.desc fd'

/-- Only writers append. -/
def AppWrite (p : FS) : Prop := ∀ fd d, p.desc fd = some d → d.flags.append = true → d.flags.write = true

theorem appWrite_upd {p : FS} (h : AppWrite p) (files : Nat → _root_.Option Bytes) (fd : Nat) (x : _root_.Option Desc)
    (hx : ∀ d, x = some d → d.flags.append = true → d.flags.write = true) :
    AppWrite ⟨files, fun i => if i = fd then x else p.desc i⟩ := by
  intro fd' d hd
  dsimp only at hd
  by_cases hf : fd' = fd
  · rw [if_pos hf] at hd; exact hx d hd
  · rw [if_neg hf] at hd; exact h fd' d hd

theorem appWrite_step {p : FS} (h : AppWrite p) (c : Call) : AppWrite (posixStep p c).2 := by
  cases c with
  | «open» name fd m =>
    rw [posixStep, posix_open]
    cases verifyMode m with
    | none => exact h
    | some b =>
      dsimp only
      split
      · split
        · exact appWrite_upd h _ _ _ (fun d e _ => by cases e; rfl)
        · exact appWrite_upd h _ _ _ (fun d e _ => by cases e; rfl)
      · split
        · exact h
        · exact appWrite_upd h _ _ _ (fun d e ha => by cases e; exact ha)
  | write fd b =>
    rw [posixStep, FS.write]
    split
    · exact h
    · rw [FS.sysWrite]
      cases hd : p.desc fd with
      | none => exact h
      | some d =>
        dsimp only
        split
        · exact h
        · exact appWrite_upd h _ _ _ (fun d' e ha => by cases e; exact h fd d hd ha)
  | readSome fd n =>
    rw [posixStep, FS.readSome]
    cases hd : p.desc fd with
    | none => exact h
    | some d =>
      dsimp only
      cases hw : d.flags.write with
      | true => exact h
      | false =>
        simp only [Bool.false_eq_true, if_false]
        exact appWrite_upd h _ _ _ (fun d' e ha => by cases e; exact h fd d hd ha)
  | seek fd pos dir =>
    have hs : ∀ x : Int, AppWrite (plain p (p.sysSeek fd x)).2 := by
      intro x
      rw [FS.sysSeek]
      cases hd : p.desc fd with
      | none => exact h
      | some d =>
        dsimp only
        split
        · exact h
        · exact appWrite_upd h _ _ _ (fun d' e ha => by cases e; exact h fd d hd ha)
    rw [posixStep]
    cases dir with
    | beg => exact hs pos
    | cur =>
      rw [FS.seek]
      cases hd : p.desc fd with
      | none => exact h
      | some d => exact hs _
    | fin =>
      rw [FS.seek]
      cases hd : p.getSize fd with
      | none => exact h
      | some d => exact hs _
  | getSize fd =>
    rw [posixStep]
    cases p.getSize fd <;> exact h
  | close fd => exact appWrite_upd h _ _ _ (fun d e _ => by cases e)

theorem same_run (l : List Call) : ∀ (p q : FS), Rel p q → AppWrite p → GentleAll p l →
    (runWith posixStep p l).1 = (runWith winStep q l).1 ∧ (runWith posixStep p l).2.files = (runWith winStep q l).2.files := by
  induction l with
  | nil => intro p q r _ _; exact ⟨rfl, r.files.symm⟩
  | cons c l ih =>
    intro p q r ha g
    have hs : (posixStep p c).1 = (winStep q c).1 ∧ Rel (posixStep p c).2 (winStep q c).2 := by
      cases c with
      | «open» name fd m => exact step_open r name fd m g.1
      | write fd b => exact step_write r fd b g.1
      | readSome fd n => exact step_read r ha fd n
      | seek fd pos dir => exact step_seek r fd pos dir g.1
      | getSize fd => exact step_size r fd
      | close fd => exact step_close r fd
    obtain ⟨h1, h2⟩ := ih _ _ hs.2 (appWrite_step ha c) g.2
    rw [runWith, runWith]
    exact ⟨by rw [hs.1, h1], h2⟩

/-- Programs that leave appenders alone show the same and leave the same files on Windows and on POSIX. -/
theorem C143_same (w : FS) (hc : Closed w) (l : List Call) (g : GentleAll w l) :
    (runWith posixStep w l).1 = (runWith winStep w l).1 ∧ (runWith posixStep w l).2.files = (runWith winStep w l).2.files :=
  same_run l w w (rel_closed w hc) (fun fd d hd => by rw [hc fd] at hd; cases hd) g

theorem posixStep_noapp (p : FS) (c : Call) (hp : ∀ fd d, p.desc fd = some d → d.flags.append = false)
    (hc : ∀ name fd m, c = .open name fd m → m.app = false) (fd : Nat) (d : Desc) (hd : (posixStep p c).2.desc fd = some d) :
    d.flags.append = false := by
  have upd : ∀ (fd0 : Nat) (x : _root_.Option Desc), (∀ d, x = some d → d.flags.append = false) →
      (if fd = fd0 then x else p.desc fd) = some d → d.flags.append = false := by
    intro fd0 x hx h
    by_cases hf : fd = fd0
    · rw [if_pos hf] at h; exact hx d h
    · rw [if_neg hf] at h; exact hp fd d h
  cases c with
  | «open» name fd0 m =>
    have hm := hc name fd0 m rfl
    rw [posixStep, posix_open] at hd
    cases hv : verifyMode m with
    | none => rw [hv] at hd; exact hp fd d hd
    | some b =>
      rw [hv] at hd
      dsimp only at hd
      rw [hm] at hd
      by_cases ho : m.out = true
      · rw [if_pos ho, if_neg (by decide)] at hd
        exact upd fd0 _ (fun d e => by cases e; rfl) hd
      · rw [if_neg ho] at hd
        by_cases hn : p.files name = none
        · rw [if_pos hn] at hd; exact hp fd d hd
        · rw [if_neg hn] at hd
          exact upd fd0 _ (fun d e => by cases e; rfl) hd
  | write fd0 b =>
    rw [posixStep, FS.write] at hd
    by_cases hb : b = []
    · rw [if_pos hb] at hd; exact hp fd d hd
    · rw [if_neg hb, FS.sysWrite] at hd
      cases hx : p.desc fd0 with
      | none => rw [hx] at hd; exact hp fd d hd
      | some x =>
        rw [hx] at hd
        dsimp only at hd
        cases hw : x.flags.write with
        | false => rw [hw] at hd; exact hp fd d hd
        | true =>
          rw [hw] at hd
          exact upd fd0 _ (fun d e => by cases e; exact hp fd0 x hx) hd
  | readSome fd0 n =>
    rw [posixStep, FS.readSome] at hd
    cases hx : p.desc fd0 with
    | none => rw [hx] at hd; exact hp fd d hd
    | some x =>
      rw [hx] at hd
      dsimp only at hd
      cases hw : x.flags.write with
      | true => rw [hw] at hd; exact hp fd d hd
      | false =>
        rw [hw] at hd
        exact upd fd0 _ (fun d e => by cases e; exact hp fd0 x hx) hd
  | seek fd0 pos dir =>
    have hs : ∀ x : Int, (plain p (p.sysSeek fd0 x)).2.desc fd = some d → d.flags.append = false := by
      intro x h
      rw [FS.sysSeek] at h
      cases hx : p.desc fd0 with
      | none => rw [hx] at h; exact hp fd d h
      | some y =>
        rw [hx] at h
        dsimp only at h
        by_cases hn : x < 0
        · rw [if_pos hn] at h; exact hp fd d h
        · rw [if_neg hn] at h
          exact upd fd0 _ (fun d e => by cases e; exact hp fd0 y hx) h
    rw [posixStep] at hd
    cases dir with
    | beg => exact hs _ hd
    | cur =>
      rw [FS.seek] at hd
      cases hx : p.desc fd0 with
      | none => rw [hx] at hd; exact hp fd d hd
      | some y => rw [hx] at hd; exact hs _ hd
    | fin =>
      rw [FS.seek] at hd
      cases hx : p.getSize fd0 with
      | none => rw [hx] at hd; exact hp fd d hd
      | some y => rw [hx] at hd; exact hs _ hd
  | getSize fd0 =>
    rw [posixStep] at hd
    cases hx : p.getSize fd0 with
    | none => rw [hx] at hd; exact hp fd d hd
    | some y => rw [hx] at hd; exact hp fd d hd
  | close fd0 => exact upd fd0 none (fun d e => by cases e) hd

/-- In particular every program that never opens for appending. -/
theorem C143_same_no_append (w : FS) (hc : Closed w) (l : List Call) (h : ∀ name fd m, .open name fd m ∈ l → m.app = false) :
    (runWith posixStep w l).1 = (runWith winStep w l).1 ∧ (runWith posixStep w l).2.files = (runWith winStep w l).2.files := by
  apply C143_same w hc
  have key : ∀ (l : List Call) (p : FS), (∀ fd d, p.desc fd = some d → d.flags.append = false) →
      (∀ name fd m, .open name fd m ∈ l → m.app = false) → GentleAll p l := by
    intro l
    induction l with
    | nil => intro _ _ _; trivial
    | cons c l ih =>
      intro p hp h
      refine ⟨?_, ih _ (posixStep_noapp p c hp (fun name fd m e => h name fd m (by rw [← e]; simp)))
        (fun name fd m hm => h name fd m (by simp [hm]))⟩
      have hno : ∀ f fd, ¬ AppendedElsewhere p f fd := by
        rintro f fd ⟨fd', d, _, hd, ha, _⟩
        rw [hp fd' d hd] at ha
        cases ha
      cases c with
      | «open» name fd m => exact fun _ _ => hno _ _
      | write fd b => exact fun d _ => hno _ _
      | seek fd pos dir => exact fun d hd => hp fd d hd
      | readSome fd n => trivial
      | getSize fd => trivial
      | close fd => trivial
  exact key l w (fun fd d hd => by rw [hc fd] at hd; cases hd) h

/-- A file written in pieces to one appending object on Windows gets them all at its end. -/
theorem C143_append (w : FS) (name fd : Nat) (l : List Bytes) :
    (runWith winStep w (.open name fd ⟨false, true, true, false⟩ :: l.map (.write fd))).2.files name =
      some ((w.files name).getD [] ++ l.flatten) := by
  have key : ∀ (l : List Bytes) (q : FS) (old : Bytes) (fl : Flags), q.files name = some old → fl.write = true →
      q.desc fd = some ⟨name, old.length, fl⟩ → (runWith winStep q (l.map (.write fd))).2.files name = some (old ++ l.flatten) := by
    intro l
    induction l with
    | nil => intro q old fl h _ _; simpa [runWith] using h
    | cons b l ih =>
      intro q old fl h hw hd
      rw [List.map_cons, runWith]
      have hs : (winStep q (.write fd b)).2.files name = some (old ++ b) ∧
          (winStep q (.write fd b)).2.desc fd = some ⟨name, (old ++ b).length, fl⟩ := by
        rw [winStep, FileWin.write]
        by_cases hb : b = []
        · rw [if_pos hb, hb]; simpa [plain] using ⟨h, hd⟩
        · rw [if_neg hb, writeFile, hd]
          dsimp only
          rw [if_pos hw, h]
          simp [plain, overlay]
      dsimp only
      rw [ih _ _ fl hs.1 hw hs.2]
      simp
  rw [runWith]
  have hs : (winStep w (.open name fd ⟨false, true, true, false⟩)).2.files name = some ((w.files name).getD []) ∧
      (winStep w (.open name fd ⟨false, true, true, false⟩)).2.desc fd =
        some ⟨name, ((w.files name).getD []).length, ⟨true, true, false, false⟩⟩ := by
    rw [winStep, win_open]
    simp [verifyMode, plain]
  exact key l _ _ _ hs.1 rfl hs.2

/-- FINDING: two objects appending to one file.  On POSIX both texts are kept; on Windows the second overwrites the first. -/
theorem C143_finding_two_appenders (w : FS) (name fd fd' : Nat) (hf : fd ≠ fd') (b c : Bytes) (hb : b ≠ []) (hc : c ≠ []) :
    (runWith posixStep w [.open name fd ⟨false, true, true, false⟩, .open name fd' ⟨false, true, true, false⟩, .write fd b,
      .write fd' c]).2.files name = some ((w.files name).getD [] ++ b ++ c) ∧
    (runWith winStep w [.open name fd ⟨false, true, true, false⟩, .open name fd' ⟨false, true, true, false⟩, .write fd b,
      .write fd' c]).2.files name = some ((w.files name).getD [] ++ c ++ b.drop c.length) := by
  have hf' : fd' ≠ fd := Ne.symm hf
  constructor
  · simp only [runWith, posixStep, posix_open, verifyMode, plain, FS.write, FS.sysWrite, hb, hc, hf, hf', if_true, if_false]
    generalize (w.files name).getD [] = old
    have h1 : old.drop (old.length + b.length) = [] := List.drop_eq_nil_of_le (by omega)
    have h2 : (old ++ b).drop (old.length + b.length + c.length) = [] := List.drop_eq_nil_of_le (by simp)
    have h3 : (old ++ b).take (old.length + b.length) = old ++ b := List.take_of_length_le (by simp)
    simp [overlay, h1, hf, hf']
    rw [← List.append_assoc, ← List.append_assoc, h2, h3]
    simp
  · simp only [runWith, winStep, win_open, verifyMode, plain, FileWin.write, writeFile, hb, hc, hf, hf', if_true, if_false]
    generalize (w.files name).getD [] = old
    have h1 : old.drop (old.length + b.length) = [] := List.drop_eq_nil_of_le (by omega)
    simp [overlay, h1, hf, hf', List.take_append, List.drop_append]

/-- FINDING: `seek` on an appending object moves the next write on Windows only. -/
theorem C143_finding_seek (w : FS) (name fd : Nat) (b : Bytes) (hb : b ≠ []) :
    (runWith posixStep w [.open name fd ⟨false, true, true, false⟩, .seek fd 0 .beg, .write fd b]).2.files name =
      some ((w.files name).getD [] ++ b) ∧
    (runWith winStep w [.open name fd ⟨false, true, true, false⟩, .seek fd 0 .beg, .write fd b]).2.files name =
      some (b ++ ((w.files name).getD []).drop b.length) := by
  constructor
  · simp [runWith, posixStep, posix_open, verifyMode, plain, FS.write, FS.sysWrite, FS.seek, FS.sysSeek, hb, overlay]
  · simp [runWith, winStep, win_open, verifyMode, plain, FileWin.write, writeFile, setFilePointer, pointerBase, hb, overlay]

/-- FINDING: a file emptied by another object while one appends: on POSIX the next text is the whole file, on Windows zeros come first. -/
theorem C143_finding_truncated (w : FS) (name fd fd' : Nat) (hf : fd ≠ fd') (b : Bytes) (hb : b ≠ []) (t : Bool) :
    (runWith posixStep w [.open name fd ⟨false, true, true, false⟩, .open name fd' ⟨false, true, false, t⟩, .write fd b]).2.files name =
      some b ∧
    (runWith winStep w [.open name fd ⟨false, true, true, false⟩, .open name fd' ⟨false, true, false, t⟩, .write fd b]).2.files name =
      some (List.replicate ((w.files name).getD []).length 0 ++ b) := by
  have hf' : fd' ≠ fd := Ne.symm hf
  constructor
  · simp [runWith, posixStep, posix_open, verifyMode, plain, FS.write, FS.sysWrite, hb, hf, hf', overlay]
  · simp [runWith, winStep, win_open, verifyMode, plain, FileWin.write, writeFile, hb, hf, hf', overlay]

/-! ## Transfers -/
open Verif.PartialIO

/-- The loop of `write` is the one of POSIX if no answer is an interruption; so C54 holds of it. -/
theorem C143_write_loop (fuel : Nat) (buf : List UInt8) (p n : Nat) (d : Dev) (hd : ∀ i, d.ans i ≠ .eintr) :
    FileWin.writeLoop fuel buf p n d = PartialIO.File.writeLoop fuel buf p n d := by
  induction fuel generalizing p n d with
  | zero => rfl
  | succ fuel ih =>
    rw [FileWin.writeLoop, PartialIO.File.writeLoop]
    by_cases hn : n > 0
    · rw [if_pos hn, if_pos hn]
      dsimp only
      by_cases hp : p + min 0x7fffffff n ≤ buf.length
      · rw [if_pos hp, if_pos (show 0 ≤ (p : Int) ∧ (p : Int).toNat + min 0x7fffffff n ≤ buf.length from ⟨by omega, by simpa using hp⟩)]
        rw [devWrite, Dev.write, Int.toNat_natCast]
        cases ha : d.ans d.calls with
        | eintr => exact absurd ha (hd _)
        | error => simp
        | move k =>
          simp only [Bool.not_true, Bool.false_eq_true, if_false]
          rw [if_neg (show ¬ ((min k ((buf.drop p).take (min 0x7fffffff n)).length : Nat) : Int) < 0 by omega), ih]
          · rfl
          · exact hd
      · rw [if_neg hp, if_neg (show ¬ (0 ≤ (p : Int) ∧ (p : Int).toNat + min 0x7fffffff n ≤ buf.length) from fun h => hp (by simpa using h.2))]
    · rw [if_neg hn, if_neg hn]

/-- The loop of `read` likewise; so it never returns at the end of a file (C54). -/
theorem C143_read_loop (fuel : Nat) (dst : List UInt8) (p n : Nat) (d : Dev) (hd : ∀ i, d.ans i ≠ .eintr) :
    FileWin.readLoop fuel dst p n d = PartialIO.File.readLoop fuel dst p n d := by
  induction fuel generalizing dst p n d with
  | zero => rfl
  | succ fuel ih =>
    rw [FileWin.readLoop, PartialIO.File.readLoop, FileWin.readSome, PartialIO.readSome, devRead, Dev.read]
    by_cases hn : n > 0
    · rw [if_pos hn, if_pos hn]
      cases ha : d.ans d.calls with
      | eintr => exact absurd ha (hd _)
      | error => simp
      | move k =>
        have hl : (d.rest.take (min k (min (min 0x7fffffff n) d.rest.length))).length = min k (min (min 0x7fffffff n) d.rest.length) := by
          rw [List.length_take]; omega
        simp only [Bool.not_true, Bool.false_eq_true, if_false]
        rw [if_neg (show ¬ ((min k (min (min 0x7fffffff n) d.rest.length) : Nat) : Int) < 0 by omega)]
        by_cases hp : p + (d.rest.take (min k (min (min 0x7fffffff n) d.rest.length))).length ≤ dst.length
        · rw [if_pos hp, if_pos hp]
          dsimp only
          rw [ih _ _ _ _ (by exact hd), hl, Int.toNat_natCast]
        · rw [if_neg hp, if_neg hp]
    · rw [if_neg hn, if_neg hn]

/-- An appender writes while a reader of the same file reads: a gentle program. -/
example : GentleAll ⟨fun _ => none, fun _ => none⟩ [.open 0 3 ⟨false, true, true, false⟩, .write 3 [1, 2], .open 0 4 ⟨true, false, false, false⟩,
    .write 3 [5], .readSome 4 9, .seek 4 1 .beg, .getSize 4, .close 3] := by
  refine ⟨?_, ?_, ?_, ?_, trivial, ?_, trivial, trivial, trivial⟩
  · intro _ h; cases h
  · rintro d - ⟨fd', d', hf, hd, ha, -⟩
    simp [posixStep, posix_open, verifyMode, plain, hf] at hd
  · intro h; cases h
  · rintro d - ⟨fd', d', hf, hd, ha, -⟩
    simp only [posixStep, posix_open, verifyMode, plain, FS.write, FS.sysWrite] at hd
    by_cases h4 : fd' = 4
    · simp [h4] at hd; rw [← hd] at ha; cases ha
    · simp [h4, hf] at hd
  · intro d hd
    simp [posixStep, posix_open, verifyMode, plain, FS.write, FS.sysWrite, FS.readSome] at hd
    rw [← hd]

#print axioms C143_same
#print axioms C143_same_no_append
#print axioms C143_append
#print axioms C143_finding_two_appenders
#print axioms C143_finding_seek
#print axioms C143_finding_truncated
#print axioms C143_write_loop
#print axioms C143_read_loop

end Verif.Props.FileWin
