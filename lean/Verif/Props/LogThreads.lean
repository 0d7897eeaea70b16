import Verif.Model.LogThreads

/-!
# C155: logging from several threads

The lines of all threads are in the file as whole lines, those of a thread in the order of its calls, and a line is in the file (not only in the
buffer) when the call returns; this holds across changes of the file as long as `OpenLogFile` is not called at the same time as another function.
-/
set_option linter.unusedSimpArgs false

namespace Verif.Props.LogThreads
open Verif.LogThreads
open Verif.Log (Text cstr)

/-- What the calls of `fprintf` put into a file. -/
def content (fmt : Nat → Text) (l : List Entry) (h : Nat) : Text := ((l.filter (fun e => e.file == h)).map (line fmt)).flatten

/-- The thread is in `put` and has seen that `fp_` is not null. -/
def inPut : Pc → Bool
  | .stamp .. | .print .. | .flush .. => true
  | _ => false

/-- Before `fp_ = NULL`. -/
def isClearing : Pc → Bool
  | .clearing _ => true
  | _ => false

/-- Before `fp_ = fp`. -/
def isSetting : Pc → Bool
  | .setting _ => true
  | _ => false

/-- Who is where and which files are open; `o` is the thread in `openFile`. -/
structure InvA (o : Option Nat) (s : St) : Prop where
  bad : s.bad = false
  who : ∀ t, (s.pc t).opening = true ↔ o = some t
  alone : ∀ t, o = some t → ∀ u, u ≠ t → s.pc u = .idle
  cur : ∀ h, s.fp = some h → o = none → s.opened h = true
  cur' : ∀ h, s.fp = some h → ∀ t, o = some t → isClearing (s.pc t) = false → s.opened h = true
  put : ∀ t, inPut (s.pc t) = true → s.fp ≠ none
  null : s.fp = none → o ≠ none ∧ ∀ t, o = some t → isSetting (s.pc t) = true
  new : ∀ t h, s.pc t = .closing h ∨ s.pc t = .clearing h ∨ s.pc t = .setting h → s.opened h = true ∧ s.fp ≠ some h

theorem InvA.start (h : Nat) (c : Text) : InvA none (St.start h c) := by
  constructor <;> simp [St.start, Pc.opening, inPut]

theorem InvA.inside {o : Option Nat} {s : St} (I : InvA o s) {t : Nat} (h : inPut (s.pc t) = true) :
    o = none ∧ ∃ h, s.fp = some h ∧ s.opened h = true := by
  have ho : o = none := by
    cases ho : o with
    | none => rfl
    | some u =>
      by_cases e : t = u
      · have := (I.who u).mpr ho
        subst e
        cases hp : s.pc t <;> simp [hp, inPut, Pc.opening] at h this
      · rw [I.alone u ho t e] at h; cases h
  refine ⟨ho, ?_⟩
  cases hf : s.fp with
  | none => exact absurd hf (I.put t h)
  | some k => exact ⟨k, rfl, I.cur k hf ho⟩

theorem InvA.step {fmt : Nat → Text} {pri : Nat} {o : Option Nat} {s s' : St} {t : Nat} (I : InvA o s) (st : Step fmt pri true s t s') :
    ∃ o, InvA o s' := by
  have I0 := I
  obtain ⟨i1, i2, i3, i4, i4', i5, i6, i7⟩ := I
  cases st with
  | set h => exact ⟨none, by constructor <;> grind [upd, Pc.opening, inPut, isClearing, isSetting]⟩
  | «open» h _ _ _ g =>
    have ho : o = none := by
      cases ho : o with
      | none => rfl
      | some u => have := (i2 u).mpr ho; rw [g rfl u] at this; cases this
    exact ⟨some t, by constructor <;> grind [upd, Pc.opening, inPut, isClearing, isSetting]⟩
  | printBad h g =>
    obtain ⟨_, k, h1, h2⟩ := I0.inside (t := t) (by rw [h]; rfl)
    rw [g k h1] at h2; cases h2
  | flushBad h g g2 =>
    obtain ⟨_, k, h1, h2⟩ := I0.inside (t := t) (by rw [h]; rfl)
    rw [g] at h1; cases h1; rw [g2] at h2; cases h2
  | flushAll h g =>
    obtain ⟨_, k, h1, h2⟩ := I0.inside (t := t) (by rw [h]; rfl)
    rw [g] at h1; cases h1
  | _ => exact ⟨o, by constructor <;> grind [upd, Pc.opening, inPut, isClearing, isSetting]⟩

theorem invA {fmt : Nat → Text} {pri : Nat} {h : Nat} {c : Text} {s : St} (st : Steps fmt pri true (St.start h c) s) : ∃ o, InvA o s := by
  induction st with
  | refl => exact ⟨none, InvA.start h c⟩
  | tail _ st ih => obtain ⟨o, ih⟩ := ih; exact ih.step st

/-- C155: no function of the logger uses a file that is not open. -/
theorem C155_files {fmt : Nat → Text} {pri : Nat} {h : Nat} {c : Text} {s : St} (st : Steps fmt pri true (St.start h c) s) : s.bad = false := by
  obtain ⟨o, I⟩ := invA st
  exact I.bad

/-- C155: whenever a thread is about to call `fprintf` or `fflush`, `fp_` is an open file; whenever one is about to call `fclose`, that file is open. -/
theorem C155_use {fmt : Nat → Text} {pri : Nat} {h : Nat} {c : Text} {s : St} (st : Steps fmt pri true (St.start h c) s) (t : Nat) :
    ((∃ p text x, s.pc t = .print p text x) ∨ (∃ p text, s.pc t = .flush p text) → ∃ k, s.fp = some k ∧ s.opened k = true) ∧
    ∀ f k, s.pc t = .closing f → s.fp = some k → s.opened k = true ∧ s.opened f = true ∧ f ≠ k := by
  obtain ⟨o, I⟩ := invA st
  refine ⟨fun hp => (I.inside (t := t) ?_).2, fun f k hp hk => ?_⟩
  · rcases hp with ⟨p, text, x, hp⟩ | ⟨p, text, hp⟩ <;> rw [hp] <;> rfl
  · have ho := (I.who t).mp (by rw [hp]; rfl)
    have hn := I.new t f (.inl hp)
    exact ⟨I.cur' k hk t ho (by rw [hp]; rfl), hn.1, fun e => hn.2 (by rw [e]; exact hk)⟩

theorem content_append (fmt : Nat → Text) (l m : List Entry) (h : Nat) : content fmt (l ++ m) h = content fmt l h ++ content fmt m h := by
  simp [content]

theorem content_fresh (fmt : Nat → Text) (l : List Entry) (h : Nat) (hl : ∀ e ∈ l, e.file ≠ h) : content fmt l h = [] := by
  rw [content, List.filter_eq_nil_iff.mpr]
  · rfl
  · intro e he; simpa using hl e he

theorem content_one (fmt : Nat → Text) (e : Entry) (h : Nat) : content fmt [e] h = if h = e.file then line fmt e else [] := by
  by_cases g : h = e.file
  · subst g; simp [content]
  · simp [content, g, show ¬ e.file = h from fun x => g x.symm]

/-- C155: at any time a file contains, with what is in its buffer, what it contained when it was opened, and then the whole lines in the order of
the calls of `fprintf`. -/
theorem C155_lines {fmt : Nat → Text} {pri : Nat} {ser : Bool} {h : Nat} {c : Text} {s : St} (st : Steps fmt pri ser (St.start h c) s) (k : Nat) :
    s.disk k ++ s.buf k = s.base k ++ content fmt s.log k := by
  induction st with
  | refl => simp [St.start, content]
  | tail _ st ih =>
    cases st with
    | print g1 g2 g3 =>
      rename_i hh
      simp only [upd]
      rw [content_append, content_one]
      by_cases e : k = hh
      · subst e; simp only [if_true]; rw [← List.append_assoc, ih, List.append_assoc]
      · simp only [e, if_false, List.append_nil]; exact ih
    | flush g1 g2 g3 =>
      rename_i hh
      simp only [upd]
      by_cases e : k = hh
      · subst e; simp only [if_true, List.append_nil]; exact ih
      · simp only [e, if_false]; exact ih
    | close g1 g2 g3 g4 =>
      rename_i hh
      simp only [upd]
      by_cases e : k = hh
      · subst e; simp only [if_true, List.append_nil]; exact ih
      · simp only [e, if_false]; exact ih
    | flushAll g1 g2 => simp only [List.append_nil]; exact ih
    | spill =>
      rename_i hh n
      simp only [upd]
      by_cases e : k = hh
      · subst e; simp only [if_true]; rw [List.append_assoc, List.take_append_drop]; exact ih
      · simp only [e, if_false]; exact ih
    | «open» g1 g2 g3 g4 g5 =>
      rename_i hh cc
      simp only [upd]
      by_cases e : k = hh
      · subst e; simp only [if_true]; rw [content_fresh fmt _ _ g4]
      · simp only [e, if_false]; exact ih
    | _ => exact ih

/-- The lines of a file whose last line is complete, as a reader sees them: cut behind every newline (10). -/
def readLines : (cur : Text) → Text → List Text
  | _, [] => []
  | cur, c :: r => if c = 10 then cur :: readLines [] r else readLines (cur ++ [c]) r

theorem readLines_line (a : Text) (ha : 10 ∉ a) (cur r : Text) : readLines cur (a ++ 10 :: r) = (cur ++ a) :: readLines [] r := by
  induction a generalizing cur with
  | nil => simp [readLines]
  | cons c a ih =>
    simp only [List.mem_cons, not_or] at ha
    simp only [List.cons_append, readLines, if_neg (fun h => ha.1 h.symm : ¬ c = 10), ih ha.2]
    simp

theorem cstr_id (t : Text) (h : 0 ∉ t) : Verif.Log.cstr t = t := by
  induction t with
  | nil => rfl
  | cons c t ih =>
    simp only [List.mem_cons, not_or] at h
    have := ih h.2
    simp only [Verif.Log.cstr] at this ⊢
    simp only [List.takeWhile_cons, show c ≠ 0 from fun g => h.1 g.symm, this, ne_eq, not_false_eq_true, decide_true, if_true]

/-- C155: someone who reads a new log file line by line finds one line for each logged text, "stamp text", in the order of the calls of `fprintf`, if
neither the stamps nor the texts contain a newline (or the texts a NUL). -/
theorem C155_read {fmt : Nat → Text} {pri : Nat} {ser : Bool} {h : Nat} {c : Text} {s : St} (st : Steps fmt pri ser (St.start h c) s) (k : Nat)
    (hb : s.base k = []) (hf : ∀ n, 10 ∉ fmt n) (ht : ∀ e ∈ s.log, 10 ∉ e.text ∧ 0 ∉ e.text) :
    readLines [] (s.disk k ++ s.buf k) = (s.log.filter (fun e => e.file == k)).map (fun e => fmt e.stamp ++ 32 :: e.text) := by
  rw [C155_lines st k, hb, List.nil_append]
  generalize s.log = l at ht
  induction l with
  | nil => rfl
  | cons e l ih =>
    have ih := ih (fun x hx => ht x (List.mem_cons_of_mem _ hx))
    obtain ⟨h1, h2⟩ := ht e List.mem_cons_self
    rw [show e :: l = [e] ++ l from rfl, content_append, content_one]
    by_cases g : k = e.file
    · rw [if_pos g]
      have e1 : line fmt e ++ content fmt l k = (fmt e.stamp ++ 32 :: e.text) ++ 10 :: content fmt l k := by
        simp [line, cstr_id _ h2]
      rw [e1, readLines_line _ (by simp [hf, h1]), ih]
      simp [g]
    · rw [if_neg g, List.nil_append, ih]
      simp [show ¬ e.file = k from fun x => g x.symm]

/-- The last `fprintf` of a thread before its `fflush` was on the file that `fflush` gets; every other line of a thread is on the disk. -/
structure InvB (fmt : Nat → Text) (s : St) : Prop where
  last : ∀ t p x, s.pc t = .flush p x → ∀ l1 e l2, s.log = l1 ++ e :: l2 → e.thr = t → (∀ y ∈ l2, y.thr ≠ t) → s.fp = some e.file
  disk : ∀ l1 e l2, s.log = l1 ++ e :: l2 → (∀ p x, s.pc e.thr = .flush p x → ∃ y ∈ l2, y.thr = e.thr) →
    s.base e.file ++ content fmt (l1 ++ [e]) e.file <+: s.disk e.file

/-- Steps that only move thread `t`, not to or from `fflush`, and write more to the disk. -/
theorem InvB.same {fmt : Nat → Text} {s s' : St} (I : InvB fmt s) (hlog : s'.log = s.log) (hbase : ∀ e ∈ s.log, s'.base e.file = s.base e.file)
    (hdisk : ∀ e ∈ s.log, s.disk e.file <+: s'.disk e.file)
    (hpc : ∀ t p x, s'.pc t = .flush p x ↔ s.pc t = .flush p x) (hfp : s'.fp = s.fp ∨ ∀ t p x, s.pc t ≠ .flush p x) : InvB fmt s' where
  last := fun t p x hp l1 e l2 hl => by
    rw [hlog] at hl; rw [hpc] at hp
    rcases hfp with hfp | hfp
    · rw [hfp]; exact I.last t p x hp l1 e l2 hl
    · exact absurd hp (hfp t p x)
  disk := fun l1 e l2 hl hp => by
    rw [hlog] at hl
    have he : e ∈ s.log := by rw [hl]; simp
    rw [hbase e he]
    exact (I.disk l1 e l2 hl (fun p x h => hp p x ((hpc _ _ _).mpr h))).trans (hdisk e he)

theorem snoc_split {l l1 l2 : List Entry} {e x : Entry} (h : l ++ [x] = l1 ++ e :: l2) :
    (l2 = [] ∧ e = x ∧ l1 = l) ∨ ∃ m, l2 = m ++ [x] ∧ l = l1 ++ e :: m := by
  rcases List.eq_nil_or_concat l2 with g | ⟨m, y, g⟩
  · subst g
    obtain ⟨h1, h2⟩ := List.append_inj' h rfl
    simp only [List.cons.injEq, and_true] at h2
    exact .inl ⟨rfl, h2.symm, h1.symm⟩
  · rw [List.concat_eq_append] at g
    subst g
    have : l ++ [x] = (l1 ++ e :: m) ++ [y] := by simpa using h
    obtain ⟨h1, h2⟩ := List.append_inj' this rfl
    simp only [List.cons.injEq, and_true] at h2
    subst h2
    exact .inr ⟨m, rfl, h1⟩

theorem InvB.step {fmt : Nat → Text} {pri : Nat} {o : Option Nat} {s s' : St} {t : Nat} (A : InvA o s)
    (L : ∀ k, s.disk k ++ s.buf k = s.base k ++ content fmt s.log k) (B : InvB fmt s) (st : Step fmt pri true s t s') : InvB fmt s' := by
  have nofl : (s.pc t).opening = true → ∀ u p x, s.pc u ≠ .flush p x := by
    intro h u p x hu
    have ho := (A.who t).mp h
    by_cases e : u = t
    · subst e; rw [hu] at h; cases h
    · have := A.alone t ho u e; rw [this] at hu; cases hu
  have move : ∀ (q : Pc), (∀ p x, s.pc t ≠ .flush p x) → (∀ p x, q ≠ .flush p x) →
      ∀ u p x, upd s.pc t q u = .flush p x ↔ s.pc u = .flush p x := by
    intro q h1 h2 u p x
    by_cases e : u = t
    · subst e; simp [upd, h1, h2]
    · simp [upd, e]
  cases st with
  | low g => exact B.same rfl (fun _ _ => rfl) (fun _ _ => List.prefix_rfl) (fun _ _ _ => Iff.rfl) (.inl rfl)
  | tick => exact B.same rfl (fun _ _ => rfl) (fun _ _ => List.prefix_rfl) (fun _ _ _ => Iff.rfl) (.inl rfl)
  | call g => exact B.same rfl (fun _ _ => rfl) (fun _ _ => List.prefix_rfl) (move _ (by simp [g]) (by simp)) (.inl rfl)
  | callNull g => exact B.same rfl (fun _ _ => rfl) (fun _ _ => List.prefix_rfl) (move _ (by simp [g]) (by simp)) (.inl rfl)
  | time g => exact B.same rfl (fun _ _ => rfl) (fun _ _ => List.prefix_rfl) (move _ (by simp [g]) (by simp)) (.inl rfl)
  | sys g => exact B.same rfl (fun _ _ => rfl) (fun _ _ => List.prefix_rfl) (move _ (by simp [g]) (by simp)) (.inl rfl)
  | keep g => exact B.same rfl (fun _ _ => rfl) (fun _ _ => List.prefix_rfl) (move _ (by simp [g]) (by simp)) (.inl rfl)
  | closeBad g => exact B.same rfl (fun _ _ => rfl) (fun _ _ => List.prefix_rfl) (move _ (by simp [g]) (by simp)) (.inl rfl)
  | clear g => exact B.same rfl (fun _ _ => rfl) (fun _ _ => List.prefix_rfl) (move _ (by simp [g]) (by simp)) (.inr (nofl (by rw [g]; rfl)))
  | set g => exact B.same rfl (fun _ _ => rfl) (fun _ _ => List.prefix_rfl) (move _ (by simp [g]) (by simp)) (.inr (nofl (by rw [g]; rfl)))
  | spill =>
    rename_i h n
    refine B.same rfl (fun _ _ => rfl) (fun e _ => ?_) (fun _ _ _ => Iff.rfl) (.inl rfl)
    simp only [upd]
    split
    · rename_i g; rw [g]; exact List.prefix_append ..
    · exact List.prefix_rfl
  | «open» g1 g2 g3 g4 g5 =>
    refine B.same rfl (fun e he => ?_) (fun e he => ?_) (move _ (by simp [g1]) (by simp)) (.inl rfl)
    · simp only [upd, if_neg (g4 e he)]
    · simp only [upd, if_neg (g4 e he)]; exact List.prefix_rfl
  | close g1 g2 g3 g4 =>
    refine B.same rfl (fun _ _ => rfl) (fun e _ => ?_) (move _ (by simp [g1]) (by simp)) (.inl rfl)
    simp only [upd]
    split
    · rename_i g; rw [g]; exact List.prefix_append ..
    · exact List.prefix_rfl
  | printBad g1 g2 =>
    obtain ⟨_, k, h1, h2⟩ := A.inside (t := t) (by rw [g1]; rfl)
    rw [g2 k h1] at h2; cases h2
  | flushBad g1 g2 g3 =>
    obtain ⟨_, k, h1, h2⟩ := A.inside (t := t) (by rw [g1]; rfl)
    rw [g2] at h1; cases h1; rw [g3] at h2; cases h2
  | flushAll g1 g2 =>
    obtain ⟨_, k, h1, h2⟩ := A.inside (t := t) (by rw [g1]; rfl)
    rw [g2] at h1; cases h1
  | print g1 g2 g3 =>
    rename_i p0 x0 c0 h0
    constructor
    · intro u p x hu l1 e l2 hl he hn
      rcases snoc_split hl with ⟨_, h2, _⟩ | ⟨m, h1, h2⟩
      · subst h2; exact g2
      · by_cases eq : u = t
        · subst h1; exact absurd eq.symm (hn ⟨t, h0, c0, x0⟩ (by simp))
        · simp only [upd, eq, if_false] at hu
          exact B.last u p x hu l1 e m h2 he (fun y hy => hn y (by rw [h1]; simp [hy]))
    · intro l1 e l2 hl hp
      rcases snoc_split hl with ⟨h1, h2, _⟩ | ⟨m, h1, h2⟩
      · subst h2 h1
        obtain ⟨y, hy, _⟩ := hp p0 x0 (by simp [upd])
        cases hy
      · refine B.disk l1 e m h2 (fun p x hq => ?_)
        by_cases eq : e.thr = t
        · rw [eq, g1] at hq; cases hq
        · obtain ⟨y, hy, hy2⟩ := hp p x (by simp only [upd, eq, if_false]; exact hq)
          rw [h1] at hy
          rcases List.mem_append.mp hy with hy | hy
          · exact ⟨y, hy, hy2⟩
          · simp only [List.mem_singleton] at hy; subst hy; exact absurd hy2.symm eq
  | flush g1 g2 g3 =>
    rename_i p0 x0 h0
    have up : ∀ k, s.disk k <+: upd s.disk h0 (s.disk h0 ++ s.buf h0) k := by
      intro k
      simp only [upd]
      split
      · rename_i g; rw [g]; exact List.prefix_append ..
      · exact List.prefix_rfl
    constructor
    · intro u p x hu
      by_cases eq : u = t
      · subst eq; simp [upd] at hu
      · simp only [upd, eq, if_false] at hu
        exact B.last u p x hu
    · intro l1 e l2 hl hp
      by_cases ef : e.file = h0
      · simp only [upd, ef, if_true]
        rw [L h0, ← ef, show s.log = (l1 ++ [e]) ++ l2 by simpa using hl, content_append fmt (l1 ++ [e]) l2, ← List.append_assoc]
        exact List.prefix_append ..
      · refine (B.disk l1 e l2 hl (fun p x hq => ?_)).trans (up _)
        by_cases eq : e.thr = t
        · refine Classical.byContradiction fun hn => ef ?_
          have := B.last t p0 x0 g1 l1 e l2 hl eq (fun y hy ht => hn ⟨y, hy, ht.trans eq.symm⟩)
          rw [g2] at this; simpa using this.symm
        · exact hp p x (by simp only [upd, eq, if_false]; exact hq)

/-- C155: when a thread is not inside a call, every line it has logged is in its file, behind everything logged there before, not only in the
buffer: it is not lost if the program dies afterwards. -/
theorem C155_flushed {fmt : Nat → Text} {pri : Nat} {h : Nat} {c : Text} {s : St} (st : Steps fmt pri true (St.start h c) s) {l1 l2 : List Entry}
    {e : Entry} (hl : s.log = l1 ++ e :: l2) (hi : s.pc e.thr = .idle) : s.base e.file ++ content fmt (l1 ++ [e]) e.file <+: s.disk e.file := by
  have B : InvB fmt s := by
    clear hi hl
    induction st with
    | refl => constructor <;> simp [St.start]
    | tail hst st ih =>
      obtain ⟨o, A⟩ := invA hst
      exact InvB.step A (C155_lines hst) ih st
  exact B.disk l1 e l2 hl (fun p x hp => by rw [hi] at hp; cases hp)

/-- The text of a call that has not reached `fprintf`. -/
def pending : Pc → List Text
  | .stamp _ x | .print _ x _ => [x]
  | _ => []

/-- The call that has not come to its end. -/
def underWay : Pc → List (Nat × Text)
  | .stamp p x | .print p x _ | .flush p x | .sys p x => [(p, x)]
  | _ => []

theorem filter_snoc (l : List Entry) (e : Entry) (t : Nat) :
    (l ++ [e]).filter (fun y => y.thr == t) = l.filter (fun y => y.thr == t) ++ if e.thr = t then [e] else [] := by
  by_cases h : e.thr = t <;> simp [h]

/-- C155: the lines of a thread are those it asked for with a sufficient priority, each once, in the order of its calls. -/
theorem C155_order {fmt : Nat → Text} {pri : Nat} {h : Nat} {c : Text} {s : St} (st : Steps fmt pri true (St.start h c) s) (t : Nat) :
    (s.log.filter (fun e => e.thr == t)).map (·.text) ++ pending (s.pc t) = ((s.asked t).filter (fun a => decide (pri ≤ a.1))).map (·.2) := by
  induction st with
  | refl => simp [St.start, pending]
  | tail hst st ih =>
    rename_i s1 t1 s2
    obtain ⟨o, A⟩ := invA hst
    have stay : ∀ q, pending (s1.pc t1) = pending q → pending (upd s1.pc t1 q t) = pending (s1.pc t) := by
      intro q hq
      by_cases e : t = t1
      · subst e; simp [upd, hq]
      · simp [upd, e]
    cases st with
    | low g1 g2 g3 =>
      by_cases e : t = t1
      · subst e
        simp only [upd, if_true, List.filter_append, List.map_append]
        rw [ih]
        simp [show ¬ pri ≤ _ from Nat.not_le.mpr g2]
      · simp only [upd, e, if_false]; exact ih
    | call g1 g2 g3 g4 =>
      by_cases e : t = t1
      · subst e
        simp only [upd, if_true, List.filter_append, List.map_append]
        rw [← ih]
        simp [g1, g2, pending]
      · simp only [upd, e, if_false]; exact ih
    | callNull g1 g2 g3 g4 =>
      obtain ⟨h1, h2⟩ := A.null g3
      cases ho : o with
      | none => exact absurd ho h1
      | some u => have := (A.who u).mpr ho; rw [g4 rfl u] at this; cases this
    | print g1 g2 g3 =>
      by_cases e : t = t1
      · subst e
        simp only [filter_snoc, upd, if_true, List.map_append]
        rw [← ih]
        simp [g1, pending]
      · simp only [filter_snoc, upd, e, if_false, if_neg (show ¬ t1 = t from fun g => e g.symm), List.append_nil]; exact ih
    | printBad g1 g2 =>
      obtain ⟨_, k, h1, h2⟩ := A.inside (t := t1) (by rw [g1]; rfl)
      rw [g2 k h1] at h2; cases h2
    | time g => simp only [stay _ (show pending (s1.pc t1) = pending (.print _ _ s1.clock) by rw [g]; rfl)]; exact ih
    | flush g => simp only [stay _ (show pending (s1.pc t1) = pending (.sys _ _) by rw [g]; rfl)]; exact ih
    | flushAll g => simp only [stay _ (show pending (s1.pc t1) = pending (.sys _ _) by rw [g]; rfl)]; exact ih
    | flushBad g => simp only [stay _ (show pending (s1.pc t1) = pending (.sys _ _) by rw [g]; rfl)]; exact ih
    | sys g => simp only [stay _ (show pending (s1.pc t1) = pending .idle by rw [g]; rfl)]; exact ih
    | «open» g => simp only [stay _ (show pending (s1.pc t1) = pending (.closing _) by rw [g]; rfl)]; exact ih
    | keep g => simp only [stay _ (show pending (s1.pc t1) = pending (.setting _) by rw [g]; rfl)]; exact ih
    | close g => simp only [stay _ (show pending (s1.pc t1) = pending (.clearing _) by rw [g]; rfl)]; exact ih
    | closeBad g => simp only [stay _ (show pending (s1.pc t1) = pending (.clearing _) by rw [g]; rfl)]; exact ih
    | clear g => simp only [stay _ (show pending (s1.pc t1) = pending (.setting _) by rw [g]; rfl)]; exact ih
    | set g => simp only [stay _ (show pending (s1.pc t1) = pending .idle by rw [g]; rfl)]; exact ih
    | tick => exact ih
    | spill => exact ih

/-- C155: the time stamps of the lines of a thread do not go back. -/
theorem C155_times {fmt : Nat → Text} {pri : Nat} {ser : Bool} {h : Nat} {c : Text} {s : St} (st : Steps fmt pri ser (St.start h c) s) :
    s.log.Pairwise (fun a b => a.thr = b.thr → a.stamp ≤ b.stamp) ∧ ∀ e ∈ s.log, e.stamp ≤ s.clock := by
  have key : (s.log.Pairwise (fun a b => a.thr = b.thr → a.stamp ≤ b.stamp) ∧ ∀ e ∈ s.log, e.stamp ≤ s.clock) ∧
      ∀ t p x c, s.pc t = .print p x c → c ≤ s.clock ∧ ∀ e ∈ s.log, e.thr = t → e.stamp ≤ c := by
    induction st with
    | refl => simp [St.start]
    | tail hst st ih =>
      obtain ⟨⟨i1, i2⟩, i3⟩ := ih
      cases st with
      | print g1 g2 g3 =>
        refine ⟨⟨List.pairwise_append.mpr ⟨i1, by simp, ?_⟩, ?_⟩, ?_⟩ <;> grind [upd]
      | _ => refine ⟨⟨i1, ?_⟩, ?_⟩ <;> grind [upd]
  exact key.1

/-- C155: as long as syslog is used, it gets the texts of a thread with a sufficient priority, each once, in the order of its calls. -/
theorem C155_syslog {fmt : Nat → Text} {pri : Nat} {ser : Bool} {h : Nat} {c : Text} {s : St} (st : Steps fmt pri ser (St.start h c) s)
    (hs : s.useSys = true) (t : Nat) :
    (s.sysl.filter (fun e => e.1 == t)).map (·.2) ++ underWay (s.pc t) = (s.asked t).filter (fun a => decide (pri ≤ a.1)) := by
  induction st with
  | refl => simp [St.start, underWay]
  | tail hst st ih =>
    rename_i s1 t1 s2
    have stay : ∀ q, underWay (s1.pc t1) = underWay q → underWay (upd s1.pc t1 q t) = underWay (s1.pc t) := by
      intro q hq
      by_cases e : t = t1
      · subst e; simp [upd, hq]
      · simp [upd, e]
    cases st with
    | low g1 g2 g3 =>
      by_cases e : t = t1
      · subst e
        simp only [upd, if_true, List.filter_append]
        rw [ih hs]
        simp [show ¬ pri ≤ _ from Nat.not_le.mpr g2]
      · simp only [upd, e, if_false]; exact ih hs
    | call g1 g2 g3 g4 =>
      by_cases e : t = t1
      · subst e
        simp only [upd, if_true, List.filter_append]
        rw [← ih hs]
        simp [g1, g2, underWay]
      · simp only [upd, e, if_false]; exact ih hs
    | callNull g1 g2 g3 g4 =>
      by_cases e : t = t1
      · subst e
        simp only [upd, if_true, List.filter_append]
        rw [← ih hs]
        simp [g1, g2, underWay]
      · simp only [upd, e, if_false]; exact ih hs
    | sys g =>
      have hs' : s1.useSys = true := hs
      clear hs
      by_cases e : t = t1
      · subst e
        simp only [upd, if_true, hs', List.filter_append, List.map_append]
        rw [← ih hs']
        simp [g, underWay]
      · simp only [upd, e, if_false, hs', if_true, List.filter_append]
        rw [← ih hs']
        simp [show ¬ t1 = t from fun g => e g.symm]
    | time g => simp only [stay _ (show underWay (s1.pc t1) = underWay (.print _ _ s1.clock) by rw [g]; rfl)]; exact ih hs
    | print g => simp only [stay _ (show underWay (s1.pc t1) = underWay (.flush _ _) by rw [g]; rfl)]; exact ih hs
    | printBad g => simp only [stay _ (show underWay (s1.pc t1) = underWay (.flush _ _) by rw [g]; rfl)]; exact ih hs
    | flush g => simp only [stay _ (show underWay (s1.pc t1) = underWay (.sys _ _) by rw [g]; rfl)]; exact ih hs
    | flushAll g => simp only [stay _ (show underWay (s1.pc t1) = underWay (.sys _ _) by rw [g]; rfl)]; exact ih hs
    | flushBad g => simp only [stay _ (show underWay (s1.pc t1) = underWay (.sys _ _) by rw [g]; rfl)]; exact ih hs
    | «open» g => simp only [stay _ (show underWay (s1.pc t1) = underWay (.closing _) by rw [g]; rfl)]; exact ih hs
    | keep g => simp only [stay _ (show underWay (s1.pc t1) = underWay (.setting _) by rw [g]; rfl)]; exact ih hs
    | close g => simp only [stay _ (show underWay (s1.pc t1) = underWay (.clearing _) by rw [g]; rfl)]; exact ih hs
    | closeBad g => simp only [stay _ (show underWay (s1.pc t1) = underWay (.clearing _) by rw [g]; rfl)]; exact ih hs
    | clear g => simp only [stay _ (show underWay (s1.pc t1) = underWay (.setting _) by rw [g]; rfl)]; exact ih hs
    | set g => cases hs
    | tick => exact ih hs
    | spill => exact ih hs

/-- C155: syslog is used from the start of the program until a file is set: as long as no `OpenLogFile` has come to its end. -/
theorem C155_syslog_default {fmt : Nat → Text} {pri : Nat} {ser : Bool} {h : Nat} {c : Text} {s : St} (st : Steps fmt pri ser (St.start h c) s) :
    s.useSys = !s.doClose := by
  induction st with
  | refl => rfl
  | tail _ st ih => cases st <;> first | exact ih | rfl

/-- C155, finding: the stamp is taken before the file is locked, so the stamps in a file may go back. -/
theorem C155_finding_times (fmt : Nat → Text) : ∃ s, Steps fmt 1 true (St.start 1 []) s ∧ s.log.map (·.stamp) = [1, 0] ∧ ∀ t, s.pc t = .idle := by
  refine ⟨_, .tail (.tail (.tail (.tail (.tail (.tail (.tail (.tail (.tail (.tail (.tail .refl
    (.call (t := 0) (p := 1) (text := [97]) rfl (by decide) (by simp [St.start]) (fun _ _ => rfl))) (.time (t := 0) rfl)) (.tick (t := 0)))
    (.call (t := 1) (p := 1) (text := [98]) rfl (by decide) (by simp [St.start]) (fun _ u => by
      simp only [upd, St.start]; split
      · rfl
      · rfl))) (.time (t := 1) rfl)) (.print (t := 1) rfl rfl rfl)) (.flush (t := 1) rfl rfl rfl)) (.sys (t := 1) rfl))
    (.print (t := 0) rfl rfl rfl)) (.flush (t := 0) rfl rfl rfl)) (.sys (t := 0) rfl), rfl, fun t => ?_⟩
  simp only [upd, St.start]
  by_cases h0 : t = 0
  · simp [h0]
  · by_cases h1 : t = 1 <;> simp [h0, h1]

/-- C155, finding: `OpenLogFile` while another thread logs can make that thread write to a closed file. -/
theorem C155_finding_closed (fmt : Nat → Text) : ∃ s, Steps fmt 1 false (St.start 1 []) s ∧ s.bad = true :=
  ⟨_, .tail (.tail (.tail (.tail (.tail (.tail (.tail (.tail .refl
    (.open (t := 1) (h := 5) (c := []) rfl rfl (by simp [St.start]) (by simp [St.start]) (by simp)))
    (.keep (t := 1) rfl (.inl rfl))) (.set (t := 1) rfl))
    (.call (t := 0) (p := 1) (text := [97]) rfl (by decide) (by simp) (by simp))) (.time (t := 0) rfl))
    (.open (t := 1) (h := 6) (c := []) rfl rfl (by simp) (by simp [St.start]) (by simp))) (.close (t := 1) (k := 5) rfl rfl rfl rfl))
    (.printBad (t := 0) rfl (fun h hh => by cases hh; rfl)), rfl⟩

/-- C155, finding: two calls of `OpenLogFile` at the same time can close the same file twice. -/
theorem C155_finding_closed_twice (fmt : Nat → Text) : ∃ s, Steps fmt 1 false (St.start 1 []) s ∧ s.bad = true ∧ s.log = [] :=
  ⟨_, .tail (.tail (.tail (.tail (.tail (.tail (.tail .refl
    (.open (t := 1) (h := 5) (c := []) rfl rfl (by simp [St.start]) (by simp [St.start]) (by simp)))
    (.keep (t := 1) rfl (.inl rfl))) (.set (t := 1) rfl))
    (.open (t := 1) (h := 6) (c := []) rfl rfl (by simp) (by simp [St.start]) (by simp)))
    (.open (t := 2) (h := 7) (c := []) rfl rfl (by simp) (by simp [St.start]) (by simp)))
    (.close (t := 1) (k := 5) rfl rfl rfl rfl)) (.closeBad (t := 2) (k := 5) rfl rfl rfl rfl), rfl, rfl⟩

/-- C155, finding: `OpenLogFile` while another thread logs can make that thread flush a closed file. -/
theorem C155_finding_flush (fmt : Nat → Text) : ∃ s, Steps fmt 1 false (St.start 1 []) s ∧ s.bad = true ∧ s.log = [⟨0, 5, 0, [97]⟩] :=
  ⟨_, .tail (.tail (.tail (.tail (.tail (.tail (.tail (.tail (.tail .refl
    (.open (t := 1) (h := 5) (c := []) rfl rfl (by simp [St.start]) (by simp [St.start]) (by simp)))
    (.keep (t := 1) rfl (.inl rfl))) (.set (t := 1) rfl))
    (.call (t := 0) (p := 1) (text := [97]) rfl (by decide) (by simp) (by simp))) (.time (t := 0) rfl)) (.print (t := 0) rfl rfl rfl))
    (.open (t := 1) (h := 6) (c := []) rfl rfl (by simp) (by simp [St.start]) (by simp))) (.close (t := 1) (k := 5) rfl rfl rfl rfl))
    (.flushBad (t := 0) (h := 5) rfl rfl rfl), rfl, rfl⟩

/-- The hypotheses of the theorems are met by an execution that changes the file between two lines. -/
example (fmt : Nat → Text) : ∃ s, Steps fmt 1 true (St.start 1 []) s ∧ s.pc 0 = .idle ∧
    s.log = [⟨0, 1, 0, [97]⟩, ⟨0, 5, 0, [98]⟩] ∧ s.base 5 = [99] := by
  have idle : ∀ (s : St), (∀ u, u ≠ 0 → s.pc u = .idle) → s.pc 0 = .idle → ∀ u, s.pc u = .idle := fun s h1 h2 u => by
    by_cases h : u = 0
    · rw [h]; exact h2
    · exact h1 u h
  refine ⟨_, .tail (.tail (.tail (.tail (.tail (.tail (.tail (.tail (.tail (.tail (.tail (.tail (.tail .refl
    (.call (t := 0) (p := 1) (text := [97]) rfl (by decide) (by simp [St.start]) (fun _ _ => rfl))) (.time (t := 0) rfl))
    (.print (t := 0) rfl rfl rfl)) (.flush (t := 0) rfl rfl rfl)) (.sys (t := 0) rfl))
    (.open (t := 0) (h := 5) (c := [99]) rfl rfl (by simp [St.start]) (by simp [St.start]) (fun _ => idle _ (fun u h => by simp [upd, h, St.start]) rfl)))
    (.keep (t := 0) rfl (.inl rfl))) (.set (t := 0) rfl))
    (.call (t := 0) (p := 1) (text := [98]) rfl (by decide) (by simp) (fun _ u => by
      rw [idle _ (fun u h => by simp [upd, h, St.start]) rfl u]; rfl))) (.time (t := 0) rfl))
    (.print (t := 0) rfl rfl rfl)) (.flush (t := 0) rfl rfl rfl)) (.sys (t := 0) rfl), rfl, rfl, rfl⟩

#print axioms C155_files
#print axioms C155_use
#print axioms C155_syslog_default
#print axioms C155_finding_closed_twice
#print axioms C155_finding_flush
#print axioms C155_lines
#print axioms C155_read
#print axioms C155_flushed
#print axioms C155_order
#print axioms C155_times
#print axioms C155_syslog
#print axioms C155_finding_times
#print axioms C155_finding_closed

end Verif.Props.LogThreads
