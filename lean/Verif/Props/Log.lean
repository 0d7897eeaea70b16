import Verif.Proof.Log
set_option linter.unusedSimpArgs false
/-!
# C72: the logger closes its own files and no others
-/
namespace Verif.Props.Log
open Verif.Log Verif.LogSpec

/-- Any program that uses the logger and keeps to the rules, followed by the destructor: the
logger never closes a file it has not opened, never closes one twice and never writes to a closed
file (all of these are undefined behaviour in the model); the files of the program are those it
has opened and not closed itself; not more files stay open than `openFile` and `set` have thrown
exceptions, and none if no `fclose` reported an error. -/
theorem C72_files (os : List Op) (user : List Handle) (good : Bool)
    (hv : ValidAll os Logger.init (World.start user)) :
    ∃ n l w w', runOps os Logger.init (World.start user) = .ok (n, l, w) ∧
      destroy l w good = .ok w' ∧ w'.user = userFiles os user ∧ w'.mine.length ≤ n ∧
      ((∀ o ∈ os, Good o) → w'.mine = []) := by
  obtain ⟨n, l, w, hr, hI, hu, hl, hg⟩ := runOps_ok os (Inv.init user) hv
  obtain ⟨b, l', w', hc, hI', hu', _, _, hn, hh, _⟩ := closeFile_ok good hI
  have h0 : lost Logger.init (World.start user) = 0 := by simp [lost, World.start]
  refine ⟨n, l, w, w', hr, by simp [destroy, hc], by rw [hu', hu]; rfl, ?_, ?_⟩
  · simp only [lost] at hl h0
    omega
  · intro hG
    have := hg hG
    simp only [lost] at this h0
    have : w'.mine.length = 0 := by omega
    exact List.length_eq_zero_iff.1 this

/-- A message below the priority leaves no trace; any other appears as one line in the file (if
there is one) with the text up to the first NUL, and in syslog if that is switched on. -/
theorem C72_put (l : Logger) (w : World) (p : Nat) (text : Text) (e : PutEnv) (t : Text)
    (ht : e.time l.useMsec = some t) (h1 : e.printed = true) (h2 : e.flushed = true)
    (hf : ∀ h, l.fp = some h → h ∈ w.user ∨ h ∈ w.mine ∨ h = stdErr ∨ h = stdOut) :
    put l w p text e = .ok ⟨false, l, ⟨w.user, w.mine, w.ev ++
      (if p < l.priority then []
      else l.fp.toList.map (fun h => Ev.line h (t.takeWhile (· ≠ 0)) (text.takeWhile (· ≠ 0))) ++
        (if l.useSyslog then
          [.sys (match p with | 0 => .debug | 1 => .info | 2 => .warning | _ => .crit)
            (text.takeWhile (· ≠ 0))]
        else []))⟩⟩ := by
  have hp : sysPri p = (match p with | 0 => .debug | 1 => .info | 2 => .warning | _ => .crit) := by
    unfold sysPri
    match p with
    | 0 => rfl
    | 1 => rfl
    | 2 => rfl
    | n + 3 => simp
  rw [← hp]
  unfold put putFile
  split
  · rename_i h; simp [h]
  · rename_i h
    cases hfp : l.fp with
    | none => cases hs : l.useSyslog <;> simp [h, hs, cstr]
    | some x =>
      have := hf x hfp
      simp only [ht, if_pos this, h1, h2, Res.ok_bind]
      cases hs : l.useSyslog <;> simp [h, hs, cstr]

/-- `PutLog` and `Log` write exactly what `put` writes; `PutLog` drops a text below the priority before it is made. -/
theorem C72_same_as_put (l : Logger) (w : World) (p : Nat) (text : Text) (e : PutEnv) (d : Done)
    (h : put l w p text e = .ok d) (ht : d.threw = false) :
    putLog l w p (some text) e = .ok d ∧ logDtor l w p text e = .ok d ∧ (p < l.priority → ∀ r, putLog l w p r e = .ok ⟨false, l, w⟩) := by
  refine ⟨?_, by simp [logDtor, guarded, h, ht], fun hp r => by simp [putLog, guarded, putFormat, hp]⟩
  unfold putLog guarded putFormat vformat
  by_cases hp : p < l.priority
  · rw [if_pos hp]
    unfold put at h
    rw [if_pos hp] at h
    simp only [Res.ok.injEq] at h
    subst h
    simp
  · rw [if_neg hp]
    simp [h, ht]

/-- `PutLog` and `Log` never let an exception out and never change the logger, whatever the
library calls do; the program may call them in any reachable state. -/
theorem C72_never_throws (os : List Op) (user : List Handle)
    (hv : ValidAll os Logger.init (World.start user)) (p : Nat) (r : Option Text) (t : Text)
    (e : PutEnv) :
    ∃ n l w, runOps os Logger.init (World.start user) = .ok (n, l, w) ∧
      (∃ d, putLog l w p r e = .ok d ∧ d.threw = false ∧ d.l = l) ∧
      ∃ d, logDtor l w p t e = .ok d ∧ d.threw = false ∧ d.l = l := by
  obtain ⟨n, l, w, hr, hI, _⟩ := runOps_ok os (Inv.init user) hv
  obtain ⟨d, h, h0, h1, _⟩ := guarded_ok (putFormat_ok p r e hI)
  obtain ⟨d', h', h0', h1', _⟩ := guarded_ok (put_ok p t e hI)
  exact ⟨n, l, w, hr, ⟨d, h, h0, h1⟩, ⟨d', h', h0', h1'⟩⟩

/-- After a successful `openFile` the messages go to that file and not to syslog; after `set(fp)`
to `fp`; nothing else changes. -/
theorem C72_redirect (l : Logger) (w : World) (fp : Handle) (fp' : Option Handle) (good : Bool)
    (d : Done) (h : openFile l w (some fp) good = .ok d ∨ setFile l w fp' good = .ok d)
    (ht : d.threw = false) :
    d.l.useSyslog = false ∧ d.l.priority = l.priority ∧ d.l.useMsec = l.useMsec ∧ d.w.ev = w.ev ∧
      (openFile l w (some fp) good = .ok d → d.l.fp = some fp) ∧
      (setFile l w fp' good = .ok d → d.l.fp = fp') := by
  have hc : ∀ w b l' w', closeFile l w good = .ok (b, l', w') →
      l'.priority = l.priority ∧ l'.useMsec = l.useMsec ∧ w'.ev = w.ev := by
    intro w b l' w' h
    unfold closeFile at h
    cases hf : l.fp with
    | none =>
      simp [hf] at h
      obtain ⟨_, rfl, rfl⟩ := h
      simp
    | some x =>
      simp only [hf] at h
      split at h
      · simp at h
        obtain ⟨_, rfl, rfl⟩ := h
        simp
      · split at h
        · simp at h
          obtain ⟨_, rfl, rfl⟩ := h
          simp
        · unfold fclose at h
          split at h
          · simp at h
            obtain ⟨_, rfl, rfl⟩ := h
            simp
          · simp at h
  have ho : openFile l w (some fp) good = .ok d → d.l.useSyslog = false ∧
      d.l.priority = l.priority ∧ d.l.useMsec = l.useMsec ∧ d.w.ev = w.ev ∧ d.l.fp = some fp := by
    intro h
    unfold openFile at h
    simp only [Res.bind_eq_ok] at h
    obtain ⟨⟨b, l', w'⟩, h1, h2⟩ := h
    have := hc _ _ _ _ h1
    cases b <;> simp at h2
    · subst h2; simp at ht
    · subst h2; simpa using this
  have hs : setFile l w fp' good = .ok d → d.l.useSyslog = false ∧
      d.l.priority = l.priority ∧ d.l.useMsec = l.useMsec ∧ d.w.ev = w.ev ∧ d.l.fp = fp' := by
    intro h
    unfold setFile at h
    simp only [Res.bind_eq_ok] at h
    obtain ⟨⟨b, l', w'⟩, h1, h2⟩ := h
    have := hc _ _ _ _ h1
    cases b <;> simp at h2
    · subst h2; simp at ht
    · subst h2; simpa using this
  have key : d.l.useSyslog = false ∧
      d.l.priority = l.priority ∧ d.l.useMsec = l.useMsec ∧ d.w.ev = w.ev := by
    rcases h with h | h
    · have := ho h; exact ⟨this.1, this.2.1, this.2.2.1, this.2.2.2.1⟩
    · have := hs h; exact ⟨this.1, this.2.1, this.2.2.1, this.2.2.2.1⟩
  exact ⟨key.1, key.2.1, key.2.2.1, key.2.2.2, fun h => (ho h).2.2.2.2, fun h => (hs h).2.2.2.2⟩

/-- A file that cannot be opened changes nothing: the logger goes on as before. -/
theorem C72_open_fails (l : Logger) (w : World) (good : Bool) :
    openFile l w none good = .ok ⟨true, l, w⟩ := rfl

/-- If the text cannot be formatted, or the time of a line cannot be told, `PutLog` and `CYBOZU_LOG` write no line but a notice on
`stderr`. -/
theorem C72_failure_noticed (l : Logger) (w : World) (p : Nat) (hp : l.priority ≤ p) (text : Text) (e : PutEnv) :
    putLog l w p none e = .ok ⟨false, l, { w with ev := w.ev ++ [.notice] }⟩ ∧
      (l.fp ≠ none → e.time l.useMsec = none → putLog l w p (some text) e = .ok ⟨false, l, { w with ev := w.ev ++ [.notice] }⟩ ∧
        logDtor l w p text e = .ok ⟨false, l, { w with ev := w.ev ++ [.notice] }⟩) := by
  have hn : ¬p < l.priority := by omega
  refine ⟨by simp [putLog, guarded, putFormat, vformat, hn], fun hf ht => ?_⟩
  obtain ⟨h, hh⟩ := Option.ne_none_iff_exists'.mp hf
  have : put l w p text e = .ok ⟨true, l, w⟩ := by simp [put, putFile, hn, hh, ht]
  exact ⟨by simp [putLog, guarded, putFormat, vformat, hn, this], by simp [logDtor, guarded, this]⟩
example : Logger.init.fp ≠ none ∧ Logger.init.priority ≤ 1 := by decide

/-- Finding: if closing the old file fails, the file just opened stays open for ever and the
logger is left without a file. -/
theorem C72_finding_leak :
    ∃ l w, runOps [.openFile (some 5) true, .openFile (some 6) false] Logger.init
        (World.start []) = .ok (1, l, w) ∧
      l.fp = none ∧ l.useSyslog = false ∧ destroy l w true = .ok w ∧ w.mine = [6] := by
  exact ⟨_, _, rfl, rfl, rfl, rfl, rfl⟩

/-- Finding: after `closeFile()`, or after that failure, a message of any priority is dropped
without a sign. -/
theorem C72_finding_silent (p : Nat) (text : Text) (e : PutEnv) :
    ∃ l w, runOps [.openFile (some 5) true, .closeFile true] Logger.init
        (World.start []) = .ok (0, l, w) ∧ put l w p text e = .ok ⟨false, l, w⟩ ∧
      w.ev = [] := by
  refine ⟨_, _, rfl, ?_, rfl⟩
  unfold put putFile
  split <;> rfl

/-- Finding: the comment on `SetLogPriority` says that messages of a priority less than or equal
to the given one are not shown; those of an equal priority are shown. -/
theorem C72_finding_equal_priority (p : Nat) (text : Text) :
    ∃ l w d, runOps [.setPriority p] Logger.init (World.start []) = .ok (0, l, w) ∧
      put l w p text ⟨fun _ => some [], true, true⟩ = .ok d ∧ d.w.ev ≠ [] := by
  refine ⟨_, _, ⟨false, ⟨p, some stdErr, false, true, false⟩,
      ⟨[], [], [.line stdErr [] (cstr text), .sys (sysPri p) (cstr text)]⟩⟩, rfl, ?_, ?_⟩
  · simp [put, putFile, Logger.init, World.start, cstr]
  · simp

/-- Finding: a message is cut at a NUL although `std::string` and `PutLog("%c", 0)` can contain
one. -/
theorem C72_finding_nul :
    ∃ d, put Logger.init (World.start []) 1 [65, 0, 66] ⟨fun _ => some [84], true, true⟩ = .ok d ∧
      d.w.ev = [.line stdErr [84] [65], .sys .info [65]] := by
  exact ⟨_, rfl, rfl⟩

/-- A valid program: two log files one after the other, a file of the program's own, and a message
in each. -/
example : ValidAll [.openFile (some 5) true, .putLog 1 (some [65]) ⟨fun _ => some [84], true, true⟩,
    .openFile (some 6) true, .userOpen 5, .set (some 5) true,
    .log 3 [66] ⟨fun _ => some [84], true, true⟩, .set none true, .userClose 5]
    Logger.init (World.start []) := by
  simp [ValidAll, Valid, step, openFile, closeFile, setFile, putLog, guarded, putFormat, vformat, put,
    putFile, logDtor, fclose, Logger.init, World.start, stdOut, stdErr]

example : ∃ l w, runOps [.openFile (some 5) true,
    .putLog 1 (some [65]) ⟨fun _ => some [84], true, true⟩, .openFile (some 6) true,
    .userOpen 5, .set (some 5) true, .log 3 [66] ⟨fun _ => some [84], true, true⟩]
    Logger.init (World.start []) = .ok (0, l, w) ∧
    w = ⟨[5], [], [.line 5 [84] [65], .line 5 [84] [66]]⟩ ∧ l.fp = some 5 :=
  ⟨_, _, rfl, rfl, rfl⟩

end Verif.Props.Log

#print axioms Verif.Props.Log.C72_files
#print axioms Verif.Props.Log.C72_put
#print axioms Verif.Props.Log.C72_failure_noticed
