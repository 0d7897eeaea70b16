import Verif.Model.SocketUse

/-!
# C158: a socket is used by several threads
-/
set_option linter.unusedSimpArgs false

namespace Verif.Props.SocketUse
open Verif.SocketUse

/-- What holds if `close` and `connect` come only while no call is running. -/
structure Inv (s : St) : Prop where
  open_ : ∀ f, s.sd = some f → s.tab f ≠ none
  apart : ∀ t f, s.pc t = .closing f → s.sd ≠ some f ∧ s.tab f ≠ none
  busy : ∀ t c, s.pc t = .busy c → c = conn s.tab s.sd
  loaded : ∀ t c fd, s.pc t = .loaded c fd → fd = s.sd ∧ c = conn s.tab s.sd
  one : ∀ t u f g, s.pc t = .closing f → s.pc u = .closing g → t = u
  log : ∀ e ∈ s.log, e.2.2 = e.2.1

theorem conn_upd {tab : Nat → Option Nat} {sd : Option Nat} {f : Nat} {v : Option Nat} (h : sd ≠ some f) : conn (upd tab f v) sd = conn tab sd := by
  cases sd with
  | none => rfl
  | some g => simp only [conn, upd]; rw [if_neg (fun e => h (by rw [e]))]

theorem Inv.step {s s' : St} (I : Inv s) (st : Step true s s') : Inv s' := by
  obtain ⟨i1, i2, i3, i4, i5, i6⟩ := I
  cases st with
  | take g1 g2 g3 => constructor <;> grind [upd, conn]
  | shut g =>
    have := conn_upd (tab := s.tab) (v := none) (i2 _ _ g).1
    constructor <;> grind [upd]
  | attach g1 g2 g3 g4 => constructor <;> grind [upd, conn]
  | @other f g =>
    have := conn_upd (tab := s.tab) (v := some s.next) (fun h => i1 f h g : s.sd ≠ some f)
    constructor <;> grind [upd]
  | otherClose g1 g2 =>
    have := conn_upd (tab := s.tab) (v := none) g1
    constructor <;> grind [upd]
  | enter g => constructor <;> grind [upd, conn]
  | load g => constructor <;> grind [upd, conn]
  | leave g => constructor <;> grind [upd, conn]
  | io g => constructor <;> grind [upd, conn]

/-- C158: if the object is closed and connected only while no other call on it is running, then in every interleaving of transfers, `shutdown` and
settings by any number of threads, and whatever descriptors other parts of the program open and close, every system call acts on the connection the
object had when the call of the library began; it fails if there was none. -/
theorem C158_own {tab : Nat → Option Nat} {next : Nat} {s : St} (h : Steps true (St.start tab next) s) : ∀ e ∈ s.log, e.2.2 = e.2.1 := by
  have : Inv s := by
    induction h with
    | refl => constructor <;> simp [St.start]
    | tail _ st ih => exact ih.step st
  exact this.log

/-- The connections of the descriptor table are different and older than the next one. -/
structure Fresh (s : St) : Prop where
  lt : ∀ f c, s.tab f = some c → c < s.next
  inj : ∀ f g c, s.tab f = some c → s.tab g = some c → f = g

theorem Fresh.step {calm : Bool} {s s' : St} (I : Fresh s) (st : Step calm s s') : Fresh s' := by
  obtain ⟨i1, i2⟩ := I
  cases st <;> constructor <;> grind [upd]

/-- C158: two descriptors never stand for the same connection, so "another connection" in the findings is really another one. -/
theorem C158_distinct {calm : Bool} {tab : Nat → Option Nat} {next : Nat} {s : St} (h : Steps calm (St.start tab next) s)
    (h0 : Fresh (St.start tab next)) : Fresh s := by
  induction h with
  | refl => exact h0
  | tail _ st ih => exact ih.step st

/-- C158, finding: a transfer of one thread while another one closes the object can act on a descriptor of another part of the program that was given
the same number: data goes to or is taken from a foreign connection or file. -/
theorem C158_finding_reused : ∃ s, Steps false (St.start (fun _ => none) 0) s ∧ s.log = [(0, some 0, some 1)] ∧ s.sd = none ∧ s.tab 3 = some 1 :=
  ⟨_, .tail (.tail (.tail (.tail (.tail (.tail (.tail .refl (.attach (t := 0) (f := 3) rfl rfl rfl (by simp))) (.enter (t := 0) rfl)) (.load (t := 0) rfl))
    (.take (t := 1) (f := 3) rfl rfl (by simp))) (.shut (t := 1) rfl)) (.other (f := 3) rfl)) (.io (t := 0) rfl), rfl, rfl, rfl⟩

/-- C158, finding: `write` reads `sd_` for every system call: if the object gets a new connection meanwhile, a text is sent partly on the old and
partly on the new connection. -/
theorem C158_finding_split : ∃ s, Steps false (St.start (fun _ => none) 0) s ∧ s.log = [(0, some 0, some 0), (0, some 0, some 1)] :=
  ⟨_, .tail (.tail (.tail (.tail (.tail (.tail (.tail (.tail .refl (.attach (t := 0) (f := 3) rfl rfl rfl (by simp))) (.enter (t := 0) rfl)) (.load (t := 0) rfl))
    (.io (t := 0) rfl)) (.take (t := 1) (f := 3) rfl rfl (by simp))) (.attach (t := 2) (f := 4) rfl rfl rfl (by simp))) (.load (t := 0) rfl))
    (.io (t := 0) rfl), rfl⟩

/-- The hypotheses of `C158_own` are met by an execution in which two threads use the object at the same time, another part of the program opens a
descriptor, and the object is closed and connected again. -/
example : ∃ s, Steps true (St.start (fun _ => none) 0) s ∧ s.log = [(1, some 0, some 0), (0, some 0, some 0)] ∧ s.sd = some 3 ∧ s.tab 3 = some 2 :=
  ⟨_, .tail (.tail (.tail (.tail (.tail (.tail (.tail (.tail (.tail (.tail (.tail (.tail (.tail .refl
    (.attach (t := 0) (f := 3) rfl rfl rfl (fun _ _ => rfl))) (.enter (t := 0) rfl)) (.load (t := 0) rfl)) (.enter (t := 1) rfl)) (.load (t := 1) rfl))
    (.io (t := 1) rfl)) (.other (f := 4) rfl)) (.io (t := 0) rfl)) (.leave (t := 0) rfl)) (.leave (t := 1) rfl))
    (.take (t := 1) (f := 3) rfl rfl (fun _ u => by simp only [upd, St.start]; grind))) (.shut (t := 1) rfl))
    (.attach (t := 0) (f := 3) rfl rfl rfl (fun _ u => by simp only [upd, St.start]; grind)), rfl, rfl, rfl⟩

#print axioms C158_own
#print axioms C158_distinct
#print axioms C158_finding_reused
#print axioms C158_finding_split

end Verif.Props.SocketUse
