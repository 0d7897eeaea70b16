import Verif.Spec.CondVar

set_option linter.unusedSimpArgs false

/-! Lemmas on the condition variable. -/
namespace Verif.CondVar

open Verif.Spec.CondVar

/-- The same without those that are in the second half of `notifyAll`. -/
def holdsO : PC → Bool
  | .own => true
  | .w1 => true
  | .w2 => true
  | .n1 b => b
  | .n2 b _ => b
  | .a1 b => b
  | _ => false
/-- Threads that wait for the semaphore. -/
def isW3 : PC → Bool
  | .w3 => true
  | _ => false
/-- Threads that got the semaphore. -/
def isW4 : PC → Bool
  | .w4 => true
  | _ => false
/-- Threads that have been counted out. -/
def isW5 : PC → Bool
  | .w5 _ => true
  | _ => false
/-- The last waiter. -/
def isW5t : PC → Bool
  | .w5 b => b
  | _ => false
/-- In `notifyAll`, waiting for the event. -/
def isA2 : PC → Bool
  | .a2 _ => true
  | _ => false
/-- In `notifyAll`, after the event. -/
def isA3 : PC → Bool
  | .a3 _ => true
  | _ => false
/-- In `notifyAll` without the mutex. -/
def isFree : PC → Bool
  | .a1 b => !b
  | .a2 b => !b
  | .a3 b => !b
  | _ => false

theorem cnt_set (q : PC → Bool) {l : List PC} {i : Nat} {a : PC} (b : PC) (h : l[i]? = some a) :
    (l.set i b).countP q + (q a).toNat = l.countP q + (q b).toNat := by
  induction l generalizing i with
  | nil => simp at h
  | cons x xs ih =>
    cases i with
    | zero =>
      simp only [List.getElem?_cons_zero, Option.some.injEq] at h
      subst h
      simp only [List.set_cons_zero, List.countP_cons]
      cases q x <;> cases q b <;> simp
    | succ i =>
      simp only [List.getElem?_cons_succ] at h
      have := ih h
      simp only [List.set_cons_succ, List.countP_cons]
      omega

theorem cnt_parts (l : List PC) : l.countP isA2 + l.countP isA3 + l.countP holdsO ≤ l.countP holds + l.countP isFree := by
  induction l with
  | nil => simp
  | cons x xs ih =>
    simp only [List.countP_cons]
    have : (if isA2 x then 1 else 0) + (if isA3 x then 1 else 0) + (if holdsO x then 1 else 0) ≤ (if holds x then 1 else 0) + (if isFree x then 1 else 0) := by
      cases x <;> (try cases ‹Bool›) <;> (try cases ‹Bool›) <;> simp [isA2, isA3, holdsO, holds, isFree]
    omega

theorem cnt_w3 (l : List PC) : l.countP isW3 ≤ l.countP waiting := by
  apply List.countP_mono_left
  intro x _ h
  cases x <;> simp_all [isW3, waiting]

theorem cnt_pos {q : PC → Bool} {l : List PC} {i : Nat} {a : PC} (h : l[i]? = some a) (hq : q a = true) : 0 < l.countP q := by
  rw [List.countP_pos_iff]
  exact ⟨a, List.mem_of_getElem? h, hq⟩

theorem cnt_toNat {q : PC → Bool} {l : List PC} {i : Nat} {a : PC} (h : l[i]? = some a) : (q a).toNat ≤ l.countP q := by
  cases hq : q a
  · simp
  · exact cnt_pos h hq

/-- What holds in every reachable state, if `notifyAll` is only called with the mutex. -/
structure Inv (n : Nat) (s : St) : Prop where
  len : s.pcs.length = n
  hold : s.pcs.countP holds = if s.mutex = none then 0 else 1
  owner : ∀ i, s.mutex = some i → ∃ p, s.pcs[i]? = some p ∧ holds p = true
  wn : s.waiterNum = s.pcs.countP waiting
  fr : s.pcs.countP isFree = 0
  bc : s.wasBroadcast = true ↔ 0 < s.pcs.countP isA2 + s.pcs.countP isA3
  ia : s.pcs.countP isA2 = 0 → s.pcs.countP isW5t = 0 ∧ s.done = false
  ib : 0 < s.pcs.countP isA2 → s.pcs.countP isW5t + (if s.done = true then 1 else 0) + (if 0 < s.waiterNum then 1 else 0) = 1
  ic : 0 < s.pcs.countP isA2 → s.pcs.countP isW3 ≤ s.sema
  id : 0 < s.pcs.countP isA3 → s.waiterNum = 0

theorem inv_start (n : Nat) : Inv n (St.start n) := by
  have h : ∀ q : PC → Bool, q .idle = false → (List.replicate n PC.idle).countP q = 0 := by
    intro q hq
    rw [List.countP_replicate, hq]; rfl
  have h' := h waiting rfl
  constructor <;> simp [St.start, h, h', holds, waiting, isFree, isA2, isA3, isW5t, isW3]

/-- Facts about a thread of known place. -/
theorem Inv.holder {n : Nat} {s : St} (h : Inv n s) {i : Nat} {p : PC} (hp : s.pcs[i]? = some p) (hh : holds p = true) : s.mutex = some i := by
  have hc := cnt_pos (q := holds) hp hh
  have := h.hold
  cases hm : s.mutex with
  | none => rw [hm, if_pos rfl] at this; omega
  | some j =>
    rw [hm, if_neg (by simp)] at this
    obtain ⟨p', h1, h2⟩ := h.owner j hm
    by_cases e : j = i
    · rw [e]
    · exfalso
      have c1 := cnt_set holds .idle hp
      have h3 : (s.pcs.set i .idle)[j]? = some p' := by rw [List.getElem?_set_ne (Ne.symm e)]; exact h1
      have c2 := cnt_pos (q := holds) h3 h2
      rw [hh] at c1
      simp [holds] at c1
      omega

/-- A step, spelt out: thread `i` goes from place `p` to place `b`. -/
inductive Move (free : Bool) (s : St) (i : Nat) : PC → PC → St → Prop where
  | lock : s.mutex = none → Move free s i .idle .own { s with pcs := s.pcs.set i .own, mutex := some i }
  | unlock : Move free s i .own .idle { s with pcs := s.pcs.set i .idle, mutex := none }
  | wait : Move free s i .own .w1 { s with pcs := s.pcs.set i .w1 }
  | enter : Move free s i .w1 .w2 { s with pcs := s.pcs.set i .w2, waiterNum := s.waiterNum + 1 }
  | rel : Move free s i .w2 .w3 { s with pcs := s.pcs.set i .w3, mutex := none }
  | take : 0 < s.sema → Move free s i .w3 .w4 { s with pcs := s.pcs.set i .w4, sema := s.sema - 1 }
  | leave (b : Bool) : b = (s.wasBroadcast && decide (s.waiterNum - 1 = 0)) →
      Move free s i .w4 (.w5 b) { s with pcs := s.pcs.set i (.w5 b), waiterNum := s.waiterNum - 1 }
  | signal : Move free s i (.w5 true) .w6 { s with pcs := s.pcs.set i .w6, done := true }
  | skip : Move free s i (.w5 false) .w6 { s with pcs := s.pcs.set i .w6 }
  | back : s.mutex = none → Move free s i .w6 .own { s with pcs := s.pcs.set i .own, mutex := some i }
  | one0 : Move free s i .idle (.n1 false) { s with pcs := s.pcs.set i (.n1 false) }
  | one1 : Move free s i .own (.n1 true) { s with pcs := s.pcs.set i (.n1 true) }
  | look (h : Bool) : Move free s i (.n1 h) (.n2 h (decide (0 < s.waiterNum))) { s with pcs := s.pcs.set i (.n2 h (decide (0 < s.waiterNum))) }
  | post (h : Bool) : Move free s i (.n2 h true) (ret h) { s with pcs := s.pcs.set i (ret h), sema := releaseSema s.sema 1 }
  | noPost (h : Bool) : Move free s i (.n2 h false) (ret h) { s with pcs := s.pcs.set i (ret h) }
  | all0 : free = true → Move free s i .idle (.a1 false) { s with pcs := s.pcs.set i (.a1 false) }
  | all1 : Move free s i .own (.a1 true) { s with pcs := s.pcs.set i (.a1 true) }
  | cast (h : Bool) : 0 < s.waiterNum → Move free s i (.a1 h) (.a2 h)
      { s with pcs := s.pcs.set i (.a2 h), wasBroadcast := true, sema := releaseSema s.sema s.waiterNum.toNat }
  | noCast (h : Bool) : ¬ 0 < s.waiterNum → Move free s i (.a1 h) (ret h) { s with pcs := s.pcs.set i (ret h) }
  | got (h : Bool) : s.done = true → Move free s i (.a2 h) (.a3 h) { s with pcs := s.pcs.set i (.a3 h), done := false }
  | fin (h : Bool) : Move free s i (.a3 h) (ret h) { s with pcs := s.pcs.set i (ret h), wasBroadcast := false }

theorem step_move {free : Bool} {s s' : St} {i : Nat} {a : Act} (h : step free s i a = some s') :
    ∃ p b, s.pcs[i]? = some p ∧ Move free s i p b s' := by
  unfold step at h
  split at h <;> rename_i hp
  · rw [Option.ite_none_right_eq_some] at h; obtain ⟨h0, h⟩ := h; injection h with h; subst h; exact ⟨_, _, hp, .lock h0⟩
  · injection h with h; subst h; exact ⟨_, _, hp, .unlock⟩
  · injection h with h; subst h; exact ⟨_, _, hp, .wait⟩
  · injection h with h; subst h; exact ⟨_, _, hp, .enter⟩
  · injection h with h; subst h; exact ⟨_, _, hp, .rel⟩
  · rw [Option.ite_none_right_eq_some] at h; obtain ⟨h0, h⟩ := h; injection h with h; subst h; exact ⟨_, _, hp, .take h0⟩
  · injection h with h; subst h; exact ⟨_, _, hp, .leave _ rfl⟩
  · injection h with h; subst h; exact ⟨_, _, hp, .signal⟩
  · injection h with h; subst h; exact ⟨_, _, hp, .skip⟩
  · rw [Option.ite_none_right_eq_some] at h; obtain ⟨h0, h⟩ := h; injection h with h; subst h; exact ⟨_, _, hp, .back h0⟩
  · injection h with h; subst h; exact ⟨_, _, hp, .one0⟩
  · injection h with h; subst h; exact ⟨_, _, hp, .one1⟩
  · injection h with h; subst h; exact ⟨_, _, hp, .look _⟩
  · injection h with h; subst h; exact ⟨_, _, hp, .post _⟩
  · injection h with h; subst h; exact ⟨_, _, hp, .noPost _⟩
  · rw [Option.ite_none_right_eq_some] at h; obtain ⟨h0, h⟩ := h; injection h with h; subst h; exact ⟨_, _, hp, .all0 h0⟩
  · injection h with h; subst h; exact ⟨_, _, hp, .all1⟩
  · split at h
    · rename_i h0; injection h with h; subst h; exact ⟨_, _, hp, .cast _ h0⟩
    · rename_i h0; injection h with h; subst h; exact ⟨_, _, hp, .noCast _ h0⟩
  · rw [Option.ite_none_right_eq_some] at h; obtain ⟨h0, h⟩ := h; injection h with h; subst h; exact ⟨_, _, hp, .got _ h0⟩
  · injection h with h; subst h; exact ⟨_, _, hp, .fin _⟩
  · cases h

theorem Move.pcs {free : Bool} {s s' : St} {i : Nat} {p b : PC} (m : Move free s i p b s') : s'.pcs = s.pcs.set i b := by
  cases m <;> rfl

theorem owner_set {s : St} {n i : Nat} {p b : PC} (h : Inv n s) (hp : s.pcs[i]? = some p) (hb : holds p = holds b) (j : Nat)
    (hj : s.mutex = some j) : ∃ p', (s.pcs.set i b)[j]? = some p' ∧ holds p' = true := by
  obtain ⟨p', h1, h2⟩ := h.owner j hj
  by_cases e : i = j
  · subst e
    have hl : i < s.pcs.length := by
      apply Nat.lt_of_not_le
      intro hle
      rw [List.getElem?_eq_none hle] at hp; cases hp
    rw [h1] at hp
    injection hp with hp
    exact ⟨b, by rw [List.getElem?_set_self hl], by rw [← hb, ← hp]; exact h2⟩
  · exact ⟨p', by rw [List.getElem?_set_ne e]; exact h1, h2⟩

theorem lt_of_get {l : List PC} {i : Nat} {p : PC} (hp : l[i]? = some p) : i < l.length := by
  apply Nat.lt_of_not_le
  intro hle
  rw [List.getElem?_eq_none hle] at hp; cases hp

/-- The counted part of the invariant, on numbers. -/
structure Cnt (mu : Nat) (wn : Int) (sema dn wb H W F A2 A3 L W3 : Nat) : Prop where
  hold : H = mu
  wnE : wn = W
  fr : F = 0
  bc : wb = A2 + A3
  ia : A2 = 0 → L = 0 ∧ dn = 0
  ib : 0 < A2 → L + dn + min W 1 = 1
  ic : 0 < A2 → W3 ≤ sema
  id : 0 < A3 → W = 0

theorem inv_iff {n : Nat} {s : St} : Inv n s ↔ s.pcs.length = n ∧ (∀ i, s.mutex = some i → ∃ p, s.pcs[i]? = some p ∧ holds p = true) ∧
    Cnt s.mutex.isSome.toNat s.waiterNum s.sema s.done.toNat s.wasBroadcast.toNat (s.pcs.countP holds) (s.pcs.countP waiting) (s.pcs.countP isFree)
      (s.pcs.countP isA2) (s.pcs.countP isA3) (s.pcs.countP isW5t) (s.pcs.countP isW3) := by
  have e0 := cnt_parts s.pcs
  constructor
  · intro h
    have h1 := h.hold
    have h2 := h.bc
    have h3 := h.ib
    have h4 := h.fr
    have h5 := h.wn
    have h6 := h.id
    refine ⟨h.len, h.owner, ⟨?_, h.wn, h.fr, ?_, ?_, ?_, h.ic, fun h0 => by have := h6 h0; omega⟩⟩
    · cases hm : s.mutex <;> simp_all
    · have : s.pcs.countP holds ≤ 1 := by rw [h1]; split <;> omega
      cases hm : s.wasBroadcast <;> rw [hm] at h2 <;> simp only [Bool.false_eq_true, false_iff, true_iff, eq_self] at h2 <;> simp only [Bool.toNat_true, Bool.toNat_false] <;> omega
    · intro h0
      have := h.ia h0
      simp [this]
    · intro h0
      have := h3 h0
      cases hd : s.done <;> rw [hd] at this <;> simp only [if_true, Bool.false_eq_true, if_false, Bool.toNat_false, Bool.toNat_true] at this ⊢ <;> split at this <;> omega
  · rintro ⟨h1, h2, h⟩
    refine ⟨h1, ?_, h2, h.wnE, h.fr, ?_, ?_, ?_, h.ic, fun h0 => by have := h.id h0; have := h.wnE; omega⟩
    · have := h.hold
      cases hm : s.mutex <;> simp_all
    · have := h.bc
      cases hm : s.wasBroadcast <;> rw [hm] at this <;> simp only [Bool.toNat_true, Bool.toNat_false] at this <;> constructor <;> intro h0 <;> first | omega | rfl | cases h0
    · intro h0
      have := h.ia h0
      cases hd : s.done <;> rw [hd] at this <;> simp at this ⊢ <;> omega
    · intro h0
      have := h.ib h0
      have h5 := h.wnE
      cases hd : s.done <;> rw [hd] at this <;> simp only [if_true, Bool.false_eq_true, if_false, Bool.toNat_false, Bool.toNat_true] at this ⊢ <;> split <;> omega

theorem le_releaseSema (sema k : Nat) : sema ≤ releaseSema sema k := by
  rw [releaseSema]; split <;> omega

theorem releaseSema_covers (sema : Nat) {k : Nat} (h : k ≤ 2 ^ 30) : k ≤ releaseSema sema k := by
  rw [releaseSema, semaMax]; split <;> omega

theorem cnt_move {n : Nat} (hn : n ≤ 2 ^ 30) {s s' : St} {i : Nat} {p b : PC}
    (m : Move false s i p b s') {H W F A2 A3 L W3 O H' W' F' A2' A3' L' W3' : Nat}
    (e0 : A2 + A3 + O ≤ H + F) (hW : W ≤ n) (hW3 : W3 ≤ W) (hO : (holdsO p).toNat ≤ O) (hF : (isFree p).toNat ≤ F)
    (c1 : H' + (holds p).toNat = H + (holds b).toNat)
    (c2 : W' + (waiting p).toNat = W + (waiting b).toNat)
    (c3 : F' + (isFree p).toNat = F + (isFree b).toNat)
    (c4 : A2' + (isA2 p).toNat = A2 + (isA2 b).toNat)
    (c5 : A3' + (isA3 p).toNat = A3 + (isA3 b).toNat)
    (c6 : L' + (isW5t p).toNat = L + (isW5t b).toNat)
    (c7 : W3' + (isW3 p).toNat = W3 + (isW3 b).toNat)
    (hm : holds p = true → s.mutex.isSome = true)
    (h : Cnt s.mutex.isSome.toNat s.waiterNum s.sema s.done.toNat s.wasBroadcast.toNat H W F A2 A3 L W3) :
    Cnt s'.mutex.isSome.toNat s'.waiterNum s'.sema s'.done.toNat s'.wasBroadcast.toNat H' W' F' A2' A3' L' W3' := by
  obtain ⟨g1, g2, g3, g4, g5, g6, g7, g8⟩ := h
  have hmu : s.mutex.isSome.toNat ≤ 1 := Bool.toNat_le _
  have hdn : s.done.toNat ≤ 1 := Bool.toNat_le _
  have hwb : s.wasBroadcast.toNat ≤ 1 := Bool.toNat_le _
  cases m
  case leave b h0 =>
    simp only [holds, waiting, isFree, isA2, isA3, isW5t, isW3, holdsO, Bool.toNat_true, Bool.toNat_false] at *
    have hb : b.toNat = if s.wasBroadcast.toNat = 1 ∧ W = 1 then 1 else 0 := by
      subst h0
      cases s.wasBroadcast
      · simp
      · by_cases hW : W = 1
        · rw [if_pos ⟨rfl, hW⟩]; simp; omega
        · rw [if_neg (by omega)]; simp; omega
    rw [hb] at c6
    split at c6 <;> constructor <;> intros <;> omega
  case post h =>
    have h1 := le_releaseSema s.sema 1
    cases h <;> simp only [holds, waiting, isFree, isA2, isA3, isW5t, isW3, holdsO, ret, Bool.false_eq_true, if_true, if_false, Bool.toNat_true, Bool.toNat_false] at * <;>
      constructor <;> intros <;> omega
  case cast h h0 =>
    have h1 := releaseSema_covers s.sema (k := W) (by omega)
    have h2 : s.waiterNum.toNat = W := by omega
    rw [h2]
    cases h <;> simp only [holds, waiting, isFree, isA2, isA3, isW5t, isW3, holdsO, Bool.not_true, Bool.not_false, Bool.toNat_true, Bool.toNat_false] at * <;>
      constructor <;> intros <;> omega
  case got h h0 =>
    rw [h0] at g5 g6
    cases h <;> simp only [holds, waiting, isFree, isA2, isA3, isW5t, isW3, holdsO, Bool.not_true, Bool.not_false, Bool.toNat_true, Bool.toNat_false] at * <;>
      constructor <;> intros <;> omega
  all_goals
    (try cases ‹Bool›) <;>
    simp only [holds, waiting, isFree, isA2, isA3, isW5t, isW3, holdsO, ret, Bool.false_eq_true, if_true, if_false, Bool.not_true, Bool.not_false, reduceCtorEq, true_implies, false_implies, Bool.toNat_true, Bool.toNat_false] at * <;>
    (try simp only [*, Option.isSome_none, Option.isSome_some, Bool.toNat_true, Bool.toNat_false] at g1 g5 g6 g4 hmu hdn ⊢) <;>
    constructor <;> (try simp only [releaseSema, semaMax]) <;> intros <;> (try split) <;> (try simp only [Option.isSome_none, Option.isSome_some, Bool.toNat_true, Bool.toNat_false] at *) <;> omega

theorem inv_move {n : Nat} (hn : n ≤ 2 ^ 30) {s s' : St} {i : Nat} {p b : PC} (h : Inv n s) (hp : s.pcs[i]? = some p)
    (m : Move false s i p b s') : Inv n s' := by
  have hlt := lt_of_get hp
  have hown := h.holder hp
  have hset := owner_set (b := b) h hp
  obtain ⟨hlen, howner, hc⟩ := inv_iff.1 h
  rw [inv_iff, m.pcs]
  refine ⟨by rw [List.length_set, hlen], ?_, ?_⟩
  · cases m <;> first
      | exact hset rfl
      | (intro j hj; injection hj with hj; subst hj; exact ⟨_, List.getElem?_set_self hlt, rfl⟩)
      | (intro j hj; cases hj)
      | (cases ‹Bool› <;> exact hset rfl)
  · refine cnt_move hn m (cnt_parts s.pcs) (hlen ▸ List.countP_le_length) (cnt_w3 s.pcs) (cnt_toNat hp) (cnt_toNat hp) (cnt_set _ _ hp) (cnt_set _ _ hp) (cnt_set _ _ hp)
      (cnt_set _ _ hp) (cnt_set _ _ hp) (cnt_set _ _ hp) (cnt_set _ _ hp) (fun hh => by rw [hown hh]; rfl) hc

theorem inv_reach {n : Nat} (hn : n ≤ 2 ^ 30) {s : St} (h : Reach false n s) : Inv n s := by
  induction h with
  | start => exact inv_start n
  | step _ e ih =>
    obtain ⟨p, b, hp, m⟩ := step_move e
    exact inv_move hn ih hp m

/-! ### progress of `notifyAll` -/

theorem sum_set {l : List PC} {i : Nat} {a : PC} (b : PC) (h : l[i]? = some a) :
    ((l.set i b).map stepsLeft).sum + stepsLeft a = (l.map stepsLeft).sum + stepsLeft b := by
  induction l generalizing i with
  | nil => simp at h
  | cons x xs ih =>
    cases i with
    | zero =>
      simp only [List.getElem?_cons_zero, Option.some.injEq] at h
      subst h
      simp only [List.set_cons_zero, List.map_cons, List.sum_cons]
      omega
    | succ i =>
      simp only [List.getElem?_cons_succ] at h
      have := ih h
      simp only [List.set_cons_succ, List.map_cons, List.sum_cons]
      omega

theorem allStepsLeft_le (s : St) : allStepsLeft s ≤ 3 * s.pcs.length := by
  rw [allStepsLeft]
  induction s.pcs with
  | nil => simp
  | cons x xs ih =>
    simp only [List.map_cons, List.sum_cons, List.length_cons]
    have : stepsLeft x ≤ 3 := by cases x <;> simp [stepsLeft]
    omega

/-- A step of another thread while `i` is in the second half of `notifyAll`. -/
theorem wait_step {n : Nat} {s s' : St} {i j : Nat} {a : Act} (h : Inv n s) (hi : s.pcs[i]? = some (.a2 true))
    (hj : j ≠ i) (e : step false s j a = some s') :
    s'.pcs[i]? = some (.a2 true) ∧ (if (s.pcs[j]?.map stepsLeft).getD 0 = 0 then 0 else 1) + allStepsLeft s' ≤ allStepsLeft s := by
  obtain ⟨p, b, hp, m⟩ := step_move e
  refine ⟨by rw [m.pcs, List.getElem?_set_ne hj]; exact hi, ?_⟩
  have hm := h.holder hi rfl
  have hnh : holds p = false := by
    cases hh : holds p
    · rfl
    · have := h.holder hp hh
      rw [hm] at this
      injection this with this
      exact absurd this.symm hj
  have hs := sum_set b hp
  rw [hp, Option.map_some, Option.getD_some, allStepsLeft, allStepsLeft, m.pcs]
  generalize ((s.pcs.set j b).map stepsLeft).sum = x at *
  generalize (s.pcs.map stepsLeft).sum = y at *
  cases m <;> (try cases ‹Bool›) <;> simp [holds] at hnh <;> simp [stepsLeft, ret] at hs ⊢ <;> omega

theorem wait_run {n : Nat} (hn : n ≤ 2 ^ 30) {i : Nat} (l : List (Nat × Act)) :
    ∀ {s t : St}, Inv n s → s.pcs[i]? = some (.a2 true) → (∀ x ∈ l, x.1 ≠ i) → run false s l = some t →
      t.pcs[i]? = some (.a2 true) ∧ waiterSteps false s l + allStepsLeft t ≤ allStepsLeft s := by
  induction l with
  | nil =>
    intro s t _ hi _ e
    injection e with e
    subst e
    exact ⟨hi, by simp [waiterSteps]⟩
  | cons x xs ih =>
    intro s t h hi hx e
    obtain ⟨j, a⟩ := x
    rw [run] at e
    rw [waiterSteps]
    cases hs : step false s j a with
    | none => rw [hs] at e; cases e
    | some s' =>
      rw [hs] at e
      simp only at e ⊢
      obtain ⟨h1, h2⟩ := wait_step h hi (show j ≠ i from hx (j, a) (by simp)) hs
      obtain ⟨p, b, hp, m⟩ := step_move hs
      obtain ⟨h3, h4⟩ := ih (inv_move hn h hp m) h1 (fun y hy => hx y (List.mem_cons_of_mem _ hy)) e
      exact ⟨h3, by omega⟩

theorem exists_of_cnt {q : PC → Bool} {l : List PC} (h : 0 < l.countP q) : ∃ (j : Nat) (p : PC), l[j]? = some p ∧ q p = true := by
  rw [List.countP_pos_iff] at h
  obtain ⟨p, hp, hq⟩ := h
  obtain ⟨j, hj⟩ := List.getElem?_of_mem hp
  exact ⟨j, p, hj, hq⟩

theorem no_free {n : Nat} {s : St} (h : Inv n s) {i : Nat} {p : PC} (hp : s.pcs[i]? = some p) : isFree p = false := by
  cases hq : isFree p
  · rfl
  · have := cnt_pos hp hq
    have := h.fr
    omega

/-- While `notifyAll` waits for the event, somebody it waits for can go on. -/
theorem wait_progress {n : Nat} {s : St} {i : Nat} (h : Inv n s) (hi : s.pcs[i]? = some (.a2 true)) :
    (∃ s', step false s i .go = some s') ∨
    (∃ j p s', j ≠ i ∧ s.pcs[j]? = some p ∧ 0 < stepsLeft p ∧ step false s j .go = some s') := by
  have hA : 0 < s.pcs.countP isA2 := cnt_pos hi rfl
  have hb := h.ib hA
  have hc := h.ic hA
  have hm := h.holder hi rfl
  cases hd : s.done with
  | true => exact .inl ⟨_, by unfold step; rw [hi]; simp only [hd, if_true]; rfl⟩
  | false =>
    rw [hd] at hb
    simp only [Bool.false_eq_true, if_false] at hb
    right
    by_cases hL : 0 < s.pcs.countP isW5t
    · obtain ⟨j, p, hp, hq⟩ := exists_of_cnt hL
      have hji : j ≠ i := fun e => by subst e; rw [hi] at hp; injection hp with hp; subst hp; cases hq
      cases p <;> simp [isW5t] at hq
      subst hq
      exact ⟨j, _, _, hji, hp, by simp [stepsLeft], by unfold step; rw [hp]⟩
    · have hw : 0 < s.waiterNum := by
        apply Decidable.byContradiction
        intro hw
        rw [if_neg hw] at hb
        omega
      have := h.wn
      obtain ⟨j, p, hp, hq⟩ := exists_of_cnt (q := waiting) (l := s.pcs) (by omega)
      have hji : j ≠ i := fun e => by subst e; rw [hi] at hp; injection hp with hp; subst hp; cases hq
      cases p <;> simp [waiting] at hq
      · exfalso
        have := h.holder hp rfl
        rw [hm] at this
        injection this with this
        exact hji this.symm
      · have h3 : 0 < s.pcs.countP isW3 := cnt_pos hp rfl
        exact ⟨j, _, _, hji, hp, by simp [stepsLeft], by unfold step; rw [hp]; simp only; rw [if_pos (by omega)]⟩
      · exact ⟨j, _, _, hji, hp, by simp [stepsLeft], by unfold step; rw [hp]⟩

/-! ### no wake-up without a notification -/

/-- Not notifying. -/
def quiet : PC → Bool
  | .idle | .own | .w1 | .w2 | .w3 => true
  | _ => false

theorem quiet_step {free : Bool} {s s' : St} {i : Nat} {a : Act} (hs : s.sema = 0) (hq : ∀ p ∈ s.pcs, quiet p = true)
    (ha : a ≠ .one ∧ a ≠ .all) (e : step free s i a = some s') : s'.sema = 0 ∧ ∀ p ∈ s'.pcs, quiet p = true := by
  have key : ∀ b, quiet b = true → ∀ p ∈ s.pcs.set i b, quiet p = true := by
    intro b hb p hp
    rcases List.mem_or_eq_of_mem_set hp with h | h
    · exact hq p h
    · rw [h]; exact hb
  cases hp : s.pcs[i]? with
  | none => unfold step at e; rw [hp] at e; cases a <;> cases e
  | some p =>
    have hqp := hq p (List.mem_of_getElem? hp)
    unfold step at e
    rw [hp] at e
    cases p <;> simp [quiet] at hqp <;> cases a <;> simp [hs] at e ha <;>
      first
      | (subst e; exact ⟨by first | exact hs | rfl, key _ rfl⟩)
      | (obtain ⟨_, e⟩ := e; subst e; exact ⟨by first | exact hs | rfl, key _ rfl⟩)

theorem quiet_run {free : Bool} (l : List (Nat × Act)) :
    ∀ {s t : St}, s.sema = 0 → (∀ p ∈ s.pcs, quiet p = true) → (∀ x ∈ l, x.2 ≠ .one ∧ x.2 ≠ .all) → run free s l = some t →
      t.sema = 0 ∧ ∀ p ∈ t.pcs, quiet p = true := by
  induction l with
  | nil =>
    intro s t hs hq _ e
    injection e with e
    subst e
    exact ⟨hs, hq⟩
  | cons x xs ih =>
    intro s t hs hq hx e
    obtain ⟨j, a⟩ := x
    rw [run] at e
    cases h1 : step free s j a with
    | none => rw [h1] at e; cases e
    | some s' =>
      rw [h1] at e
      obtain ⟨a1, a2⟩ := quiet_step hs hq (hx (j, a) (by simp)) h1
      exact ih a1 a2 (fun y hy => hx y (List.mem_cons_of_mem _ hy)) e

end Verif.CondVar
