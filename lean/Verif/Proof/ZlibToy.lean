import Verif.Proof.Zlib
set_option linter.unusedSimpArgs false

/-! A small codec that keeps the promises of `Spec/Zlib`: a byte `b` is written as `1 b`, the end as `0`.  It shows that
the hypotheses of C67 can be met. -/
namespace Verif.Zlib.Toy
open Verif.Zlib Verif.Spec.Zlib

def enc (x : List UInt8) : List UInt8 := x.flatMap fun b => [1, b]

def Enc (x z : List UInt8) : Prop := z = enc x ++ [0]

theorem enc_append (a b : List UInt8) : enc (a ++ b) = enc a ++ enc b := by simp [enc]

theorem enc_length (a : List UInt8) : (enc a).length = 2 * a.length := by
  induction a with
  | nil => rfl
  | cons b a ih => simp only [enc, List.flatMap_cons, List.length_append, List.length_cons, List.length_nil] at ih ⊢; omega

/-- Pending output and phase. -/
structure DSt where
  pend : List UInt8
  phase : Phase

def deflate (s : DSt) (i : List UInt8) (room : Nat) (fin : Bool) : Out DSt :=
  if s.phase = .ended then ⟨.error, 0, [], s⟩
  else
    let p := s.pend ++ enc i ++ (if fin ∧ s.phase = .filling then [0] else [])
    if (fin ∨ s.phase = .finishing) ∧ p.drop room = [] then ⟨.streamEnd, i.length, p.take room, ⟨[], .ended⟩⟩
    else ⟨.ok, i.length, p.take room, ⟨p.drop room, if fin then .finishing else s.phase⟩⟩

def D : Deflater := ⟨DSt, ⟨[], .filling⟩, deflate, fun c b => c + b.length⟩

def deflates : Deflates D Enc where
  Inv := fun s x y p => s.phase = p ∧ y ++ s.pend = enc x ++ (if p = .filling then [] else [0]) ∧
    (p = .ended → s.pend = []) ∧ (p = .finishing → s.pend ≠ [])
  bound := fun n => 2 * n + 1
  init := ⟨rfl, rfl, fun e => (by cases e), fun e => (by cases e)⟩
  bounded := by
    rintro s x y p ⟨-, h, -, -⟩
    have := congrArg List.length h
    rw [List.length_append, List.length_append, enc_length] at this
    split at this <;> simp at this <;> omega
  feed := by
    rintro ⟨pend, ph⟩ x y i room ⟨h1, h2, h3, h4⟩ hi hr
    dsimp only at h1 h2 h3 h4
    subst h1
    have e : deflate ⟨pend, .filling⟩ i room false = ⟨.ok, i.length, (pend ++ enc i).take room, ⟨(pend ++ enc i).drop room, .filling⟩⟩ := by
      simp [deflate]
    show (deflate ⟨pend, .filling⟩ i room false).ret = _ ∧ (deflate ⟨pend, .filling⟩ i room false).used ≤ _ ∧
      (0 < (deflate ⟨pend, .filling⟩ i room false).used ∨ _) ∧ _
    rw [e]
    refine ⟨rfl, Nat.le_refl _, Or.inl (List.length_pos_iff.2 hi), ?_⟩
    have e' : D.deflate ⟨pend, .filling⟩ i room false = ⟨.ok, i.length, (pend ++ enc i).take room, ⟨(pend ++ enc i).drop room, .filling⟩⟩ := e
    rw [e']
    refine ⟨rfl, ?_, fun e => (by cases e), fun e => (by cases e)⟩
    dsimp only
    simp only [if_true, List.append_nil] at h2 ⊢
    rw [List.append_assoc, List.take_append_drop, ← List.append_assoc, h2, List.take_length, enc_append]
  finish := by
    rintro ⟨pend, ph⟩ x y p room ⟨h1, h2, h3, h4⟩ hp hr
    dsimp only at h1 h2 h3 h4
    subst h1
    have hne : pend ++ (if ph = .filling then [0] else []) ≠ [] := by
      cases ph with
      | filling => simp
      | finishing => simpa using h4 rfl
      | ended => exact absurd rfl hp
    have hq : y ++ (pend ++ (if ph = .filling then [0] else [])) = enc x ++ [0] := by
      cases ph with
      | filling => simp at h2 ⊢; rw [← List.append_assoc, h2]
      | finishing => simpa using h2
      | ended => exact absurd rfl hp
    generalize hqd : pend ++ (if ph = .filling then [0] else []) = q at hne hq
    have e : D.deflate ⟨pend, ph⟩ [] room true = if q.drop room = [] then ⟨.streamEnd, 0, q.take room, ⟨[], .ended⟩⟩ else
        ⟨.ok, 0, q.take room, ⟨q.drop room, .finishing⟩⟩ := by
      show deflate ⟨pend, ph⟩ [] room true = _
      simp only [deflate, if_neg hp, enc, List.flatMap_nil, List.append_nil, true_and, true_or, if_true, hqd, List.length_nil]
      rfl
    rw [e]
    by_cases hd : q.drop room = []
    · rw [if_pos hd]
      refine Or.inr ⟨rfl, rfl, ?_, fun _ => rfl, fun e => (by cases e)⟩
      have : q.take room = q := by
        have := List.take_append_drop room q
        rw [hd, List.append_nil] at this
        exact this
      simp [this, hq]
    · rw [if_neg hd]
      refine Or.inl ⟨rfl, ?_, rfl, ?_, fun e => (by cases e), fun _ => hd⟩
      · intro h0
        have h0 := congrArg List.length h0
        have : 0 < q.length := List.length_pos_iff.2 hne
        simp only [List.length_take, List.length_nil] at h0
        omega
      · simp only [List.append_assoc, List.take_append_drop, hq]
        simp
  ended := by
    rintro ⟨pend, ph⟩ x y ⟨-, h2, h3, -⟩
    have h := h3 rfl
    dsimp only at h h2
    rw [h] at h2
    simpa [Enc] using h2
  late := by
    rintro ⟨pend, ph⟩ x y i room ⟨h1, -, -, -⟩ hi
    dsimp only at h1
    subst h1
    rfl
  crc_append := by intro c a b; simp [D]; omega

inductive Mode where
  | tag | byte | done

def inflate (s : Mode) (i : List UInt8) (_room : Nat) : Out Mode :=
  match s, i with
  | .done, _ => ⟨.streamEnd, 0, [], .done⟩
  | _, [] => ⟨.error, 0, [], s⟩
  | .tag, b :: _ => if b = 0 then ⟨.streamEnd, 1, [], .done⟩ else ⟨.ok, 1, [], .byte⟩
  | .byte, b :: _ => ⟨.ok, 1, [b], .tag⟩

def I : Inflater := ⟨Mode, .tag, inflate⟩

theorem head_agree {c i z r : List UInt8} {b t : UInt8} (h : c ++ b :: i <+: z ∨ z <+: c ++ b :: i) (hz : z = c ++ t :: r) : b = t := by
  subst hz
  obtain ⟨u, hu⟩ | ⟨u, hu⟩ := h
  · rw [List.append_assoc] at hu
    have := List.append_cancel_left hu
    simp at this; exact this.1
  · rw [List.append_assoc] at hu
    have := List.append_cancel_left hu
    simp at this; exact this.1.symm

def inflates : Inflates I Enc where
  Inv := fun z x s c o b => z = enc x ++ [0] ∧ match s with
    | .tag => b = false ∧ c = enc o ∧ o <+: x
    | .byte => b = false ∧ c = enc o ++ [1] ∧ ∃ a r, x = o ++ a :: r
    | .done => b = true ∧ c = z ∧ o = x
  init := fun h => ⟨h, rfl, rfl, List.nil_prefix⟩
  prefixes := by
    rintro z x s c o b ⟨hz, h⟩
    cases s with
    | tag =>
      obtain ⟨-, rfl, t, rfl⟩ := h
      exact ⟨⟨enc t ++ [0], by rw [hz, enc_append, List.append_assoc]⟩, t, rfl⟩
    | byte =>
      obtain ⟨-, rfl, a, r, rfl⟩ := h
      exact ⟨⟨a :: enc r ++ [0], by rw [hz, enc_append]; simp [enc]⟩, a :: r, rfl⟩
    | done => obtain ⟨-, rfl, rfl⟩ := h; exact ⟨List.prefix_rfl, List.prefix_rfl⟩
  step := by
    rintro z x s c o i room ⟨hz, h⟩ ha hr
    cases s with
    | done => exact absurd h.1 (by simp)
    | tag =>
      obtain ⟨-, rfl, t, rfl⟩ := h
      cases i with
      | nil =>
        refine ⟨Nat.le_refl _, Nat.zero_le _, Or.inr (Or.inr ⟨rfl, rfl, ?_⟩)⟩
        intro e
        have := congrArg List.length (e.trans hz)
        simp only [List.length_append, enc_length, List.length_singleton] at this
        omega
      | cons b i =>
        cases t with
        | nil =>
          have hb : b = 0 := head_agree (r := []) ha (by rw [hz]; simp)
          subst hb
          exact ⟨by simp [I, inflate], by simp [I, inflate], Or.inr (Or.inl ⟨rfl, hz, rfl, by
            simp [I, inflate, hz], by simp [I, inflate]⟩)⟩
        | cons a t =>
          have hb : b = 1 := head_agree (r := a :: enc t ++ [0]) ha (by rw [hz, enc_append]; simp [enc])
          subst hb
          have e : I.inflate Mode.tag (1 :: i) room = ⟨.ok, 1, [], .byte⟩ := by simp [I, inflate]
          rw [e]
          exact ⟨by simp, by simp, Or.inl ⟨rfl, Or.inl Nat.one_pos, hz, rfl, by simp, a, t, by simp⟩⟩
    | byte =>
      obtain ⟨-, rfl, a, r, rfl⟩ := h
      cases i with
      | nil =>
        refine ⟨Nat.le_refl _, Nat.zero_le _, Or.inr (Or.inr ⟨rfl, rfl, ?_⟩)⟩
        intro e
        have := congrArg List.length (e.trans hz)
        simp only [List.length_append, enc_length, List.length_singleton, List.length_cons] at this
        omega
      | cons b i =>
        have hb : b = a := head_agree (r := enc r ++ [0]) ha (by rw [hz, enc_append]; simp [enc])
        subst hb
        have e : I.inflate Mode.byte (b :: i) room = ⟨.ok, 1, [b], .tag⟩ := by simp [I, inflate]
        rw [e]
        exact ⟨by simp, Nat.succ_le_of_lt hr, Or.inl ⟨rfl, Or.inl Nat.one_pos, hz, rfl, by simp [enc], ⟨r, by simp⟩⟩⟩
  ended := by
    rintro z x s c o ⟨hz, h⟩
    cases s with
    | tag => cases h.1
    | byte => cases h.1
    | done => exact h.2
  again := by
    rintro z x s c o i room ⟨hz, h⟩
    cases s with
    | tag => cases h.1
    | byte => cases h.1
    | done => exact ⟨rfl, rfl, hz, h⟩

end Verif.Zlib.Toy
