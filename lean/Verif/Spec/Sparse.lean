/-!
# Specification of sparse vectors

A sparse vector is the list of its `(position, value)` pairs.
-/
namespace Verif.Spec.Sparse

/-- The position is larger than the last one. -/
def Larger (ps : List Nat) (p : Nat) : Prop := ∀ q, ps.getLast? = some q → q < p

instance (ps : List Nat) (p : Nat) : Decidable (Larger ps p) :=
  match h : ps.getLast? with
  | none => isTrue (fun q hq => by rw [h] at hq; simp at hq)
  | some q => if hq : q < p then isTrue (fun r hr => by rw [h] at hr; simp at hr; omega)
    else isFalse (fun hl => hq (hl q h))

/-- What the plain table takes: an ascending position that fits 32 bits. -/
def plainAccepts (ps : List Nat) (p : Nat) : Prop := Larger ps p ∧ p < 2 ^ 32

/-- What the compressed table takes: an ascending position less than `2^30` behind the last one (behind 0 for the
first). -/
def compressedAccepts (ps : List Nat) (p : Nat) : Prop := Larger ps p ∧ p < ps.getLast?.getD 0 + 2 ^ 30

instance (ps : List Nat) (p : Nat) : Decidable (plainAccepts ps p) := inferInstanceAs (Decidable (_ ∧ _))
instance (ps : List Nat) (p : Nat) : Decidable (compressedAccepts ps p) := inferInstanceAs (Decidable (_ ∧ _))

/-- What a user does with a vector. -/
inductive Op (T : Type) where
  | push (pos : Nat) (x : T)
  | iterate
  | clear

/-- What the user sees. -/
inductive Ev (T : Type) where
  | pushed
  | threw
  | listed (l : List (Nat × T))
  | cleared
  deriving DecidableEq

/-- One operation on the list of pairs. -/
def step {T : Type} (accepts : List Nat → Nat → Prop) [∀ ps p, Decidable (accepts ps p)] (l : List (Nat × T)) :
    Op T → Ev T × List (Nat × T)
  | .push p x => if accepts (l.map Prod.fst) p then (.pushed, l ++ [(p, x)]) else (.threw, l)
  | .iterate => (.listed l, l)
  | .clear => (.cleared, [])

/-- A history. -/
def run {T : Type} (accepts : List Nat → Nat → Prop) [∀ ps p, Decidable (accepts ps p)] :
    List (Nat × T) → List (Op T) → List (Ev T) × List (Nat × T)
  | l, [] => ([], l)
  | l, op :: ops =>
    let (e, l) := step accepts l op
    let (es, l) := run accepts l ops
    (e :: es, l)

/-- The value at a position, 0 where there is none. -/
def dense {T : Type} [Zero T] (l : List (Nat × T)) (p : Nat) : T :=
  match l.find? (fun e => e.1 == p) with
  | some e => e.2
  | none => 0

/-- Strictly ascending positions. -/
def Ascending {A : Type} (l : List (Nat × A)) : Prop := l.Pairwise (fun a b => a.1 < b.1)

end Verif.Spec.Sparse
