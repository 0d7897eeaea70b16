/-!
# The character classes of the C locale, as sets of character codes
-/
namespace Verif.Spec.RegexChar

def Upper (n : Nat) : Prop := 65 ≤ n ∧ n ≤ 90
def Lower (n : Nat) : Prop := 97 ≤ n ∧ n ≤ 122
def Digit (n : Nat) : Prop := 48 ≤ n ∧ n ≤ 57
def Alpha (n : Nat) : Prop := Upper n ∨ Lower n
def Alnum (n : Nat) : Prop := Alpha n ∨ Digit n
def Xdigit (n : Nat) : Prop := Digit n ∨ (65 ≤ n ∧ n ≤ 70) ∨ (97 ≤ n ∧ n ≤ 102)
def Cntrl (n : Nat) : Prop := n < 32 ∨ n = 127
def Print (n : Nat) : Prop := 32 ≤ n ∧ n ≤ 126
def Space (n : Nat) : Prop := n = 32 ∨ (9 ≤ n ∧ n ≤ 13)
def Punct (n : Nat) : Prop := Print n ∧ n ≠ 32 ∧ ¬Alnum n
/-- What `\w` stands for in ECMAScript. -/
def Word (n : Nat) : Prop := Alnum n ∨ n = 95

instance : DecidablePred Upper := fun _ => by unfold Upper; infer_instance
instance : DecidablePred Lower := fun _ => by unfold Lower; infer_instance
instance : DecidablePred Digit := fun _ => by unfold Digit; infer_instance
instance : DecidablePred Alpha := fun _ => by unfold Alpha; infer_instance
instance : DecidablePred Alnum := fun _ => by unfold Alnum; infer_instance
instance : DecidablePred Xdigit := fun _ => by unfold Xdigit; infer_instance
instance : DecidablePred Cntrl := fun _ => by unfold Cntrl; infer_instance
instance : DecidablePred Print := fun _ => by unfold Print; infer_instance
instance : DecidablePred Space := fun _ => by unfold Space; infer_instance
instance : DecidablePred Punct := fun _ => by unfold Punct; infer_instance
instance : DecidablePred Word := fun _ => by unfold Word; infer_instance

/-- The character is the digit of value `v` (in any base up to 16). -/
def IsDigit (n v : Nat) : Prop :=
  (Digit n ∧ v = n - 48) ∨ (97 ≤ n ∧ n ≤ 102 ∧ v = n - 87) ∨ (65 ≤ n ∧ n ≤ 70 ∧ v = n - 55)

end Verif.Spec.RegexChar
