/-! The five XML entities; legal names and attribute values. -/
namespace Verif.Spec.MiniXml

/-- The predefined entities and the characters they stand for: `&amp;`, `&lt;`, `&gt;`, `&apos;`, `&quot;`. -/
def entities : List (List UInt8 × UInt8) :=
  [([38, 97, 109, 112, 59], 38), ([38, 108, 116, 59], 60), ([38, 103, 116, 59], 62), ([38, 97, 112, 111, 115, 59], 39), ([38, 113, 117, 111, 116, 59], 34)]

/-- `Means text s`: the text, in which every & starts an entity, stands for `s`. -/
inductive Means : List UInt8 → List UInt8 → Prop where
  | nil : Means [] []
  | plain (c : UInt8) (t s : List UInt8) : c ≠ 38 → Means t s → Means (c :: t) (c :: s)
  | entity (e : List UInt8) (c : UInt8) (t s : List UInt8) : (e, c) ∈ entities → Means t s → Means (e ++ t) (c :: s)

/-- White space, '=' and quotes never occur in names. -/
def Separator (c : UInt8) : Prop := c ∈ [32, 9, 13, 10, 61, 34, 39]

/-- A legal element name: not empty, no separator, no '>', not starting with '/'. -/
def ElementName (n : List UInt8) : Prop := n ≠ [] ∧ (∀ c ∈ n, ¬ Separator c ∧ c ≠ 62) ∧ n.head? ≠ some 47

/-- A legal attribute name: not empty, no separator, not starting with '/' or '>'. -/
def AttrName (n : List UInt8) : Prop := n ≠ [] ∧ (∀ c ∈ n, ¬ Separator c) ∧ n.head? ≠ some 47 ∧ n.head? ≠ some 62

end Verif.Spec.MiniXml
