/-! The grammar of configuration files (the comment in config.hpp:72-82), and what a text means. -/
namespace Verif.Spec.Config

/-- The characters of names. -/
def NameChar (c : UInt8) : Prop :=
  (0x30 ≤ c.toNat ∧ c.toNat ≤ 0x39) ∨ (0x61 ≤ c.toNat ∧ c.toNat ≤ 0x7a) ∨ (0x41 ≤ c.toNat ∧ c.toNat ≤ 0x5a) ∨ c.toNat = 0x5f

/-- A name, possibly empty. -/
def Name (n : List UInt8) : Prop := ∀ c ∈ n, NameChar c

/-- What a line says. -/
inductive Item where
  | skip
  | section (name : List UInt8)
  | entry (key value : List UInt8)

/-- The lines of the grammar, without line end. -/
inductive Line : List UInt8 → Item → Prop where
  | empty : Line [] .skip
  | comment (c : UInt8) (text : List UInt8) : c = 0x3b ∨ c = 0x23 → Line (c :: text) .skip
  | section (name : List UInt8) : Name name → Line ([0x5b] ++ name ++ [0x5d]) (.section name)
  | entry (key sp value : List UInt8) : Name key → (∀ c ∈ sp, c = 0x20 ∨ c = 0x09) → Line (key ++ sp ++ [0x3d] ++ value) (.entry key value)

/-- The line end may be CR LF: one CR at the end is removed. -/
def chomp (l : List UInt8) : List UInt8 := if l.getLast? = some 0x0d then l.dropLast else l

/-- The lines of a text: separated by LF; nothing after the last LF is no line. -/
def linesFrom (cur : List UInt8) : List UInt8 → List (List UInt8)
  | [] => if cur = [] then [] else [cur]
  | c :: cs => if c = 0x0a then cur :: linesFrom [] cs else linesFrom (cur ++ [c]) cs

/-- The text consists of lines that say `items`. -/
inductive Says : List (List UInt8) → List Item → Prop where
  | nil : Says [] []
  | cons (l : List UInt8) (ls : List (List UInt8)) (i : Item) (is : List Item) : Line (chomp l) i → Says ls is → Says (l :: ls) (i :: is)

/-- The entries of a text (section, key, value); `sec` is the section in force. -/
def entries (sec : List UInt8) : List Item → List (List UInt8 × List UInt8 × List UInt8)
  | [] => []
  | .skip :: is => entries sec is
  | .section n :: is => entries n is
  | .entry k v :: is => (sec, k, v) :: entries sec is

/-- The sections of a text; the global section has the empty name. -/
def sections (items : List Item) : List (List UInt8) := [] :: items.filterMap fun | .section n => some n | _ => none

/-- No key is repeated in its section. -/
def NoRepeat (es : List (List UInt8 × List UInt8 × List UInt8)) : Prop := es.Pairwise fun a b => (a.1, a.2.1) ≠ (b.1, b.2.1)

end Verif.Spec.Config
