import Verif.Proof.RegexChar

/-!
# C94 the character classes behind regular expressions on Windows
-/
set_option linter.unusedSimpArgs false
namespace Verif.Props.RegexChar
open Verif.RegexChar Verif.Spec.RegexChar

/-- C94: `is` with each of the masks of the library answers as the C locale does for ASCII, and "no" for
every other of the 2^32 characters; no character makes it read behind its table. -/
theorem C94_classes (c : BitVec 32) :
    is upper c = .ok (decide (Upper c.toNat)) ∧ is lower c = .ok (decide (Lower c.toNat)) ∧
      is digit c = .ok (decide (Digit c.toNat)) ∧ is punct c = .ok (decide (Punct c.toNat)) ∧
      is cntrl c = .ok (decide (Cntrl c.toNat)) ∧ is xdigit c = .ok (decide (Xdigit c.toNat)) ∧
      is space c = .ok (decide (Space c.toNat)) ∧ is print c = .ok (decide (Print c.toNat)) ∧
      is alpha c = .ok (decide (Alpha c.toNat)) ∧ is alnum c = .ok (decide (Alnum c.toNat)) := by
  refine ⟨?_, ?_, ?_, ?_, ?_, ?_, ?_, ?_, ?_, ?_⟩
  · exact is_class _ _ (fun n hn h => by simp only [Upper] at h; omega) (by decide +kernel) c
  · exact is_class _ _ (fun n hn h => by simp only [Lower] at h; omega) (by decide +kernel) c
  · exact is_class _ _ (fun n hn h => by simp only [Digit] at h; omega) (by decide +kernel) c
  · exact is_class _ _ (fun n hn h => by simp only [Punct, Print] at h; omega) (by decide +kernel) c
  · exact is_class _ _ (fun n hn h => by simp only [Cntrl] at h; omega) (by decide +kernel) c
  · exact is_class _ _ (fun n hn h => by simp only [Xdigit, Digit] at h; omega) (by decide +kernel) c
  · exact is_class _ _ (fun n hn h => by simp only [Space] at h; omega) (by decide +kernel) c
  · exact is_class _ _ (fun n hn h => by simp only [Print] at h; omega) (by decide +kernel) c
  · exact is_class _ _ (fun n hn h => by simp only [Alpha, Upper, Lower] at h; omega) (by decide +kernel) c
  · exact is_class _ _ (fun n hn h => by simp only [Alnum, Alpha, Upper, Lower, Digit] at h; omega)
      (by decide +kernel) c

/-- C94: the class names that mean what POSIX and ECMAScript say.  Missing for the full claim: `alpha`,
`alnum` and `w`, see the findings; `blank` and `graph`, whose masks the library does not define. -/
theorem C94_names_partial (blank graph : BitVec 16) (name : String) (m : BitVec 16)
    (h : (names blank graph).lookup name = some m) (c : BitVec 32) :
    (name = "cntrl" → is m c = .ok (decide (Cntrl c.toNat))) ∧ (name = "d" → is m c = .ok (decide (Digit c.toNat))) ∧
      (name = "digit" → is m c = .ok (decide (Digit c.toNat))) ∧ (name = "lower" → is m c = .ok (decide (Lower c.toNat))) ∧
      (name = "print" → is m c = .ok (decide (Print c.toNat))) ∧ (name = "punct" → is m c = .ok (decide (Punct c.toNat))) ∧
      (name = "space" → is m c = .ok (decide (Space c.toNat))) ∧ (name = "s" → is m c = .ok (decide (Space c.toNat))) ∧
      (name = "upper" → is m c = .ok (decide (Upper c.toNat))) ∧
      (name = "xdigit" → is m c = .ok (decide (Xdigit c.toNat))) := by
  obtain ⟨h1, h2, h3, h4, h5, h6, h7, h8, h9, h10⟩ := C94_classes c
  refine ⟨?_, ?_, ?_, ?_, ?_, ?_, ?_, ?_, ?_, ?_⟩ <;> rintro rfl <;> simp [names, List.lookup] at h <;> subst h <;> assumption

/-- C94: these names are known. -/
theorem C94_names_known (blank graph : BitVec 16) (name : String)
    (h : name ∈ ["alpha", "blank", "cntrl", "d", "digit", "graph", "lower", "print", "punct", "space", "s", "upper", "w",
      "xdigit"]) : ∃ m, (names blank graph).lookup name = some m := by
  simp only [List.mem_cons, List.not_mem_nil, or_false] at h
  rcases h with rfl | rfl | rfl | rfl | rfl | rfl | rfl | rfl | rfl | rfl | rfl | rfl | rfl | rfl <;>
    simp [names, List.lookup]

/-- C94, finding: `[[:alpha:]]` also matches digits. -/
theorem C94_finding_alpha (blank graph : BitVec 16) :
    ∃ m, (names blank graph).lookup "alpha" = some m ∧ ∀ c, is m c = .ok (decide (Alnum c.toNat)) :=
  ⟨alnum, rfl, fun c => (C94_classes c).2.2.2.2.2.2.2.2.2⟩

/-- C94, finding: `[[:alnum:]]` is not known. -/
theorem C94_finding_alnum (blank graph : BitVec 16) : (names blank graph).lookup "alnum" = none := by
  simp [names, List.lookup]

/-- C94, finding: `\w` matches every ASCII character, spaces, control characters and punctuation included. -/
theorem C94_finding_word (blank graph : BitVec 16) :
    ∃ m, (names blank graph).lookup "w" = some m ∧ ∀ c, is m c = .ok (decide (c.toNat < 128)) := by
  refine ⟨-1, by simp [names, List.lookup], fun c => ?_⟩
  exact is_class _ (fun n => n < 128) (fun n hn h => by omega) (by decide +kernel) c

/-- C94: the masks computed for an array say the same as `is` for each character below 256. -/
theorem C94_is_array (cs : List (BitVec 32)) :
    ∃ ts, isAll cs = .ok ts ∧ ts.length = cs.length ∧
      ∀ (i : Nat) (c : BitVec 32) (t m : BitVec 16), cs[i]? = some c → ts[i]? = some t → c.toNat < 256 →
        is m c = .ok (decide (t &&& m ≠ 0)) := by
  induction cs with
  | nil => exact ⟨[], rfl, rfl, by simp⟩
  | cons c cs ih =>
    obtain ⟨ts, e, hl, h⟩ := ih
    obtain ⟨t, ht⟩ := mask_total (narrow c 0)
    refine ⟨t :: ts, by rw [isAll, ht, e]; rfl, by simp [hl], ?_⟩
    intro i d u m hc hu hd
    cases i with
    | zero =>
      simp only [List.getElem?_cons_zero, Option.some.injEq] at hc hu
      subst hc hu
      have hn : narrow c 0 = c.setWidth 8 := by
        rw [narrow, if_pos]
        have := toInt_cases c
        left; omega
      rw [hn] at ht
      rw [is, if_neg (fun hh => absurd ((high_iff c).1 hh) (by omega)), ht]
      rfl
    | succ i => exact h i d u m (by simpa using hc) (by simpa using hu) hd

/-- C94, finding: for a character of 256 or more the array version says "control character", `is` says it is
nothing. -/
theorem C94_finding_is_array (c : BitVec 32) (h : 256 ≤ c.toNat) (h1 : c ≠ -1) :
    isAll [c] = .ok [cntrl] ∧ ∀ m, is m c = .ok false := by
  refine ⟨?_, fun m => is_high h⟩
  have hn : narrow c 0 = 0 := by
    rw [narrow, if_neg]
    have := toInt_cases c
    rintro (hh | hh)
    · omega
    · exact h1 hh
  simp only [isAll, hn]
  decide

/-- C94: `scan_is` stops at the first character of the class, or at the end. -/
theorem C94_scan_is (m : BitVec 16) (cs : List (BitVec 32)) : ∃ n, scanIs m cs = .ok n ∧ n ≤ cs.length ∧
    (∀ i c, i < n → cs[i]? = some c → is m c = .ok false) ∧ ∀ c, cs[n]? = some c → is m c = .ok true := scanIs_spec m cs

/-- C94: `scan_not` stops at the first character outside the class, or at the end. -/
theorem C94_scan_not (m : BitVec 16) (cs : List (BitVec 32)) : ∃ n, scanNot m cs = .ok n ∧ n ≤ cs.length ∧
    (∀ i c, i < n → cs[i]? = some c → is m c = .ok true) ∧ ∀ c, cs[n]? = some c → is m c = .ok false := scanNot_spec m cs

/-- C94: `tolower` and `toupper` move exactly the ASCII letters, by 32. -/
theorem C94_case (c : BitVec 32) :
    (tolower c).toNat = (if Upper c.toNat then c.toNat + 32 else c.toNat) ∧
      (toupper c).toNat = (if Lower c.toNat then c.toNat - 32 else c.toNat) := by
  have hc := toInt_cases c
  have h1 : (65 ≤ c.toInt ∧ c.toInt ≤ 90) ↔ Upper c.toNat := by unfold Upper; omega
  have h2 : (97 ≤ c.toInt ∧ c.toInt ≤ 122) ↔ Lower c.toNat := by unfold Lower; omega
  constructor
  · unfold tolower
    by_cases h : Upper c.toNat
    · rw [if_pos (h1.2 h), if_pos h, BitVec.toNat_add, BitVec.toNat_sub]
      unfold Upper at h
      simp only [BitVec.toNat_ofNat, BitVec.ofNat_eq_ofNat]
      omega
    · rw [if_neg (fun hh => h (h1.1 hh)), if_neg h]
  · unfold toupper
    by_cases h : Lower c.toNat
    · rw [if_pos (h2.2 h), if_pos h, BitVec.toNat_add, BitVec.toNat_sub]
      unfold Lower at h
      simp only [BitVec.toNat_ofNat, BitVec.ofNat_eq_ofNat]
      omega
    · rw [if_neg (fun hh => h (h2.1 hh)), if_neg h]

/-- C94: the array versions do this to every character. -/
theorem C94_case_array (cs : List (BitVec 32)) (i : Nat) (c : BitVec 32) (h : cs[i]? = some c) :
    (tolowerAll cs)[i]? = some (tolower c) ∧ (toupperAll cs)[i]? = some (toupper c) ∧
      (tolowerAll cs).length = cs.length ∧ (toupperAll cs).length = cs.length := by
  simp [tolowerAll, toupperAll, h]

/-- C94: `value` gives the value of a digit of the base and -1 for everything else. -/
theorem C94_value (ch : BitVec 32) (base : Nat) (hb : base = 8 ∨ base = 10 ∨ base = 16) :
    (∀ v, v < base → IsDigit ch.toNat v → value ch base = v) ∧
      ((∀ v, v < base → ¬IsDigit ch.toNat v) → value ch base = -1) := by
  have hc := toInt_cases ch
  constructor
  · intro v hv hd
    unfold IsDigit Digit at hd
    unfold value
    rcases hb with rfl | rfl | rfl <;> (repeat' split) <;> omega
  · intro h
    have hA : ∀ k, k < base → k < 10 → ch.toNat ≠ 48 + k := fun k hk h10 e =>
      h k hk (Or.inl ⟨⟨by omega, by omega⟩, by omega⟩)
    have hB : base = 16 → ¬(97 ≤ ch.toNat ∧ ch.toNat ≤ 102) := fun hb h' =>
      h (ch.toNat - 87) (by omega) (Or.inr (Or.inl ⟨h'.1, h'.2, rfl⟩))
    have hC : base = 16 → ¬(65 ≤ ch.toNat ∧ ch.toNat ≤ 70) := fun hb h' =>
      h (ch.toNat - 55) (by omega) (Or.inr (Or.inr ⟨h'.1, h'.2, rfl⟩))
    have hD : ¬(48 ≤ ch.toNat ∧ ch.toNat ≤ 55) := fun h' => hA (ch.toNat - 48) (by omega) (by omega) (by omega)
    have hE : base ≠ 8 → ¬(48 ≤ ch.toNat ∧ ch.toNat ≤ 57) := fun hb h' =>
      hA (ch.toNat - 48) (by omega) (by omega) (by omega)
    clear hA h
    unfold value
    rw [if_neg (by omega)]
    by_cases h16 : base = 16
    · rw [if_neg (by omega), if_neg (by have := hB h16; omega), if_neg (by have := hC h16; omega)]
    · rw [if_pos (by omega)]

/-- C94: `regex_local::in` is membership in an interval of ASCII characters, for every 32-bit character. -/
theorem C94_in (c : BitVec 32) (lo hi : BitVec 8) (hlo : lo.toNat < 128) (hhi : hi.toNat < 128) (h : lo.toNat ≤ hi.toNat) :
    inRange c lo hi = true ↔ lo.toNat ≤ c.toNat ∧ c.toNat ≤ hi.toNat := by
  have e : ∀ b : BitVec 8, b.toNat < 128 → (b.signExtend 32).toNat = b.toNat := by decide +kernel
  have := c.isLt
  rw [inRange, decide_eq_true_eq, BitVec.toNat_sub, BitVec.toNat_sub, e lo hlo, e hi hhi]
  omega

/-- C94: narrowing gives back every character below 256 as its byte; widening and narrowing is the identity
on ASCII and 0xFF. -/
theorem C94_narrow (c : BitVec 32) (b dflt : BitVec 8) :
    (c.toNat < 256 → (narrow c dflt).toNat = c.toNat) ∧ (b.toNat < 128 ∨ b.toNat = 255 → narrow (widen b) dflt = b) := by
  constructor
  · intro h
    rw [narrow, if_pos, BitVec.toNat_setWidth]
    · omega
    · have := toInt_cases c
      left; omega
  · intro h
    have e : ∀ b : BitVec 8, b.toNat < 128 ∨ b.toNat = 255 →
        ((0 ≤ (widen b).toInt ∧ (widen b).toInt < 256) ∨ widen b = -1) ∧ (widen b).setWidth 8 = b := by decide +kernel
    obtain ⟨h1, h2⟩ := e b h
    rw [narrow, if_pos h1, h2]

/-- C94, finding: the other bytes are lost, because `char` is signed. -/
theorem C94_finding_narrow (b dflt : BitVec 8) (h : 128 ≤ b.toNat) (h1 : b.toNat < 255) : narrow (widen b) dflt = dflt := by
  have e : ∀ b : BitVec 8, 128 ≤ b.toNat → b.toNat < 255 →
      ¬((0 ≤ (widen b).toInt ∧ (widen b).toInt < 256) ∨ widen b = -1) := by decide +kernel
  rw [narrow, if_neg (e b h h1)]

example : is upper 0x41 = .ok true ∧ is upper 0x61 = .ok false ∧ is digit 0x1F600 = .ok false := by decide
example : scanIs digit [0x61, 0x62, 0x37, 0x38] = .ok 2 := by decide
example : scanNot space [0x20, 0x09, 0x61] = .ok 2 := by decide
example : (256 : Nat) ≤ (0x3042 : BitVec 32).toNat ∧ (0x3042 : BitVec 32) ≠ -1 := by decide
example : value 0x66 16 = 15 ∧ value 0x38 8 = -1 ∧ value 0x39 10 = 9 := by decide
example : (names 0 0).lookup "space" = some space := by simp [names, List.lookup]
example : narrow (widen 0xE3) 0x3F = 0x3F := by decide

end Verif.Props.RegexChar

open Verif.Props.RegexChar in
#print axioms C94_classes
