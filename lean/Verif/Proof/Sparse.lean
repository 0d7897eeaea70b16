import Verif.Model.Sparse
import Verif.Spec.Sparse
set_option linter.unusedSimpArgs false
/-! Lemmas for C51: the two tables. -/
namespace Verif.Sparse
open Verif.Spec.Sparse

/-- The laws of a position table: `Rep t ps` - the table holds the positions `ps`; `Ready t` - the end can be read;
`Iter ps i c` - the iterator stands at index `i`. -/
class Lawful (P : Type) extends PosTbl P where
  Rep : P → List Nat → Prop
  Ready : P → Prop
  Iter : List Nat → Nat → Curr → Prop
  accepts : List Nat → Nat → Prop
  empty_ok : Rep empty []
  set_ok : ∀ {t ps} (p : Nat), p < 2 ^ 64 → Rep t ps →
    ∃ b t', set t p = .ok (b, t') ∧ (accepts ps p ∧ b = false ∧ Rep t' (ps ++ [p]) ∨ ¬ accepts ps p ∧ b = true ∧ Rep t' ps)
  accepts_larger : ∀ {ps p}, accepts ps p → Larger ps p
  first_ok : ∀ {t ps}, Rep t ps → ps.length < 2 ^ 30 - 1 →
    ∃ t' c, first t = .ok (t', c) ∧ Rep t' ps ∧ Ready t' ∧ Iter ps 0 c
  get_ok : ∀ {t ps i c}, Rep t ps → Iter ps i c → (h : i < ps.length) → get t c = .ok ps[i]
  next_ok : ∀ {t ps i c}, Rep t ps → ps.length < 2 ^ 30 - 1 → Iter ps i c → i < ps.length → (i + 1 < ps.length ∨ Ready t) →
    ∃ c', next t c = .ok c' ∧ Iter ps (i + 1) c'
  vecPos_ok : ∀ {ps i c}, Iter ps i c → vecPos c = i ∧ i ≤ ps.length
  iter_push : ∀ {ps i c} (p : Nat), Iter ps i c → i < ps.length → Iter (ps ++ [p]) i c

/-! ## The plain table -/

theorem larger_append (ps : List Nat) (q p : Nat) : Larger (ps ++ [q]) p ↔ q < p := by
  simp [Larger]

theorem plain_set (t : PTbl) (ps : List Nat) (p : Nat) (ht : t.v = ps ∧ ∀ q ∈ ps, q < 2 ^ 32) :
    ∃ b t', t.set p = .ok (b, t') ∧
      (plainAccepts ps p ∧ b = false ∧ (t'.v = ps ++ [p] ∧ ∀ q ∈ ps ++ [p], q < 2 ^ 32) ∨
        ¬ plainAccepts ps p ∧ b = true ∧ (t'.v = ps ∧ ∀ q ∈ ps, q < 2 ^ 32)) := by
  obtain ⟨v⟩ := t
  obtain ⟨rfl, hq⟩ := ht
  simp only at hq
  have hbad : (if !v.isEmpty then do return decide (p ≤ (← at? v (v.length - 1))) else .ok false : Res Bool) =
      .ok (decide (¬ Larger v p)) := by
    rcases List.eq_nil_or_concat v with rfl | ⟨l, q, rfl⟩
    · simp [Larger]
    · rw [List.concat_eq_append, if_pos (by simp), at?_eq_ok (show (l ++ [q]).length - 1 < (l ++ [q]).length by simp)]
      simp only [Res.ok_bind, Res.pure_eq]
      congr 1
      rw [decide_eq_decide, larger_append]
      simp
  rw [PTbl.set]
  simp only [hbad, Res.ok_bind]
  by_cases hl : Larger v p
  · simp only [hl, not_true, decide_false, Bool.false_eq_true, if_false]
    by_cases h32 : p > 0xffffffff
    · rw [if_pos h32]
      exact ⟨true, ⟨v⟩, rfl, .inr ⟨fun h => by have := h.2; omega, rfl, rfl, hq⟩⟩
    · rw [if_neg h32]
      have hp : p % 2 ^ 32 = p := by omega
      refine ⟨false, ⟨v ++ [p % 2 ^ 32]⟩, rfl, .inl ⟨⟨hl, by omega⟩, rfl, by simp only; rw [hp], ?_⟩⟩
      intro q hq'
      rw [List.mem_append, List.mem_singleton] at hq'
      obtain hq' | rfl := hq'
      · exact hq q hq'
      · omega
  · simp only [hl, not_false_eq_true, decide_true, if_true]
    exact ⟨true, ⟨v⟩, rfl, .inr ⟨fun h => hl h.1, rfl, rfl, hq⟩⟩

instance : Lawful PTbl where
  Rep t ps := t.v = ps ∧ ∀ q ∈ ps, q < 2 ^ 32
  Ready _ := True
  Iter ps i c := c.vecPos = i ∧ i ≤ ps.length
  accepts := plainAccepts
  empty_ok := ⟨rfl, by simp⟩
  set_ok p _ h := plain_set _ _ p h
  accepts_larger h := h.1
  first_ok {t ps} h _ := ⟨t, ⟨0⟩, rfl, h, trivial, rfl, by omega⟩
  get_ok {t ps i c} h hi hl := by
    obtain ⟨rfl, _⟩ := h
    obtain ⟨rfl, _⟩ := hi
    exact at?_eq_ok hl
  next_ok {t ps i c} h hs hi hl _ := by
    refine ⟨⟨(c.vecPos + 1) % 2 ^ 64⟩, rfl, ?_, by omega⟩
    have := hi.1
    simp only
    omega
  vecPos_ok h := h
  iter_push p h hl := ⟨h.1, by simp; omega⟩

/-! ## The compressed table -/

theorem and63 (d : Nat) : d &&& 0x3f = d % 64 := Nat.and_two_pow_sub_one_eq_mod d 6

theorem or_tag (r k : Nat) (hr : r < 64) : r ||| (k <<< 6) = r + 64 * k := by
  rw [Nat.or_comm, ← Nat.shiftLeft_add_eq_or_of_lt (show r < 2 ^ 6 by omega), Nat.shiftLeft_eq]; omega

theorem or_tag' (r k n : Nat) (hr : r < 2 ^ n) : r ||| (k <<< n) = r + 2 ^ n * k := by
  rw [Nat.or_comm, ← Nat.shiftLeft_add_eq_or_of_lt hr, Nat.shiftLeft_eq, Nat.mul_comm]; omega

theorem bytes_eq (d : Nat) (hd : d < 2 ^ 30) : CTbl.bytes d =
    if d < 2 ^ 6 then [d]
    else if d < 2 ^ 14 then [d % 64 + 64, d / 64]
    else if d < 2 ^ 22 then [d % 64 + 128, d / 64 % 256, d / 2 ^ 14]
    else [d % 64 + 192, d / 64 % 256, d / 2 ^ 14 % 256, d / 2 ^ 22] := by
  have e1 : (d &&& 0x3f) % 256 = d % 64 := by rw [and63]; omega
  rw [CTbl.bytes]
  simp only [e1, or_tag _ _ (Nat.mod_lt d (by omega : 0 < 64)), Nat.shiftRight_eq_div_pow]
  rw [show 1 <<< 6 = 2 ^ 6 from rfl, show 1 <<< 14 = 2 ^ 14 from rfl, show 1 <<< 22 = 2 ^ 22 from rfl]
  split
  · rw [Nat.mod_eq_of_lt (by omega)]
  · split
    · rw [Nat.mod_eq_of_lt (show d / 2 ^ 6 < 256 by omega)]
    · split
      · rw [Nat.mod_eq_of_lt (show d / 2 ^ 14 < 256 by omega)]
      · rw [Nat.mod_eq_of_lt (show d / 2 ^ 22 < 256 by omega)]

theorem at_mid (a b c : List Nat) (j : Nat) (hj : j < b.length) (ha : a.length + j < 2 ^ 32) :
    at? (a ++ b ++ c) ((a.length + j) % 2 ^ 32) = .ok b[j] := by
  rw [Nat.mod_eq_of_lt ha, at?_eq_ok (show a.length + j < (a ++ b ++ c).length by simp; omega)]
  congr 1
  rw [List.getElem_append_left (by simp; omega), List.getElem_append_right (by omega)]
  simp

theorem setup_eq (t : CTbl) (curr : CCurr) (a rest : List Nat) (d : Nat) (hd : d < 2 ^ 30)
    (hv : t.v = a ++ CTbl.bytes d ++ rest) (hp : curr.pos = a.length) (hl : a.length + 4 < 2 ^ 32) :
    t.setup curr = .ok { curr with val := (curr.val + d) % 2 ^ 64, pos := curr.pos + (CTbl.bytes d).length } := by
  have hat : ∀ j, (h : j < (CTbl.bytes d).length) → j < 4 → at? t.v ((curr.pos + j) % 2 ^ 32) = .ok (CTbl.bytes d)[j] := by
    intro j h h4
    rw [hv, hp]
    exact at_mid a _ rest j h (by omega)
  have hz : curr.pos % 2 ^ 32 = curr.pos := by omega
  rw [CTbl.setup]
  by_cases h6 : d < 2 ^ 6
  · have eb : CTbl.bytes d = [d] := by rw [bytes_eq d hd, if_pos h6]
    have h0 := hat 0 (by rw [eb]; simp) (by omega)
    simp only [eb, List.getElem_cons_zero, Nat.add_zero, hz] at h0
    have hk : d >>> 6 = 0 := by rw [Nat.shiftRight_eq_div_pow]; omega
    simp only [h0, Res.ok_bind, hk, Nat.lt_irrefl, gt_iff_lt, if_false, Res.pure_eq, eb, List.length_singleton]
    congr 2; omega
  · by_cases h14 : d < 2 ^ 14
    · have eb : CTbl.bytes d = [d % 64 + 64, d / 64] := by rw [bytes_eq d hd, if_neg h6, if_pos h14]
      have h0 := hat 0 (by rw [eb]; simp) (by omega)
      have h1 := hat 1 (by rw [eb]; simp) (by omega)
      simp only [eb, List.getElem_cons_zero, List.getElem_cons_succ, Nat.add_zero, hz] at h0 h1
      have hk : (d % 64 + 64) >>> 6 = 1 := by rw [Nat.shiftRight_eq_div_pow]; omega
      have hm : (d % 64 + 64) &&& ((1 <<< 6) - 1) = d % 64 := by
        rw [show (1 <<< 6) - 1 = 0x3f from rfl, and63]; omega
      have hv' : d % 64 ||| (d / 64) <<< 6 = d := by rw [or_tag _ _ (by omega)]; omega
      simp only [h0, h1, Res.ok_bind, hk, hm, hv', gt_iff_lt, Nat.zero_lt_one, if_true, Res.pure_eq, eb, List.length_cons, List.length_nil]
      congr 2; omega
    · by_cases h22 : d < 2 ^ 22
      · have eb : CTbl.bytes d = [d % 64 + 128, d / 64 % 256, d / 2 ^ 14] := by
          rw [bytes_eq d hd, if_neg h6, if_neg h14, if_pos h22]
        have h0 := hat 0 (by rw [eb]; simp) (by omega)
        have h1 := hat 1 (by rw [eb]; simp) (by omega)
        have h2 := hat 2 (by rw [eb]; simp) (by omega)
        simp only [eb, List.getElem_cons_zero, List.getElem_cons_succ, Nat.add_zero, hz] at h0 h1 h2
        have hk : (d % 64 + 128) >>> 6 = 2 := by rw [Nat.shiftRight_eq_div_pow]; omega
        have hm : (d % 64 + 128) &&& ((1 <<< 6) - 1) = d % 64 := by
          rw [show (1 <<< 6) - 1 = 0x3f from rfl, and63]; omega
        have hv1 : (d / 64 % 256) <<< 6 ||| (d / 2 ^ 14) <<< 14 = (d / 64 % 256 + 256 * (d / 2 ^ 14)) <<< 6 := by
          rw [or_tag' _ _ 14 (by rw [Nat.shiftLeft_eq]; omega), Nat.shiftLeft_eq, Nat.shiftLeft_eq]; omega
        have hv' : d % 64 ||| (d / 64 % 256 + 256 * (d / 2 ^ 14)) <<< 6 = d := by rw [or_tag _ _ (by omega)]; omega
        simp only [h0, h1, h2, Res.ok_bind, hk, hm, hv1, hv', gt_iff_lt, show 0 < 2 by omega, show ¬ (2 = 1) by omega, if_true, if_false,
          Res.pure_eq, eb, List.length_cons, List.length_nil]
        congr 2; omega
      · have eb : CTbl.bytes d = [d % 64 + 192, d / 64 % 256, d / 2 ^ 14 % 256, d / 2 ^ 22] := by
          rw [bytes_eq d hd, if_neg h6, if_neg h14, if_neg h22]
        have h0 := hat 0 (by rw [eb]; simp) (by omega)
        have h1 := hat 1 (by rw [eb]; simp) (by omega)
        have h2 := hat 2 (by rw [eb]; simp) (by omega)
        have h3 := hat 3 (by rw [eb]; simp) (by omega)
        simp only [eb, List.getElem_cons_zero, List.getElem_cons_succ, Nat.add_zero, hz] at h0 h1 h2 h3
        have hk : (d % 64 + 192) >>> 6 = 3 := by rw [Nat.shiftRight_eq_div_pow]; omega
        have hm : (d % 64 + 192) &&& ((1 <<< 6) - 1) = d % 64 := by
          rw [show (1 <<< 6) - 1 = 0x3f from rfl, and63]; omega
        have hv1 : (d / 64 % 256) <<< 6 ||| (d / 2 ^ 14 % 256) <<< 14 = (d / 64 % 256) * 2 ^ 6 + 2 ^ 14 * (d / 2 ^ 14 % 256) := by
          rw [or_tag' _ _ 14 (by rw [Nat.shiftLeft_eq]; omega), Nat.shiftLeft_eq]
        have hv2 : (d / 64 % 256) * 2 ^ 6 + 2 ^ 14 * (d / 2 ^ 14 % 256) ||| (d / 2 ^ 22) <<< 22 =
            (d / 64 % 256 + 256 * (d / 2 ^ 14 % 256) + 65536 * (d / 2 ^ 22)) <<< 6 := by
          rw [or_tag' _ _ 22 (by omega), Nat.shiftLeft_eq]; omega
        have hv' : d % 64 ||| (d / 64 % 256 + 256 * (d / 2 ^ 14 % 256) + 65536 * (d / 2 ^ 22)) <<< 6 = d := by
          rw [or_tag _ _ (by omega)]; omega
        simp only [h0, h1, h2, h3, Res.ok_bind, hk, hm, hv1, hv2, hv', gt_iff_lt, show 0 < 3 by omega, show ¬ (3 = 1) by omega,
          show ¬ (3 = 2) by omega, if_true, if_false, Res.pure_eq, eb, List.length_cons, List.length_nil]
        congr 2; omega

theorem bytes_length (d : Nat) (hd : d < 2 ^ 30) : 1 ≤ (CTbl.bytes d).length ∧ (CTbl.bytes d).length ≤ 4 := by
  rw [bytes_eq d hd]
  split
  · simp
  · split
    · simp
    · split <;> simp

/-- The bytes of a list of positions behind `last`. -/
def enc : Nat → List Nat → List Nat
  | _, [] => []
  | last, p :: ps => CTbl.bytes (p - last) ++ enc p ps

/-- Each position is at most `2^30 - 1` behind the one before. -/
def Gaps : Nat → List Nat → Prop
  | _, [] => True
  | last, p :: ps => last ≤ p ∧ p - last < 2 ^ 30 ∧ p < 2 ^ 64 ∧ Gaps p ps

theorem enc_append (l : List Nat) (q : Nat) : ∀ last, enc last (l ++ [q]) = enc last l ++ CTbl.bytes (q - l.getLast?.getD last) := by
  induction l with
  | nil => intro last; simp [enc]
  | cons p l ih =>
    intro last
    rw [List.cons_append, enc, ih, enc, List.append_assoc]
    rw [List.getLast?_cons, Option.getD_some]

theorem gaps_append (l : List Nat) (q : Nat) : ∀ last, Gaps last (l ++ [q]) ↔
    Gaps last l ∧ l.getLast?.getD last ≤ q ∧ q - l.getLast?.getD last < 2 ^ 30 ∧ q < 2 ^ 64 := by
  induction l with
  | nil => intro last; simp [Gaps]
  | cons p l ih =>
    intro last
    have e : (p :: l).getLast?.getD last = l.getLast?.getD p := by
      rw [List.getLast?_cons, Option.getD_some]
    rw [List.cons_append, Gaps, ih, Gaps, e]
    constructor
    · rintro ⟨h1, h2, h3, h4, h5⟩; exact ⟨⟨h1, h2, h3, h4⟩, h5⟩
    · rintro ⟨⟨h1, h2, h3, h4⟩, h5⟩; exact ⟨h1, h2, h3, h4, h5⟩

theorem enc_length (l : List Nat) : ∀ last, Gaps last l → l.length ≤ (enc last l).length ∧ (enc last l).length ≤ 4 * l.length := by
  induction l with
  | nil => intro last _; simp [enc]
  | cons p l ih =>
    intro last h
    have h1 := bytes_length (p - last) h.2.1
    have h2 := ih p h.2.2.2
    rw [enc, List.length_append, List.length_cons]
    omega

/-- The bytes of the list up to index `i`, those of element `i`, the rest. -/
theorem enc_split (ps : List Nat) : ∀ (last i : Nat) (hi : i < ps.length), Gaps last ps →
    ∃ prev rest, enc last ps = enc last (ps.take i) ++ CTbl.bytes (ps[i] - prev) ++ rest ∧ prev ≤ ps[i] ∧ ps[i] - prev < 2 ^ 30 ∧
      ps[i] < 2 ^ 64 ∧ enc last (ps.take (i + 1)) = enc last (ps.take i) ++ CTbl.bytes (ps[i] - prev) ∧
      (∀ h : 0 < i, prev = ps[i - 1]) ∧ (i = 0 → prev = last) := by
  induction ps with
  | nil => intro last i hi; simp at hi
  | cons p ps ih =>
    intro last i hi hg
    cases i with
    | zero =>
      refine ⟨last, enc p ps, by simp [enc], hg.1, hg.2.1, hg.2.2.1, by simp [enc], by simp, by simp⟩
    | succ i =>
      obtain ⟨prev, rest, e1, h1, h2, h3, e2, h4, h5⟩ := ih p i (by simpa using hi) hg.2.2.2
      refine ⟨prev, rest, ?_, by simpa using h1, by simpa using h2, by simpa using h3, ?_, ?_, by simp⟩
      · simp only [enc, List.take_succ_cons, List.getElem_cons_succ, e1, List.append_assoc]
      · simp only [enc, List.take_succ_cons, List.getElem_cons_succ, e2, List.append_assoc]
      · intro _
        cases i with
        | zero => simpa using h5 rfl
        | succ i => simpa using h4 (by omega)

def CRep (t : CTbl) (ps : List Nat) : Prop :=
  t.v = enc 0 ps ++ (if t.addDummy then [0] else []) ∧ t.lastPos = ps.getLast?.getD 0 ∧ Gaps 0 ps

def CIter (ps : List Nat) (i : Nat) (c : CCurr) : Prop :=
  c.vecPos = i ∧ i ≤ ps.length ∧ ∀ h : i < ps.length, c.val = ps[i] ∧ c.pos = (enc 0 (ps.take (i + 1))).length

theorem last_lt (ps : List Nat) (h : Gaps 0 ps) : ps.getLast?.getD 0 < 2 ^ 64 := by
  rcases List.eq_nil_or_concat ps with rfl | ⟨l, q, rfl⟩
  · simp
  · rw [List.concat_eq_append, gaps_append] at h
    simpa using h.2.2.2

theorem comp_set (t : CTbl) (ps : List Nat) (p : Nat) (hp : p < 2 ^ 64) (ht : CRep t ps) :
    ∃ b t', t.set p = (b, t') ∧ t'.addDummy = false ∧
      (compressedAccepts ps p ∧ b = false ∧ CRep t' (ps ++ [p]) ∨ ¬ compressedAccepts ps p ∧ b = true ∧ CRep t' ps) := by
  obtain ⟨hv, hlast, hg⟩ := ht
  have hl64 := last_lt ps hg
  have hdrop : (if t.addDummy then { t with v := t.v.take (t.v.length - 1), addDummy := false } else t) = ⟨enc 0 ps, ps.getLast?.getD 0, false⟩ := by
    obtain ⟨v, l, b⟩ := t
    simp only at hv hlast
    cases b
    · simp only [Bool.false_eq_true, if_false, List.append_nil] at hv
      simp [hv, hlast]
    · simp only [if_true] at hv
      simp [hv, hlast]
  rw [CTbl.set]
  simp only [hdrop]
  have hne : (!(enc 0 ps).isEmpty) = true ↔ ps ≠ [] := by
    have := enc_length ps 0 hg
    cases ps with
    | nil => simp [enc]
    | cons a l =>
      cases he : enc 0 (a :: l) with
      | nil => rw [he] at this; simp at this
      | cons b l => simp
  have hlarger : Larger ps p ↔ ¬ (ps ≠ [] ∧ p ≤ ps.getLast?.getD 0) := by
    rcases List.eq_nil_or_concat ps with rfl | ⟨l, q, rfl⟩
    · simp [Larger]
    · rw [List.concat_eq_append, larger_append]; simp
  have hle : Larger ps p → ps.getLast?.getD 0 ≤ p := by
    intro h
    rcases List.eq_nil_or_concat ps with rfl | ⟨l, q, rfl⟩
    · simp
    · rw [List.concat_eq_append, larger_append] at h; simp; omega
  by_cases hL : Larger ps p
  · rw [if_neg (by rw [hne]; exact hlarger.1 hL)]
    have hle := hle hL
    have hsub : (p + 2 ^ 64 - ps.getLast?.getD 0) % 2 ^ 64 = p - ps.getLast?.getD 0 := by omega
    rw [hsub]
    by_cases h30 : p - ps.getLast?.getD 0 ≥ 1 <<< 30
    · rw [if_pos h30]
      refine ⟨true, _, rfl, rfl, .inr ⟨fun h => ?_, rfl, by simp [CRep], rfl, hg⟩⟩
      have := h.2
      rw [show 1 <<< 30 = 2 ^ 30 from rfl] at h30
      omega
    · rw [if_neg h30]
      rw [show 1 <<< 30 = 2 ^ 30 from rfl] at h30
      refine ⟨false, _, rfl, rfl, .inl ⟨⟨hL, by omega⟩, rfl, ?_, ?_, ?_⟩⟩
      · simp only [Bool.false_eq_true, if_false, List.append_nil]
        rw [enc_append, Nat.mod_eq_of_lt (show p - ps.getLast?.getD 0 < 2 ^ 32 by omega)]
      · simp
      · rw [gaps_append]; exact ⟨hg, hle, by omega, hp⟩
  · rw [if_pos (by rw [hne]; exact Decidable.not_not.1 (fun h => hL (hlarger.2 h)))]
    exact ⟨true, _, rfl, rfl, .inr ⟨fun h => hL h.1, rfl, by simp [CRep], rfl, hg⟩⟩

theorem comp_first (t : CTbl) (ps : List Nat) (ht : CRep t ps) (hs : ps.length < 2 ^ 30 - 1) :
    ∃ t' c, t.first = .ok (t', c) ∧ CRep t' ps ∧ t'.addDummy = true ∧ CIter ps 0 c := by
  obtain ⟨hv, hlast, hg⟩ := ht
  have hd : (if !t.addDummy then { t with v := t.v ++ [0], addDummy := true } else t) = ⟨enc 0 ps ++ [0], t.lastPos, true⟩ := by
    obtain ⟨v, l, b⟩ := t
    simp only at hv
    cases b
    · simp only [Bool.false_eq_true, if_false, List.append_nil] at hv
      simp [hv]
    · simp only [if_true] at hv
      simp [hv]
  rw [CTbl.first]
  simp only [hd]
  have hrep : CRep ⟨enc 0 ps ++ [0], t.lastPos, true⟩ ps := ⟨by simp, hlast, hg⟩
  cases ps with
  | nil =>
    have hb : CTbl.bytes 0 = [0] := by decide
    rw [setup_eq _ ⟨0, 0, 0⟩ [] [] 0 (by omega) (by simp [enc, hb]) rfl (by simp)]
    exact ⟨_, _, rfl, hrep, rfl, rfl, by simp, by simp⟩
  | cons p ps =>
    have h30 : p < 2 ^ 30 := by simpa using hg.2.1
    rw [setup_eq _ ⟨0, 0, 0⟩ [] (enc p ps ++ [0]) p h30 (by simp [enc]) rfl (by simp)]
    refine ⟨_, _, rfl, hrep, rfl, rfl, by simp, fun _ => ⟨?_, ?_⟩⟩
    · simp only [Nat.zero_add, List.getElem_cons_zero]
      exact Nat.mod_eq_of_lt hg.2.2.1
    · simp [enc]

theorem comp_next (t : CTbl) (ps : List Nat) (i : Nat) (c : CCurr) (ht : CRep t ps) (hs : ps.length < 2 ^ 30 - 1)
    (hc : CIter ps i c) (hi : i < ps.length) (hr : i + 1 < ps.length ∨ t.addDummy = true) :
    ∃ c', t.next c = .ok c' ∧ CIter ps (i + 1) c' := by
  obtain ⟨hv, hlast, hg⟩ := ht
  obtain ⟨h1, h2, h3⟩ := hc
  obtain ⟨hval, hpos⟩ := h3 hi
  have hlen := enc_length ps 0 hg
  rw [CTbl.next]
  by_cases hlt : i + 1 < ps.length
  · obtain ⟨prev, rest, e1, g1, g2, g3, e2, g4, _⟩ := enc_split ps 0 (i + 1) hlt hg
    have hprev : prev = ps[i] := by simpa using g4 (by omega)
    subst hprev
    have hla : (enc 0 (List.take (i + 1) ps)).length + 4 < 2 ^ 32 := by
      have : (enc 0 (ps.take (i + 1))).length ≤ (enc 0 ps).length := by rw [e1]; simp
      omega
    rw [setup_eq t c (enc 0 (ps.take (i + 1))) (rest ++ (if t.addDummy then [0] else [])) (ps[i + 1] - ps[i]) g2
      (by rw [hv, e1]; simp) hpos hla]
    refine ⟨_, rfl, ?_, by omega, fun _ => ⟨?_, ?_⟩⟩
    · simp only; omega
    · simp only [hval]; omega
    · simp only [hpos, e2, List.length_append]
  · have hd : t.addDummy = true := by
      obtain h | h := hr
      · exact absurd h hlt
      · exact h
    have htake : ps.take (i + 1) = ps := List.take_of_length_le (by omega)
    rw [htake] at hpos
    have hb : CTbl.bytes 0 = [0] := by decide
    rw [setup_eq t c (enc 0 ps) [] 0 (by omega) (by rw [hv, hd, hb]; simp) hpos (by omega)]
    refine ⟨_, rfl, ?_, by omega, fun h => by omega⟩
    simp only; omega

instance : Lawful CTbl where
  Rep := CRep
  Ready t := t.addDummy = true
  Iter := CIter
  accepts := compressedAccepts
  empty_ok := ⟨by simp [enc, PosTbl.empty, CTbl.empty], rfl, trivial⟩
  set_ok {t ps} p hp h := by
    obtain ⟨b, t', e, _, h⟩ := comp_set t ps p hp h
    exact ⟨b, t', by simp only [PosTbl.set, e], h⟩
  accepts_larger h := h.1
  first_ok h hs := comp_first _ _ h hs
  get_ok {t ps i c} _ hi hl := by
    simp only [PosTbl.get]
    rw [(hi.2.2 hl).1]
  next_ok h hs hi hl hr := comp_next _ _ _ _ h hs hi hl hr
  vecPos_ok h := ⟨h.1, h.2.1⟩
  iter_push {ps i c} p h hl := by
    refine ⟨h.1, by simp; omega, fun _ => ?_⟩
    obtain ⟨h1, h2⟩ := h.2.2 hl
    rw [List.getElem_append_left hl, List.take_append_of_le_length (by omega)]
    exact ⟨h1, h2⟩

end Verif.Sparse
