import Verif.Spec.Sha1Text
import Verif.Props.Sha
import Verif.Props.Endian

set_option linter.unusedSimpArgs false

/-!
# C142: the printed hash of `Sha1`
-/
namespace Verif.Props.Sha1Text
open Verif.Sha1Text Verif.Sha1TextSpec Verif.Sha Verif.Spec.Sha Verif.Endian Verif.Spec.Endian Verif.Props.Sha Verif.Props.Endian

theorem digitX_eq : ∀ d, d < 16 → digitX d = hexDigits.getD d 0 := by
  have h : ∀ d : Fin 16, digitX d.val = hexDigits.getD d.val 0 := by decide +kernel
  intro d hd; exact h ⟨d, hd⟩

/-- The digits written with leading zeros. -/
def fixed : Nat → Nat → List UInt8
  | 0, _ => []
  | n + 1, x => fixed n (x / 16) ++ [digitX (x % 16)]

theorem fixed_length (n x : Nat) : (fixed n x).length = n := by
  induction n generalizing x with
  | zero => rfl
  | succ n ih => simp [fixed, ih]

theorem fixed_zero (n : Nat) : fixed n 0 = List.replicate n 48 := by
  induction n with
  | zero => rfl
  | succ n ih => rw [fixed, Nat.zero_div, ih, List.replicate_succ']; rfl

theorem digitsX_len (n x : Nat) : (digitsX n x).length ≤ n := by
  induction n generalizing x with
  | zero => simp [digitsX]
  | succ n ih =>
    rw [digitsX]
    split
    · simp
    · have := ih (x / 16)
      simp; exact this

/-- Filling up with zeros gives the fixed number of digits. -/
theorem pad_digits (n x : Nat) (h : x < 16 ^ n) (hn : 0 < n) :
    List.replicate (n - (digitsX n x).length) 48 ++ digitsX n x = fixed n x := by
  induction n generalizing x with
  | zero => omega
  | succ n ih =>
    rw [digitsX, fixed]
    by_cases hx : x < 16
    · rw [if_pos hx, Nat.div_eq_of_lt hx, Nat.mod_eq_of_lt hx, fixed_zero]
      rfl
    · rw [if_neg hx]
      have hn0 : 0 < n := by
        rcases Nat.eq_zero_or_pos n with h0 | h0
        · subst h0; simp at h; omega
        · exact h0
      have hd : x / 16 < 16 ^ n := by
        rw [Nat.div_lt_iff_lt_mul (by decide)]
        rwa [Nat.pow_succ] at h
      rw [← ih (x / 16) hd hn0]
      have : n + 1 - (digitsX n (x / 16) ++ [digitX (x % 16)]).length = n - (digitsX n (x / 16)).length := by
        rw [List.length_append]
        simp only [List.length_cons, List.length_nil]
        omega
      rw [this, List.append_assoc]

/-- The eight digits of four bytes. -/
theorem fixed_word (a b c d : UInt8) : fixed 8 (valueBE [a, b, c, d]) = hexText [a, b, c, d] := by
  have ha := a.toNat_lt
  have hb := b.toNat_lt
  have hc := c.toNat_lt
  have hd := d.toNat_lt
  have hv : valueBE [a, b, c, d] = ((a.toNat * 256 + b.toNat) * 256 + c.toNat) * 256 + d.toNat := by
    simp [valueBE]
  rw [hv]
  have e : ∀ x, x % 16 < 16 := fun x => Nat.mod_lt _ (by decide)
  simp only [fixed, hexText, List.flatMap_cons, List.flatMap_nil, List.nil_append, List.append_nil, List.cons_append]
  rw [digitX_eq _ (e _), digitX_eq _ (e _), digitX_eq _ (e _), digitX_eq _ (e _), digitX_eq _ (e _), digitX_eq _ (e _),
    digitX_eq _ (e _), digitX_eq _ (e _)]
  have h1 : ((((a.toNat * 256 + b.toNat) * 256 + c.toNat) * 256 + d.toNat)) % 16 = d.toNat % 16 := by omega
  have h2 : ((((a.toNat * 256 + b.toNat) * 256 + c.toNat) * 256 + d.toNat)) / 16 % 16 = d.toNat / 16 := by omega
  have h3 : ((((a.toNat * 256 + b.toNat) * 256 + c.toNat) * 256 + d.toNat)) / 16 / 16 % 16 = c.toNat % 16 := by omega
  have h4 : ((((a.toNat * 256 + b.toNat) * 256 + c.toNat) * 256 + d.toNat)) / 16 / 16 / 16 % 16 = c.toNat / 16 := by omega
  have h5 : ((((a.toNat * 256 + b.toNat) * 256 + c.toNat) * 256 + d.toNat)) / 16 / 16 / 16 / 16 % 16 = b.toNat % 16 := by omega
  have h6 : ((((a.toNat * 256 + b.toNat) * 256 + c.toNat) * 256 + d.toNat)) / 16 / 16 / 16 / 16 / 16 % 16 = b.toNat / 16 := by omega
  have h7 : ((((a.toNat * 256 + b.toNat) * 256 + c.toNat) * 256 + d.toNat)) / 16 / 16 / 16 / 16 / 16 / 16 % 16 = a.toNat % 16 := by
    omega
  have h8 : ((((a.toNat * 256 + b.toNat) * 256 + c.toNat) * 256 + d.toNat)) / 16 / 16 / 16 / 16 / 16 / 16 / 16 % 16 = a.toNat / 16 := by
    omega
  rw [h1, h2, h3, h4, h5, h6, h7, h8]

theorem four {l : List UInt8} (h : l.length = 4) : ∃ a b c d, l = [a, b, c, d] := by
  match l, h with
  | [a, b, c, d], _ => exact ⟨a, b, c, d, rfl⟩

theorem snprintf_word (l : List UInt8) (h : l.length = 4) : snprintf08x (valueBE l) = hexText l := by
  obtain ⟨a, b, c, d, rfl⟩ := four h
  rw [← fixed_word, snprintf08x]
  apply pad_digits
  · have ha := a.toNat_lt
    have hb := b.toNat_lt
    have hc := c.toNat_lt
    have hd := d.toNat_lt
    have hv : valueBE [a, b, c, d] = ((a.toNat * 256 + b.toNat) * 256 + c.toNat) * 256 + d.toNat := by simp [valueBE]
    rw [hv]
    omega
  · decide

theorem hexText_append (l m : List UInt8) : hexText (l ++ m) = hexText l ++ hexText m := by simp [hexText]

theorem textLoop_eq (dg : List UInt8) (n i : Nat) (str : List UInt8) (h : 4 * (i + n) ≤ dg.length) :
    textLoop dg n i str = .ok (str ++ hexText ((dg.drop (4 * i)).take (4 * n))) := by
  induction n generalizing i str with
  | zero => simp [textLoop, hexText]
  | succ n ih =>
    rw [textLoop, (((C09_getBE dg (4 * i)).2.1) (by omega)).1]
    simp only [Res.ok_bind]
    rw [ih (i + 1) _ (by omega), snprintf_word _ (by simp; omega), List.append_assoc, ← hexText_append]
    have : 4 * (n + 1) = 4 + 4 * n := by omega
    rw [this, List.take_add, List.drop_drop]
    rfl

/-- `toString` prints the bytes of `digest_`, two digits each, whatever they are. -/
theorem C142_text (o : St1) (h : o.digest.length = 20) : text1 o = .ok (hexText o.digest) := by
  rw [text1, textLoop_eq _ _ _ _ (by omega)]
  simp [← h]

/-- A running object: what it was given of the current message, and the last hash. -/
structure Going (o : St1) (cur last : List UInt8) : Prop where
  inv : ∃ blks tail, Inv 64 Regs1.toList compress1 iv1 blks tail o.base ∧ blks.flatten ++ tail = cur
  done : o.done = false
  k : o.K = K1
  dg : o.digest = last
  len : last.length = 20

theorem going_update {o : St1} {cur last : List UInt8} (g : Going o cur last) (b : List UInt8) :
    ∃ o', update1 o b = .ok o' ∧ Going o' (cur ++ b) last := by
  obtain ⟨bl, t, i, hf⟩ := g.inv
  obtain ⟨bl', t', o', e, i', hd, hK, hg, hf'⟩ := update1_inv g.done g.k i b
  exact ⟨o', e, ⟨⟨bl', t', i', by rw [hf', hf]⟩, hd, hK, hg.trans g.dg, g.len⟩⟩

theorem sha1_length (m : List UInt8) : (sha1 m).length = 20 := by rw [sha1, bytesOf_length]; rfl

theorem going_digest {o : St1} {cur last : List UInt8} (g : Going o cur last) (b last0 : List UInt8) (hl : last0.length = 64)
    (hlt : (cur ++ b).length < 2 ^ 61) :
    ∃ o', digest1 last0 o b = .ok (sha1 (cur ++ b), o') ∧ Going o' [] (sha1 (cur ++ b)) := by
  obtain ⟨o1, e1, g1⟩ := going_update g b
  obtain ⟨bl, t, i, hf⟩ := g1.inv
  obtain ⟨o3, e3, hdig, hrl⟩ := term1_inv last0 hl g1.k (by rw [g1.dg]; exact g1.len) i (by rw [hf]; exact hlt)
  rw [hf] at hdig
  refine ⟨reset1 o3.base.roundBuf o3.digest, ?_, ?_⟩
  · rw [digest1, assert_true (by rw [g.done]; rfl)]
    simp only [Res.ok_bind, e1, e3, Res.pure_eq]
    rw [hdig]
  · exact ⟨⟨[], [], inv_reset1 _ _ hrl, rfl⟩, rfl, reset1_K _ _, hdig, sha1_length _⟩

theorem run_going (last0 : List UInt8) (hl : last0.length = 64) (l : List Op) :
    ∀ (o : St1) (cur last : List UInt8), Going o cur last → Short cur l → run last0 o l = .ok (expected cur last l) := by
  induction l with
  | nil => intro o cur last _ _; rfl
  | cons op l ih =>
    intro o cur last g hs
    cases op with
    | update b =>
      obtain ⟨o', e, g'⟩ := going_update g b
      rw [run, e, Res.ok_bind, ih o' _ _ g' hs]
      rfl
    | digest b =>
      obtain ⟨o', e, g'⟩ := going_digest g b last0 hl hs.1
      rw [run, e]
      simp only [Res.ok_bind]
      rw [ih o' _ _ g' hs.2]
      rfl
    | text =>
      rw [run, C142_text o (by rw [g.dg]; exact g.len), Res.ok_bind, ih o _ _ g hs, g.dg]
      rfl
    | bytes =>
      rw [run, ih o _ _ g hs, get1, g.dg]
      rfl

theorem fresh_going (rb dg : List UInt8) (h : rb.length = 64) (hd : dg.length = 20) : Going (reset1 rb dg) [] dg :=
  ⟨⟨[], [], inv_reset1 _ _ h, rfl⟩, rfl, reset1_K _ _, rfl, hd⟩

/-- Any use of one object, from its construction: `toString` and `get` show the last hash `digest` returned, also in the middle of
the next message, and asking does not disturb anything.  (`dg` is what the memory of `digest_` happened to hold.) -/
theorem C142_run (rb dg last0 : List UInt8) (hr : rb.length = 64) (hd : dg.length = 20) (hl : last0.length = 64) (l : List Op)
    (hs : Short [] l) : run last0 (reset1 rb dg) l = .ok (expected [] dg l) :=
  run_going last0 hl l _ _ _ (fresh_going rb dg hr hd) hs

/-- The printed form tells hashes apart: no two of the same form. -/
theorem C142_text_inj (l m : List UInt8) (h : hexText l = hexText m) : l = m := by
  have hd : ∀ x y : Fin 16, hexDigits.getD x.val 0 = hexDigits.getD y.val 0 → x = y := by decide +kernel
  have hd' : ∀ x y : Nat, x < 16 → y < 16 → hexDigits.getD x 0 = hexDigits.getD y 0 → x = y := by
    intro x y hx hy e
    have := hd ⟨x, hx⟩ ⟨y, hy⟩ e
    exact congrArg Fin.val this
  induction l generalizing m with
  | nil =>
    cases m with
    | nil => rfl
    | cons b m => simp [hexText] at h
  | cons a l ih =>
    cases m with
    | nil => simp [hexText] at h
    | cons b m =>
      have ha := a.toNat_lt
      have hb := b.toNat_lt
      have h' : hexDigits.getD (a.toNat / 16) 0 :: hexDigits.getD (a.toNat % 16) 0 :: hexText l =
          hexDigits.getD (b.toNat / 16) 0 :: hexDigits.getD (b.toNat % 16) 0 :: hexText m := h
      injection h' with e1 h'
      injection h' with e2 h'
      have q1 := hd' _ _ (by omega) (by omega) e1
      have q2 := hd' _ _ (by omega) (by omega) e2
      have : a = b := UInt8.toNat_inj.mp (by omega)
      rw [this, ih m h']

/-- A text is forty characters, all digits or letters from `a` to `f`. -/
theorem C142_text_form (dg : List UInt8) (h : dg.length = 20) :
    (hexText dg).length = 40 ∧ ∀ c ∈ hexText dg, c ∈ hexDigits := by
  have hd : ∀ x : Fin 16, hexDigits.getD x.val 0 ∈ hexDigits := by decide +kernel
  constructor
  · have : ∀ l : List UInt8, (hexText l).length = 2 * l.length := by
      intro l
      induction l with
      | nil => rfl
      | cons a l ih =>
        have e : hexText (a :: l) = hexDigits.getD (a.toNat / 16) 0 :: hexDigits.getD (a.toNat % 16) 0 :: hexText l := rfl
        rw [e]
        simp only [List.length_cons, ih]
        omega
    rw [this, h]
  · intro c hc
    rw [hexText, List.mem_flatMap] at hc
    obtain ⟨b, _, hb⟩ := hc
    have hlt := b.toNat_lt
    simp only [List.mem_cons, List.not_mem_nil, or_false] at hb
    rcases hb with rfl | rfl
    · exact hd ⟨b.toNat / 16, by omega⟩
    · exact hd ⟨b.toNat % 16, by omega⟩

/-- FINDING: nothing sets `digest_` before the first `digest`: until then `toString` prints whatever the memory held, and a text is
no sign that anything was hashed. -/
theorem C142_finding_before (rb dg last0 : List UInt8) (hr : rb.length = 64) (hd : dg.length = 20) (hl : last0.length = 64)
    (bs : List (List UInt8)) :
    run last0 (reset1 rb dg) (bs.map Op.update ++ [.text]) = .ok [hexText dg] := by
  have hs : ∀ cur, Short cur (bs.map Op.update ++ [.text]) ∧ expected cur dg (bs.map Op.update ++ [.text]) = [hexText dg] := by
    induction bs with
    | nil => intro _; exact ⟨trivial, rfl⟩
    | cons b bs ih => intro cur; exact ih _
  rw [C142_run rb dg last0 hr hd hl _ (hs []).1, (hs []).2]

/-- The hypotheses are met by a message in two parts with questions in between. -/
example : Short [] [.update [97], .text, .digest [98, 99], .text, .update [1], .bytes] := by
  refine ⟨?_, trivial⟩
  decide

example : expected [] (List.replicate 20 171) [.text] = [List.flatten (List.replicate 20 [97, 98])] := by decide +kernel

#print axioms C142_text
#print axioms C142_run
#print axioms C142_text_inj
#print axioms C142_text_form
#print axioms C142_finding_before

end Verif.Props.Sha1Text
