import Verif.Proof.Base64
import Verif.Spec.Common

/-!
# C01, C02, C03: base64
-/
namespace Verif.Props.Base64
open Verif Verif.Base64 Verif.Spec Verif.Spec.Base64

/-- C02.  For every message, every legal line size, every newline mode and every fragmentation of
the input stream, `EncodeToBase64` writes the RFC 4648 text laid out in lines of that size.  In
particular it neither throws nor overruns its 4096-byte output buffer. -/
theorem C02_encode_is_rfc4648 (x : List UInt8) (cs : List (List UInt8)) (L : Nat) (mode : Int)
    (hcs : Fragments 1024 cs x) (hL : L ≤ 128) (h4 : L % 4 = 0) :
    encode L mode cs = .ok (layout L mode (rfc4648 x)) := by
  obtain ⟨rfl, hc⟩ := hcs
  rw [encode_ok hL h4 hc, machine_rfc h4 _ _ _ (by omega), brk_layout]

/-- C02.  Illegal line sizes are rejected before anything is written. -/
theorem C02_bad_line_size (cs : List (List UInt8)) (L : Nat) (mode : Int)
    (h : L > 128 ∨ L % 4 ≠ 0) : encode L mode cs = .throw := by
  simp [encode, h]

/-- C02.  The laid-out text really consists of lines no longer than `L`. -/
theorem C02_lines_bounded (x : List UInt8) (L : Nat) (hL : L ≠ 0) :
    ∀ l ∈ pieces L (rfc4648 x), l.length ≤ L ∧ l ≠ [] := by
  generalize rfc4648 x = s
  fun_induction pieces L s with
  | case1 => simp
  | case2 s h h' =>
    exact absurd h (by simp_all)
  | case3 s h ih =>
    intro l hl
    rcases List.mem_cons.mp hl with rfl | hl
    · have : s ≠ [] := fun h' => h (Or.inr h')
      constructor
      · simp; omega
      · simp [this, hL]
    · exact ih l hl

/-- C02.  The lines carry exactly the RFC text. -/
theorem C02_lines_content (x : List UInt8) (L : Nat) :
    (pieces L (rfc4648 x)).flatten = rfc4648 x := by
  generalize rfc4648 x = s
  fun_induction pieces L s with
  | case1 => simp
  | case2 s h h' => simp
  | case3 s h ih => simp [ih]

/-- C02.  Length: four characters per started group of three bytes. -/
theorem C02_length (x : List UInt8) : (rfc4648 x).length = 4 * ((x.length + 2) / 3) := by
  fun_induction rfc4648 x with
  | case1 => rfl
  | case2 => simp
  | case3 => simp
  | case4 a b c rest v ih => simp [ih]; omega

example : Fragments 1024 [[77], [97, 110, 121], [32]] [77, 97, 110, 121, 32] := by decide
/-- "Man" encodes to "TWFu" (RFC 4648 / Wikipedia). -/
example : encode 4 1 [[77], [97, 110, 121, 32]] =
    .ok [84, 87, 70, 117, 13, 10, 101, 83, 65, 61, 13, 10] := by decide

/-- C01.  Decoding what the encoder wrote returns the message, for every message, line size, mode,
and every fragmentation on the encoder's and on the decoder's side. -/
theorem C01_roundtrip (x text : List UInt8) (cs ds : List (List UInt8)) (L n : Nat) (mode : Int)
    (hcs : Fragments 1024 cs x) (hL : L ≤ 128) (h4 : L % 4 = 0)
    (henc : encode L mode cs = .ok text) (hds : Fragments n ds text) :
    decode ds = .ok x := by
  obtain ⟨rfl, hc⟩ := hcs
  obtain ⟨rfl, hd⟩ := hds
  rw [encode_ok hL h4 hc, machine_rfc h4 _ _ _ (by omega)] at henc
  rw [decode_ok (fun c h => (hd c h).1)]
  simp only [Res.ok.injEq] at henc
  rw [← henc, druno_filter, brk_filter, ← druno_filter, dec_rfc]

/-- C01.  The same without naming the intermediate text. -/
theorem C01_roundtrip_exists (x : List UInt8) (cs : List (List UInt8)) (L : Nat) (mode : Int)
    (hcs : Fragments 1024 cs x) (hL : L ≤ 128) (h4 : L % 4 = 0) :
    ∃ text, encode L mode cs = .ok text ∧
      ∀ n ds, Fragments n ds text → decode ds = .ok x :=
  ⟨_, C02_encode_is_rfc4648 x cs L mode hcs hL h4, fun n _ hds =>
    C01_roundtrip x _ cs _ L n mode hcs hL h4 (C02_encode_is_rfc4648 x cs L mode hcs hL h4) hds⟩

example : decode [[84, 87], [70, 117, 13], [10, 101, 83, 65, 61, 13, 10]] =
    .ok [77, 97, 110, 121, 32] := by decide
example : Fragments 1024 [[84, 87], [70, 117, 13], [10, 101, 83, 65, 61, 13, 10]]
    [84, 87, 70, 117, 13, 10, 101, 83, 65, 61, 13, 10] := by decide

/-- C03.  The decoder never fails, and its output depends only on the subsequence of alphabet
characters, not on the foreign characters in between nor on the fragmentation. -/
theorem C03_decoder_ignores_foreign (n m : Nat) (cs ds : List (List UInt8)) (s t : List UInt8)
    (hcs : Fragments n cs s) (hds : Fragments m ds t)
    (h : s.filter isAlphabet = t.filter isAlphabet) :
    ∃ out, decode cs = .ok out ∧ decode ds = .ok out := by
  obtain ⟨rfl, hc⟩ := hcs
  obtain ⟨rfl, hd⟩ := hds
  rw [decode_ok (fun c h => (hc c h).1), decode_ok (fun c h => (hd c h).1)]
  exact ⟨_, rfl, by rw [druno_filter, ← h, ← druno_filter]⟩

/-- C03.  Feeding the decoder object in two `write` calls equals feeding it at once: the bytes it
has produced (written plus buffered) and its state agree. -/
theorem C03_write_append (s t : List UInt8) :
    ∃ d d1 d2, Dec.init.write (s ++ t) = .ok d ∧ Dec.init.write s = .ok d1 ∧ d1.write t = .ok d2 ∧
      d.flush.os = d2.flush.os ∧ d.idx = d2.idx ∧ d.cur = d2.cur := by
  obtain ⟨d, e, _, i, o⟩ := Dec.write_ok (s := Dec.init) (bs := s ++ t) (by decide)
  obtain ⟨d1, e1, l1, i1, o1⟩ := Dec.write_ok (s := Dec.init) (bs := s) (by decide)
  obtain ⟨d2, e2, _, i2, o2⟩ := Dec.write_ok (s := d1) (bs := t) l1
  refine ⟨d, d1, d2, e, e1, e2, ?_, ?_⟩
  · rw [Dec.flush_os, Dec.flush_os, o, o2, o1, druno_append, ← i1]; simp
  · have : (d.idx, d.cur) = (d2.idx, d2.cur) := by rw [i, i2, i1, drun_append]
    exact ⟨congrArg Prod.fst this, congrArg Prod.snd this⟩

/-- "T W\nFu==" and "TWFu" have the same alphabet subsequence. -/
example : ([84, 32, 87, 10, 70, 117, 61, 61] : List UInt8).filter isAlphabet =
    ([84, 87, 70, 117] : List UInt8).filter isAlphabet := by decide
example : decode [[84, 32, 87, 10], [70, 117, 61, 61]] = .ok [77, 97, 110] := by decide

#print axioms C01_roundtrip
#print axioms C01_roundtrip_exists
#print axioms C02_encode_is_rfc4648
#print axioms C02_bad_line_size
#print axioms C02_lines_bounded
#print axioms C02_lines_content
#print axioms C02_length
#print axioms C03_decoder_ignores_foreign
#print axioms C03_write_append

end Verif.Props.Base64
