import Verif.Model.Gzip
import Verif.Spec.Gzip
import Verif.Proof.Stream
import Verif.Proof.Endian
set_option linter.unusedSimpArgs false
/-! Lemmas for C53: every step recognises exactly a prefix-free set of byte strings. -/
namespace Verif.Gzip
open Verif.Stream (Src)
open Verif.Spec.Gzip Verif.Spec.Endian

/-- `act` consumes exactly a member of `P`, or throws and no prefix of the stream is a member of `P`. -/
def Parses (P : List UInt8 → Prop) (act : Src → Res Src) : Prop :=
  ∀ s : Src, (∃ h s', s.rest = h ++ s'.rest ∧ P h ∧ act s = .ok s') ∨
    (act s = .throw ∧ ∀ h rest, s.rest = h ++ rest → ¬ P h)

def PrefixFree (P : List UInt8 → Prop) : Prop :=
  ∀ a a' r r', P a → P a' → a ++ r = a' ++ r' → a = a'

/-- One after the other. -/
def Seq (P Q : List UInt8 → Prop) (h : List UInt8) : Prop := ∃ a b, h = a ++ b ∧ P a ∧ Q b

theorem PrefixFree.seq {P Q : List UInt8 → Prop} (hp : PrefixFree P) (hq : PrefixFree Q) : PrefixFree (Seq P Q) := by
  rintro _ _ r r' ⟨a, b, rfl, pa, qb⟩ ⟨a', b', rfl, pa', qb'⟩ e
  rw [List.append_assoc, List.append_assoc] at e
  obtain rfl := hp _ _ _ _ pa pa' e
  rw [hq _ _ _ _ qb qb' (List.append_cancel_left e)]

theorem Parses.seq {P Q : List UInt8 → Prop} {f g : Src → Res Src} (hp : PrefixFree P) (h1 : Parses P f)
    (h2 : Parses Q g) : Parses (Seq P Q) (fun s => f s >>= g) := by
  intro s
  obtain ⟨h, s', e, ph, ef⟩ | ⟨ef, hn⟩ := h1 s
  · simp only [ef, Res.ok_bind]
    obtain ⟨k, s'', e', qk, eg⟩ | ⟨eg, hn⟩ := h2 s'
    · exact .inl ⟨h ++ k, s'', by rw [e, e', List.append_assoc], ⟨h, k, rfl, ph, qk⟩, eg⟩
    · refine .inr ⟨eg, ?_⟩
      rintro _ rest er ⟨a, b, rfl, pa, qb⟩
      rw [e, List.append_assoc] at er
      obtain rfl := hp _ _ _ _ ph pa er
      exact hn b rest (List.append_cancel_left er) qb
  · refine .inr ⟨by simp only [ef, Res.throw_bind], ?_⟩
    rintro _ rest er ⟨a, b, rfl, pa, qb⟩
    exact hn a (b ++ rest) (by rw [er, List.append_assoc]) pa

theorem Parses.congr {P Q : List UInt8 → Prop} {f : Src → Res Src} (h : ∀ l, P l ↔ Q l) (hp : Parses P f) : Parses Q f := by
  intro s
  obtain ⟨k, s', e, pk, ef⟩ | ⟨ef, hn⟩ := hp s
  · exact .inl ⟨k, s', e, (h k).1 pk, ef⟩
  · exact .inr ⟨ef, fun k r e q => hn k r e ((h k).2 q)⟩

theorem prefixFree_length (n : Nat) : PrefixFree (fun h => h.length = n) := by
  intro a a' r r' h h' e
  exact (List.append_inj e (h.trans h'.symm)).1

theorem prefixFree_zero : PrefixFree ZeroTerminated := by
  rintro _ _ r r' ⟨s, rfl, hs⟩ ⟨t, rfl, ht⟩ e
  induction s generalizing t with
  | nil =>
    cases t with
    | nil => rfl
    | cons x t =>
      rw [List.nil_append, List.cons_append, List.cons_append, List.cons_append] at e
      exact absurd (List.cons.inj e).1 (by intro h; subst h; simp at ht)
  | cons y s ih =>
    cases t with
    | nil =>
      rw [List.nil_append, List.cons_append, List.cons_append, List.cons_append] at e
      exact absurd (List.cons.inj e).1 (by intro h; subst h; simp at hs)
    | cons x t =>
      simp only [List.cons_append, List.cons.injEq] at e
      rw [List.cons_append, List.cons_append, e.1, ih (by simp_all) t (by simp_all) e.2]

theorem prefixFree_extra : PrefixFree Extra := by
  rintro _ _ r r' ⟨lo, hi, d, rfl, hd⟩ ⟨lo', hi', d', rfl, hd'⟩ e
  simp only [List.cons_append, List.cons.injEq] at e
  obtain ⟨rfl, rfl, e⟩ := e
  rw [prefixFree_length _ _ _ _ _ hd hd' e]

theorem prefixFree_part (b : Bool) {P : List UInt8 → Prop} (h : PrefixFree P) : PrefixFree (Part b P) := by
  cases b
  · intro a a' r r' p p' _
    simp only [Part, Bool.false_eq_true, if_false] at p p'
    rw [p, p']
  · intro a a' r r' p p' e
    simp only [Part, if_true] at p p'
    exact h _ _ _ _ p p' e

theorem read1 (s : Src) : (s.rest = [] ∧ Stream.read [0] 1 s = .throw) ∨
    ∃ c s', s.rest = c :: s'.rest ∧ Stream.read [0] 1 s = .ok ([c], s') := by
  cases h : s.rest with
  | nil => exact .inl ⟨rfl, Stream.read_throw _ _ _ (by simp) (by simp [h])⟩
  | cons c t =>
    obtain ⟨s', e, er, _⟩ := Stream.read_ok [0] 1 s (by simp) (by simp [h])
    refine .inr ⟨c, s', ?_, ?_⟩
    · rw [er, h]; rfl
    · rw [e, h]; rfl

theorem skip_parses (n : Nat) : Parses (fun h => h.length = n) (skip n) := by
  induction n with
  | zero => intro s; exact .inl ⟨[], s, rfl, rfl, rfl⟩
  | succ n ih =>
    intro s
    rw [skip]
    obtain ⟨e, er⟩ | ⟨c, s', e, er⟩ := read1 s
    · refine .inr ⟨by rw [er]; rfl, ?_⟩
      intro h rest he hl
      rw [e] at he
      have := congrArg List.length he
      simp at this
      omega
    · simp only [er, Res.ok_bind]
      obtain ⟨k, s'', e', hk, eg⟩ | ⟨eg, hn⟩ := ih s'
      · exact .inl ⟨c :: k, s'', by rw [e, e']; rfl, by simpa using hk, eg⟩
      · refine .inr ⟨eg, ?_⟩
        intro h rest he hl
        cases h with
        | nil => simp at hl
        | cons d h =>
          rw [e, List.cons_append, List.cons.injEq] at he
          exact hn h rest he.2 (by simpa using hl)

theorem skipToZeroLoop_parses (fuel : Nat) : ∀ s : Src, s.rest.length < fuel →
    (∃ h s', s.rest = h ++ s'.rest ∧ ZeroTerminated h ∧ skipToZeroLoop fuel s = .ok s') ∨
    (skipToZeroLoop fuel s = .throw ∧ ∀ h rest, s.rest = h ++ rest → ¬ ZeroTerminated h) := by
  induction fuel with
  | zero => intro s h; omega
  | succ fuel ih =>
    intro s hs
    rw [skipToZeroLoop]
    obtain ⟨e, er⟩ | ⟨c, s', e, er⟩ := read1 s
    · refine .inr ⟨by rw [er]; rfl, ?_⟩
      rintro _ rest he ⟨t, rfl, _⟩
      rw [e] at he
      simp at he
    · simp only [er, Res.ok_bind, at?_eq_ok (show 0 < [c].length by simp), List.getElem_cons_zero]
      by_cases hc : c = 0
      · rw [if_pos hc]
        exact .inl ⟨[c], s', e, ⟨[], by simp [hc], by simp⟩, rfl⟩
      · rw [if_neg hc]
        obtain ⟨k, s'', e', ⟨t, rfl, ht⟩, eg⟩ | ⟨eg, hn⟩ := ih s' (by rw [e] at hs; simpa using hs)
        · refine .inl ⟨c :: (t ++ [0]), s'', by rw [e, e']; rfl, ⟨c :: t, rfl, ?_⟩, eg⟩
          simp only [List.mem_cons, not_or]
          exact ⟨fun h => hc h.symm, ht⟩
        · refine .inr ⟨eg, ?_⟩
          rintro _ rest he ⟨t, rfl, ht⟩
          cases t with
          | nil =>
            rw [e, List.nil_append, List.cons_append, List.cons.injEq] at he
            exact hc he.1
          | cons d t =>
            rw [e, List.cons_append, List.cons_append, List.cons.injEq] at he
            exact hn _ rest he.2 ⟨t, rfl, by simp_all⟩

theorem skipToZero_parses : Parses ZeroTerminated skipToZero := fun s => skipToZeroLoop_parses _ s (by omega)

theorem read2 (s : Src) : (s.rest.length < 2 ∧ Stream.read [0, 0] 2 s = .throw) ∨
    ∃ c d s', s.rest = c :: d :: s'.rest ∧ Stream.read [0, 0] 2 s = .ok ([c, d], s') := by
  by_cases h : s.rest.length < 2
  · exact .inl ⟨h, Stream.read_throw _ _ _ (by simp) h⟩
  · obtain ⟨s', e, er, _⟩ := Stream.read_ok [0, 0] 2 s (by simp) (by omega)
    match h' : s.rest, h with
    | c :: d :: t, _ =>
      refine .inr ⟨c, d, s', ?_, ?_⟩
      · rw [er, h']; rfl
      · rw [e, h']; rfl
    | [_], h => simp at h
    | [], h => simp at h

theorem skipExtra_parses : Parses Extra skipExtra := by
  intro s
  rw [skipExtra]
  obtain ⟨e, er⟩ | ⟨c, d, s', e, er⟩ := read2 s
  · refine .inr ⟨by rw [er]; rfl, ?_⟩
    rintro _ rest he ⟨lo, hi, data, rfl, _⟩
    rw [he] at e
    simp at e
    omega
  · have hg : Endian.get16LEMem [c, d] 0 = .ok (c.toNat + 256 * d.toNat) := by
      rw [Endian.get16LEMem, Endian.load_eq (by simp)]
      simp [Endian.valueLE_cons, valueLE, valueBE]
      omega
    simp only [er, Res.ok_bind, hg]
    obtain ⟨k, s'', e', hk, eg⟩ | ⟨eg, hn⟩ := skip_parses (c.toNat + 256 * d.toNat) s'
    · exact .inl ⟨c :: d :: k, s'', by rw [e, e']; rfl, ⟨c, d, k, rfl, hk⟩, eg⟩
    · refine .inr ⟨eg, ?_⟩
      rintro _ rest he ⟨lo, hi, data, rfl, hl⟩
      rw [e] at he
      simp only [List.cons_append, List.cons.injEq] at he
      obtain ⟨rfl, rfl, he⟩ := he
      exact hn data rest he hl

theorem optional_parses (flg bit : UInt8) (b : Bool) {P : List UInt8 → Prop} {act : Src → Res Src} (h : Parses P act)
    (hb : flg &&& bit ≠ 0 ↔ b = true) : Parses (Part b P) (optional flg bit act) := by
  intro s
  rw [optional]
  by_cases hf : flg &&& bit ≠ 0
  · rw [if_pos hf, hb.1 hf]
    simpa [Part] using h s
  · rw [if_neg hf]
    have : b = false := by simpa [hb] using hf
    subst this
    exact .inl ⟨[], s, rfl, rfl, rfl⟩

theorem flag_bits (flg : UInt8) :
    (flg &&& 4 ≠ 0 ↔ flg.toNat.testBit 2 = true) ∧ (flg &&& 8 ≠ 0 ↔ flg.toNat.testBit 3 = true) ∧
    (flg &&& 16 ≠ 0 ↔ flg.toNat.testBit 4 = true) ∧ (flg &&& 2 ≠ 0 ↔ flg.toNat.testBit 1 = true) ∧
    (flg &&& 0xe0 = 0 ↔ flg.toNat < 32) := by
  have h : ∀ n : Fin 256, ((UInt8.ofNat n &&& 4 ≠ 0 ↔ n.1.testBit 2 = true) ∧ (UInt8.ofNat n &&& 8 ≠ 0 ↔ n.1.testBit 3 = true) ∧
    (UInt8.ofNat n &&& 16 ≠ 0 ↔ n.1.testBit 4 = true) ∧ (UInt8.ofNat n &&& 2 ≠ 0 ↔ n.1.testBit 1 = true) ∧
    (UInt8.ofNat n &&& 0xe0 = 0 ↔ n.1 < 32)) := by decide +kernel
  have := h ⟨flg.toNat, flg.toNat_lt⟩
  simpa using this

/-- The part behind the ten fixed bytes. -/
def Tail (flg : UInt8) : List UInt8 → Prop :=
  Seq (Part (flg.toNat.testBit 2) Extra) (Seq (Part (flg.toNat.testBit 3) ZeroTerminated)
    (Seq (Part (flg.toNat.testBit 4) ZeroTerminated) (Part (flg.toNat.testBit 1) (fun c => c.length = 2))))

theorem tail_parses (flg : UInt8) : Parses (Tail flg) (fun s => do
    let s ← optional flg 4 skipExtra s
    let s ← optional flg 8 skipToZero s
    let s ← optional flg 16 skipToZero s
    optional flg 2 (skip 2) s) := by
  obtain ⟨h4, h8, h16, h2, _⟩ := flag_bits flg
  have p4 := optional_parses flg 4 _ skipExtra_parses h4
  have p8 := optional_parses flg 8 _ skipToZero_parses h8
  have p16 := optional_parses flg 16 _ skipToZero_parses h16
  have p2 := optional_parses flg 2 _ (skip_parses 2) h2
  exact p4.seq (prefixFree_part _ prefixFree_extra)
    (p8.seq (prefixFree_part _ prefixFree_zero) (p16.seq (prefixFree_part _ prefixFree_zero) p2))

theorem isHeader_iff (h : List UInt8) : IsHeader h ↔ ∃ (flg : UInt8) (six t : List UInt8),
    h = [0x1f, 0x8b, 8, flg] ++ six ++ t ∧ flg.toNat < 32 ∧ six.length = 6 ∧ Tail flg t := by
  constructor
  · rintro ⟨flg, six, x, n, c, r, rfl, hf, h6, hx, hn, hc, hr⟩
    exact ⟨flg, six, x ++ (n ++ (c ++ r)), by simp, hf, h6, x, _, rfl, hx, n, _, rfl, hn, c, r, rfl, hc, hr⟩
  · rintro ⟨flg, six, t, rfl, hf, h6, x, _, rfl, hx, n, _, rfl, hn, c, r, rfl, hc, hr⟩
    exact ⟨flg, six, x, n, c, r, by simp, hf, h6, hx, hn, hc, hr⟩

theorem list10 (l : List UInt8) (h : l.length = 10) :
    ∃ a b c d six, l = [a, b, c, d] ++ six ∧ six.length = 6 := by
  match l, h with
  | a :: b :: c :: d :: six, h => exact ⟨a, b, c, d, six, rfl, by simpa using h⟩

theorem header_parses : Parses IsHeader readGzipHeader := by
  intro s
  rw [readGzipHeader]
  by_cases hl : s.rest.length < 10
  · refine .inr ⟨by rw [Stream.read_throw _ _ _ (by simp) hl]; rfl, ?_⟩
    rintro _ rest he ⟨flg, six, x, n, c, r, rfl, hf, h6, hx, hn, hc, hr⟩
    rw [he] at hl
    simp at hl
    omega
  · obtain ⟨s', e, er, _⟩ := Stream.read_ok (List.replicate 10 0) 10 s (by simp) (by omega)
    obtain ⟨a, b, c, d, six, e10, h6⟩ := list10 (s.rest.take 10) (by simp; omega)
    have hs : s.rest = [a, b, c, d] ++ six ++ s'.rest := by
      rw [er, ← e10, List.take_append_drop]
    rw [e10, show List.drop 10 (List.replicate 10 (0 : UInt8)) = [] from rfl, List.append_nil] at e
    have g0 : at? ([a, b, c, d] ++ six) 0 = .ok a := rfl
    have g1 : at? ([a, b, c, d] ++ six) 1 = .ok b := rfl
    have g2 : at? ([a, b, c, d] ++ six) 2 = .ok c := rfl
    have g3 : at? ([a, b, c, d] ++ six) 3 = .ok d := rfl
    simp only [e, Res.ok_bind, g0, g1, g2, g3]
    by_cases hc : a = 0x1f ∧ b = 0x8b ∧ c = 8 ∧ d &&& 0xe0 = 0
    · rw [if_pos hc]
      obtain ⟨rfl, rfl, rfl, hd⟩ := hc
      have hd := (flag_bits d).2.2.2.2.1 hd
      obtain ⟨k, s'', e', hk, eg⟩ | ⟨eg, hn⟩ := tail_parses d s'
      · refine .inl ⟨[0x1f, 0x8b, 8, d] ++ six ++ k, s'', ?_, (isHeader_iff _).2 ⟨d, six, k, rfl, hd, h6, hk⟩, eg⟩
        rw [hs, e']
        simp
      · refine .inr ⟨eg, ?_⟩
        intro h rest he hh
        obtain ⟨flg, six', t, rfl, _, h6', ht⟩ := (isHeader_iff h).1 hh
        rw [hs] at he
        simp only [List.cons_append, List.nil_append, List.append_assoc, List.cons.injEq] at he
        obtain ⟨_, _, _, rfl, he⟩ := he
        obtain ⟨_, he⟩ := List.append_inj he (h6.trans h6'.symm)
        exact hn t rest he ht
    · rw [if_neg hc]
      refine .inr ⟨rfl, ?_⟩
      intro h rest he hh
      obtain ⟨flg, six', t, rfl, hf, h6', ht⟩ := (isHeader_iff h).1 hh
      rw [hs] at he
      simp only [List.cons_append, List.nil_append, List.append_assoc, List.cons.injEq] at he
      obtain ⟨ha, hb, hc', rfl, he⟩ := he
      exact hc ⟨ha, hb, hc', (flag_bits d).2.2.2.2.2 hf⟩

theorem tail_prefixFree (flg : UInt8) : PrefixFree (Tail flg) :=
  (prefixFree_part _ prefixFree_extra).seq ((prefixFree_part _ prefixFree_zero).seq
    ((prefixFree_part _ prefixFree_zero).seq (prefixFree_part _ (prefixFree_length 2))))

theorem header_prefixFree : PrefixFree IsHeader := by
  intro h h' r r' hh hh' e
  obtain ⟨f, six, t, rfl, hf, h6, ht⟩ := (isHeader_iff h).1 hh
  obtain ⟨f', six', t', rfl, hf', h6', ht'⟩ := (isHeader_iff h').1 hh'
  simp only [List.cons_append, List.nil_append, List.append_assoc, List.cons.injEq] at e
  obtain ⟨_, _, _, rfl, he⟩ := e
  obtain ⟨rfl, he'⟩ := List.append_inj he (h6.trans h6'.symm)
  rw [tail_prefixFree f _ _ _ _ ht ht' he']

end Verif.Gzip
