import Verif.Proof.ZlibToy
set_option linter.unusedSimpArgs false

/-!
# C67: what is compressed by the streaming classes is decompressed to the same bytes

zlib is a parameter that keeps its documented promises (`Spec/Zlib`); `Enc x z` says that `z` is a complete compressed
stream of `x`.
-/
namespace Verif.Props.Zlib
open Verif.Zlib Verif.Spec.Zlib Verif.Spec.Gzip Verif.Spec.Endian
open Verif.Stream (Src)

variable {D : Deflater} {I : Inflater} {Enc : List UInt8 → List UInt8 → Prop}

theorem trailer_eq (crc total : Nat) : Gzip.trailer crc total = .ok (bytesLE 4 crc ++ bytesLE 4 total) := by
  rw [Gzip.trailer, Endian.set32LEMem, Stream.store_ok _ _ _ (by simp), Res.ok_bind, Endian.set32LEMem,
    Stream.store_ok _ _ _ (by simp [Spec.Stream.splice])]
  rw [Endian.memBytes_eq, Endian.memBytes_eq]
  simp [Spec.Stream.splice, List.take_append_of_le_length, List.drop_eq_nil_of_le]

/-- What the output stream has to receive for the bytes `x` compressed as `z`. -/
def framed (D : Deflater) (gz : Bool) (x z : List UInt8) : List UInt8 :=
  if gz then Gzip.header ++ z ++ bytesLE 4 (D.crc32 (D.crc32 0 []) x) ++ bytesLE 4 (x.length % 2 ^ 32) else z

/-- C67.  However the bytes are cut into calls of `write`, and whatever the size of the internal buffer: after `flush` the
output stream has received one compressed stream of all bytes, with header, CRC and length if asked for; no loop runs
forever. -/
theorem C67_compress (h : Deflates D Enc) (mb : Nat) (hmb : 0 < mb) (gz : Bool) (ws : List (List UInt8))
    (hw : ∀ b ∈ ws, b.length < 2 ^ 31) :
    ∃ N z, Enc ws.flatten z ∧ ∀ fuel, N ≤ fuel → ∃ c c', Comp.writes mb fuel (Comp.new D gz) ws = .ok c ∧
      c.flush mb fuel = .ok c' ∧ c'.os = framed D gz ws.flatten z ∧
      -- the destructor writes the same if `flush` was not called, and nothing if it was
      c.destroy mb fuel = .ok c' ∧ c'.destroy mb fuel = .ok c' ∧ c'.flush mb fuel = .ok c' := by
  obtain ⟨N1, c, y, k1, g⟩ := writes_good h hmb ws (good_new h gz) hw
  rw [List.nil_append] at g
  obtain ⟨N2, s', o, k2, e⟩ := flushLoop_spec h hmb _ c.zs ws.flatten y c.os .filling rfl g.inv (by simp)
  refine ⟨max N1 N2, y ++ o, h.ended e, fun fuel hf => ⟨c, { c with
    zs := s', os := framed D gz ws.flatten (y ++ o), flushed := true }, k1 fuel (by omega), ?_⟩⟩
  have hfl : c.flush mb fuel = .ok { c with zs := s', os := framed D gz ws.flatten (y ++ o), flushed := true } := by
    rw [Comp.flush, g.flushed, if_neg (by simp), k2 fuel (by omega), Res.ok_bind]
    simp only
    cases gz with
    | true =>
      rw [g.useGzip, if_pos rfl, trailer_eq, Res.ok_bind, Res.pure_eq, g.os, g.crc rfl, g.total rfl]
      simp [framed, List.append_assoc]
    | false =>
      rw [g.useGzip, if_neg (by simp), Res.pure_eq, Res.ok_bind, Res.pure_eq, g.os]
      simp [framed]
  refine ⟨hfl, rfl, ?_, by simp [Comp.destroy], by simp [Comp.flush]⟩
  rw [Comp.destroy, g.flushed, if_neg (by simp), hfl]

/-- C67.  Blocks of 2 GiB and more are refused. -/
theorem C67_too_large (mb fuel : Nat) (c : Comp D) (b : List UInt8) (h : 2 ^ 31 ≤ b.length) : c.write mb fuel b = .throw := by
  rw [Comp.write, if_pos h]

/-- C67.  A read of 2 GiB or more is refused, before anything is read. -/
theorem C67_too_large_read (mb : Nat) (d : Dec I) (n : Nat) (h : 2 ^ 31 ≤ n) : d.readSome mb n = .throw := by
  rw [Dec.readSome, if_pos h]

example : 2 ^ 31 ≤ 2147483648 := by decide

/-- C67.  After `flush` nothing more is taken: `write` of a non-empty block throws. -/
theorem C67_write_after_flush (h : Deflates D Enc) (mb : Nat) (hmb : 0 < mb) (gz : Bool) (ws : List (List UInt8))
    (hw : ∀ b ∈ ws, b.length < 2 ^ 31) (b : List UInt8) (hb : b ≠ []) :
    ∃ N, ∀ fuel, N ≤ fuel → ∃ c c', Comp.writes mb fuel (Comp.new D gz) ws = .ok c ∧ c.flush mb fuel = .ok c' ∧
      c'.write mb fuel b = .throw := by
  obtain ⟨N1, c, y, k1, g⟩ := writes_good h hmb ws (good_new h gz) hw
  rw [List.nil_append] at g
  obtain ⟨N2, s', o, k2, e⟩ := flushLoop_spec h hmb _ c.zs ws.flatten y c.os .filling rfl g.inv (by simp)
  obtain ⟨tail, ht⟩ : ∃ tail, (if c.useGzip then Gzip.trailer c.crc c.total else pure []) = .ok tail := by
    cases c.useGzip with
    | true => exact ⟨_, trailer_eq _ _⟩
    | false => exact ⟨_, rfl⟩
  refine ⟨max (max N1 N2) 1, fun fuel hf => ⟨c, { c with zs := s', os := (c.os ++ o) ++ tail, flushed := true },
    k1 fuel (by omega), ?_, ?_⟩⟩
  · rw [Comp.flush, g.flushed, if_neg (by simp), k2 fuel (by omega), Res.ok_bind]
    simp only
    by_cases hg : c.useGzip = true
    · rw [if_pos hg] at ht ⊢
      rw [ht, Res.ok_bind, Res.pure_eq]
    · rw [if_neg hg] at ht ⊢
      rw [ht, Res.ok_bind, Res.pure_eq]
  · rw [Comp.write]
    split
    · rfl
    · obtain ⟨f, rfl⟩ := Nat.exists_eq_succ_of_ne_zero (show fuel ≠ 0 by omega)
      cases b with
      | nil => exact absurd rfl hb
      | cons b bs =>
        rw [writeLoop]
        simp only [h.late (b :: bs) mb e (by simp)]
        rfl

/-- C67.  Decompression of a stream that starts with (a gzip header and) a compressed stream `z` of `x`, whatever follows
it, however the input stream delivers its bytes and whatever sizes are asked for: the blocks returned are `x`, in order;
an empty block is returned only when all of `x` was returned, and then `isEmpty` answers true; it never answers true
earlier. -/
theorem C67_decompress (h : Inflates I Enc) (mb : Nat) (hmb : 0 < mb) (gz : Bool) (x z hd tail : List UInt8) (hz : Enc x z)
    (hhd : IsHeader hd) (is : Src) (hr : is.rest = (if gz then hd else []) ++ (z ++ tail)) (ns : List Nat)
    (hn : ∀ n ∈ ns, 0 < n ∧ n < 2 ^ 31) :
    ∃ outs d, (Dec.new I gz is).reads mb ns = .ok (outs, d) ∧ outs.length = ns.length ∧
      (∀ (k : Nat) (out : List UInt8) (n : Nat), outs[k]? = some out → ns[k]? = some n → out.length ≤ n) ∧
      outs.flatten <+: x ∧ (∀ k : Nat, outs[k]? = some [] → (outs.take k).flatten = x) ∧
      ([] ∈ outs → d.isEmpty = true) ∧ (d.isEmpty = true → outs.flatten = x) := by
  have ha : At h z x (z ++ tail) (Dec.new I gz is) [] := at_new h hz gz is hd hhd hr (Or.inr ⟨tail, rfl⟩)
  obtain ⟨outs, d, e1, a, ⟨l1, l2⟩, m1, -, m3⟩ | ⟨-, hne⟩ := reads_at h hmb ns hn _ _ ha
  · rw [List.nil_append] at a
    refine ⟨outs, d, e1, l1, l2, a.prefixed, fun k hk => ?_, m1, fun he => (a.empty he).1⟩
    have := m3 k hk
    rwa [List.nil_append] at this
  · exact absurd ⟨tail, rfl⟩ hne

theorem length_le_flatten (l : List (List UInt8)) (hn : [] ∉ l) : l.length ≤ l.flatten.length := by
  induction l with
  | nil => simp
  | cons a l ih =>
    simp only [List.mem_cons, not_or] at hn
    have := ih hn.2
    have : 0 < a.length := List.length_pos_iff.2 (fun e => hn.1 e.symm)
    simp only [List.length_cons, List.flatten_cons, List.length_append]
    omega

theorem own_header : IsHeader Gzip.header :=
  ⟨0, [0, 0, 0, 0, 0, 3], [], [], [], [], rfl, by decide, rfl, rfl, rfl, rfl, rfl⟩

/-- C67.  So enough calls return everything, and then `isEmpty` answers true. -/
theorem C67_decompress_all (h : Inflates I Enc) (mb : Nat) (hmb : 0 < mb) (gz : Bool) (x z hd tail : List UInt8) (hz : Enc x z)
    (hhd : IsHeader hd) (is : Src) (hr : is.rest = (if gz then hd else []) ++ (z ++ tail)) (ns : List Nat)
    (hn : ∀ n ∈ ns, 0 < n ∧ n < 2 ^ 31) (hl : x.length < ns.length) :
    ∃ outs d, (Dec.new I gz is).reads mb ns = .ok (outs, d) ∧ outs.flatten = x ∧ d.isEmpty = true := by
  obtain ⟨outs, d, e, l1, -, p, -, m1, m2⟩ := C67_decompress h mb hmb gz x z hd tail hz hhd is hr ns hn
  have hm : [] ∈ outs := by
    apply Classical.byContradiction
    intro hne
    have := length_le_flatten outs hne
    have := p.length_le
    omega
  exact ⟨outs, d, e, m2 (m1 hm), m1 hm⟩

/-- C67.  `read` after any such calls: the next `n` bytes of `x`, or an exception if there are not so many. -/
theorem C67_read (h : Inflates I Enc) (mb : Nat) (hmb : 0 < mb) (gz : Bool) (x z hd tail : List UInt8) (hz : Enc x z)
    (hhd : IsHeader hd) (is : Src) (hr : is.rest = (if gz then hd else []) ++ (z ++ tail)) (ns : List Nat)
    (hn : ∀ n ∈ ns, 0 < n ∧ n < 2 ^ 31) (outs : List (List UInt8)) (d : Dec I)
    (he : (Dec.new I gz is).reads mb ns = .ok (outs, d)) (n : Nat) (hn2 : n < 2 ^ 31) :
    (outs.flatten.length + n ≤ x.length → ∃ d', d.read mb n = .ok ((x.drop outs.flatten.length).take n, d')) ∧
    (x.length < outs.flatten.length + n → d.read mb n = .throw) := by
  have ha : At h z x (z ++ tail) (Dec.new I gz is) [] := at_new h hz gz is hd hhd hr (Or.inr ⟨tail, rfl⟩)
  obtain ⟨outs', d', e1, a, -, -, -, -⟩ | ⟨-, hne⟩ := reads_at h hmb ns hn _ _ ha
  · rw [he] at e1
    cases e1
    rw [List.nil_append] at a
    obtain ⟨d', e2, l, -⟩ | ⟨e2, l⟩ := readAllLoop_at h hmb n n (Nat.le_refl _) hn2 d _ a
    · exact ⟨fun _ => ⟨d', e2⟩, fun hl => by omega⟩
    · refine ⟨fun hl => ?_, fun _ => e2⟩
      rcases l with l | l
      · omega
      · exact absurd ⟨tail, rfl⟩ l
  · exact absurd ⟨tail, rfl⟩ hne

/-- C67.  A stream that breaks off inside the compressed data never looks complete: what is returned before the exception
is a beginning of `x`, no empty block is returned, `isEmpty` never answers true, and after at most `x.length` blocks an
exception comes. -/
theorem C67_truncated (h : Inflates I Enc) (mb : Nat) (hmb : 0 < mb) (gz : Bool) (x z hd T : List UInt8) (hz : Enc x z)
    (hhd : IsHeader hd) (is : Src) (hr : is.rest = (if gz then hd else []) ++ T) (hT : T <+: z) (hne : T ≠ z) (ns : List Nat)
    (hn : ∀ n ∈ ns, 0 < n ∧ n < 2 ^ 31) :
    (∃ outs d, (Dec.new I gz is).reads mb ns = .ok (outs, d) ∧ outs.flatten <+: x ∧ [] ∉ outs ∧ d.isEmpty = false ∧
      ns.length ≤ x.length) ∨
    (Dec.new I gz is).reads mb ns = .throw := by
  have hnz : ¬ z <+: T := fun hz => hne (hT.eq_of_length (Nat.le_antisymm hT.length_le hz.length_le))
  have ha : At h z x T (Dec.new I gz is) [] := at_new h hz gz is hd hhd hr (Or.inl hT)
  obtain ⟨outs, d, e1, a, ⟨l1, -⟩, m1, -, -⟩ | ⟨e, -⟩ := reads_at h hmb ns hn _ _ ha
  · rw [List.nil_append] at a
    have hf : d.isEmpty = false := by
      cases he : d.isEmpty with
      | false => rfl
      | true => exact absurd (a.empty he).2.seen hnz
    have hm : [] ∉ outs := fun hm => by rw [m1 hm] at hf; cases hf
    refine Or.inl ⟨outs, d, e1, a.prefixed, hm, hf, ?_⟩
    have := length_le_flatten outs hm
    have := a.prefixed.length_le
    omega
  · exact Or.inr e

/-- C67.  Round trip: what the compressor wrote, in any number of calls, is read back by the decompressor, whatever the
sizes of the buffers, the calls and the fragments. -/
theorem C67_roundtrip (hD : Deflates D Enc) (hI : Inflates I Enc) (mb mb' : Nat) (hmb : 0 < mb) (hmb' : 0 < mb') (gz : Bool)
    (ws : List (List UInt8)) (hw : ∀ b ∈ ws, b.length < 2 ^ 31) (ns : List Nat) (hn : ∀ n ∈ ns, 0 < n ∧ n < 2 ^ 31)
    (hl : ws.flatten.length < ns.length) (frag : Nat → Nat) :
    ∃ N, ∀ fuel, N ≤ fuel → ∃ c c', Comp.writes mb fuel (Comp.new D gz) ws = .ok c ∧ c.flush mb fuel = .ok c' ∧
      ∃ outs d, (Dec.new I gz ⟨c'.os, frag, 0⟩).reads mb' ns = .ok (outs, d) ∧ outs.flatten = ws.flatten ∧
        d.isEmpty = true := by
  obtain ⟨N, z, hz, hN⟩ := C67_compress hD mb hmb gz ws hw
  refine ⟨N, fun fuel hf => ?_⟩
  obtain ⟨c, c', e1, e2, hos, -⟩ := hN fuel hf
  refine ⟨c, c', e1, e2, ?_⟩
  cases gz with
  | true =>
    exact C67_decompress_all hI mb' hmb' true ws.flatten z Gzip.header
      (bytesLE 4 (D.crc32 (D.crc32 0 []) ws.flatten) ++ bytesLE 4 (ws.flatten.length % 2 ^ 32)) hz own_header _
      (by rw [hos]; simp [framed, List.append_assoc]) ns hn hl
  | false =>
    exact C67_decompress_all hI mb' hmb' false ws.flatten z Gzip.header [] hz own_header _
      (by rw [hos]; simp [framed]) ns hn hl

/-- FINDING: the decompressor does not look at the gzip trailer; with any other bytes in its place, or none, the data is
accepted as complete. -/
theorem C67_finding_trailer_ignored (h : Inflates I Enc) (mb : Nat) (hmb : 0 < mb) (x z trailer : List UInt8) (hz : Enc x z)
    (frag : Nat → Nat) (ns : List Nat) (hn : ∀ n ∈ ns, 0 < n ∧ n < 2 ^ 31) (hl : x.length < ns.length) :
    ∃ outs d, (Dec.new I true ⟨Gzip.header ++ (z ++ trailer), frag, 0⟩).reads mb ns = .ok (outs, d) ∧ outs.flatten = x ∧
      d.isEmpty = true :=
  C67_decompress_all h mb hmb true x z Gzip.header trailer hz own_header _ rfl ns hn hl

/-! The hypotheses are met by a small codec (`Proof/ZlibToy`). -/

example : Nonempty (Deflates Toy.D Toy.Enc) ∧ Nonempty (Inflates Toy.I Toy.Enc) := ⟨⟨Toy.deflates⟩, ⟨Toy.inflates⟩⟩

example : (do
    let c ← Comp.writes 3 10 (Comp.new Toy.D true) [[7, 8], [], [9]]
    let c ← c.flush 3 10
    let (outs, d) ← (Dec.new Toy.I true ⟨c.os, fun i => i % 2, 0⟩).reads 2 [1, 5, 1, 1]
    return (c.os, outs, d.isEmpty)) =
    .ok ([0x1f, 0x8b, 8, 0, 0, 0, 0, 0, 0, 3] ++ [1, 7, 1, 8, 1, 9, 0] ++ [3, 0, 0, 0] ++ [3, 0, 0, 0],
      [[7], [8], [9], []], true) := by decide +kernel

example : (do
    let (outs, d) ← (Dec.new Toy.I false ⟨[1, 7, 1, 8, 1], fun _ => 0, 0⟩).reads 2 [1, 5, 1, 1]
    return (outs, d.isEmpty)) = .throw := by decide +kernel

#print axioms C67_compress
#print axioms C67_too_large
#print axioms C67_too_large_read
#print axioms C67_write_after_flush
#print axioms C67_decompress
#print axioms C67_decompress_all
#print axioms C67_read
#print axioms C67_truncated
#print axioms C67_roundtrip
#print axioms C67_finding_trailer_ignored

end Verif.Props.Zlib
