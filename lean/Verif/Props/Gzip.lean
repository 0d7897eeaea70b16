import Verif.Proof.Gzip
set_option linter.unusedSimpArgs false

/-!
# C53: the gzip header is skipped exactly
-/
namespace Verif.Props.Gzip
open Verif.Gzip Verif.Spec.Gzip Verif.Spec.Endian
open Verif.Stream (Src)

/-- A stream that starts with a member header (in any combination of optional parts, however the stream delivers its
bytes) is left exactly behind the header. -/
theorem C53_skips_header (s : Src) (h rest : List UInt8) (hs : s.rest = h ++ rest) (hh : IsHeader h) :
    ∃ s', readGzipHeader s = .ok s' ∧ s'.rest = rest := by
  obtain ⟨k, s', e, hk, er⟩ | ⟨_, hn⟩ := header_parses s
  · refine ⟨s', er, ?_⟩
    rw [hs] at e
    obtain rfl := header_prefixFree _ _ _ _ hh hk e
    exact (List.append_cancel_left e).symm
  · exact absurd hh (hn h rest hs)

/-- Otherwise - wrong magic number or method, a reserved flag, a stream that ends inside the header - it throws. -/
theorem C53_throws (s : Src) (hn : ∀ h rest, s.rest = h ++ rest → ¬ IsHeader h) : readGzipHeader s = .throw := by
  obtain ⟨k, s', e, hk, er⟩ | ⟨e, _⟩ := header_parses s
  · exact absurd hk (hn k s'.rest e)
  · exact e

/-- The rejected streams, spelled out: too short, or one of the first four bytes is not what it must be. -/
theorem C53_bad_fixed_part (s : Src)
    (hb : s.rest.length < 10 ∨ s.rest[0]? ≠ some 0x1f ∨ s.rest[1]? ≠ some 0x8b ∨ s.rest[2]? ≠ some 8 ∨
      ∃ flg, s.rest[3]? = some flg ∧ 32 ≤ flg.toNat) :
    readGzipHeader s = .throw := by
  apply C53_throws
  rintro _ rest he ⟨flg, six, x, n, c, r, rfl, hf, h6, _⟩
  rw [he] at hb
  obtain hb | hb | hb | hb | ⟨flg', hb, hf'⟩ := hb
  · simp at hb; omega
  · simp at hb
  · simp at hb
  · simp at hb
  · simp at hb
    subst hb
    omega

/-- A header cut anywhere throws. -/
theorem C53_truncated (s : Src) (h cut : List UInt8) (hh : IsHeader h) (hc : cut ≠ []) (hs : s.rest ++ cut = h) :
    readGzipHeader s = .throw := by
  apply C53_throws
  intro k rest he hk
  have e := header_prefixFree k h (rest ++ cut) [] hk hh (by rw [List.append_nil, ← hs, he, List.append_assoc])
  have := congrArg List.length e
  have hl : 0 < cut.length := List.length_pos_iff.2 hc
  rw [← hs, he, List.length_append, List.length_append] at this
  omega

/-- What the compressor writes in front is such a header. -/
theorem C53_own_header : IsHeader header :=
  ⟨0, [0, 0, 0, 0, 0, 3], [], [], [], [], rfl, by decide, rfl, rfl, rfl, rfl, rfl⟩

/-- The trailer is the CRC and the size modulo `2^32`, least significant byte first. -/
theorem C53_trailer (crc total : Nat) : trailer crc total = .ok (bytesLE 4 crc ++ bytesLE 4 total) := by
  rw [trailer, Endian.set32LEMem, Stream.store_ok _ _ _ (by simp), Res.ok_bind, Endian.set32LEMem,
    Stream.store_ok _ _ _ (by simp [Spec.Stream.splice])]
  rw [Endian.memBytes_eq, Endian.memBytes_eq]
  simp [Spec.Stream.splice, List.take_append_of_le_length, List.drop_eq_nil_of_le]

/-- A header with all parts: FLG = 0x1e, extra field of 3 bytes, name "ab", comment "", header CRC. -/
def sample : List UInt8 := [0x1f, 0x8b, 8, 0x1e, 1, 2, 3, 4, 0, 3, 3, 0, 7, 0, 9, 97, 98, 0, 0, 5, 6]

theorem sample_isHeader : IsHeader sample :=
  ⟨0x1e, [1, 2, 3, 4, 0, 3], [3, 0, 7, 0, 9], [97, 98, 0], [0], [5, 6], rfl, by decide, rfl, ⟨3, 0, [7, 0, 9], rfl, rfl⟩,
    ⟨[97, 98], rfl, by decide⟩, ⟨[], rfl, by decide⟩, rfl⟩

example : (readGzipHeader ⟨sample ++ [1, 2, 3], fun i => i % 3, 0⟩).bind (fun s => .ok s.rest) = .ok [1, 2, 3] := by
  decide +kernel

example : (readGzipHeader ⟨sample.take 20, fun i => i % 3, 0⟩).bind (fun s => .ok s.rest) = .throw := by
  decide +kernel

/-- FINDING: the 16-bit header CRC is skipped without being compared, so a corrupted header is accepted: the same
header with any other CRC. -/
theorem C53_finding_header_crc_ignored (a b : UInt8) (rest : List UInt8) :
    ∃ s', readGzipHeader ⟨sample.take 19 ++ [a, b] ++ rest, fun _ => 0, 0⟩ = .ok s' ∧ s'.rest = rest :=
  C53_skips_header _ (sample.take 19 ++ [a, b]) rest rfl
    ⟨0x1e, [1, 2, 3, 4, 0, 3], [3, 0, 7, 0, 9], [97, 98, 0], [0], [a, b], rfl, by decide, rfl, ⟨3, 0, [7, 0, 9], rfl, rfl⟩,
    ⟨[97, 98], rfl, by decide⟩, ⟨[], rfl, by decide⟩, rfl⟩

end Verif.Props.Gzip

#print axioms Verif.Props.Gzip.C53_skips_header
#print axioms Verif.Props.Gzip.C53_throws
#print axioms Verif.Props.Gzip.C53_bad_fixed_part
#print axioms Verif.Props.Gzip.C53_truncated
#print axioms Verif.Props.Gzip.C53_own_header
#print axioms Verif.Props.Gzip.C53_trailer
