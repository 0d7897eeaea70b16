import Verif.Proof.SerStream
import Verif.Props.Stream
import Verif.Props.PartialIO
import Verif.Props.Zlib
set_option linter.unusedSimpArgs false

/-! # C118: the serializer over the streams of the library -/
namespace Verif.Props.SerStream
open Verif Verif.SerStream Verif.Spec.SerStream
open Verif.Serializer (Ty Val)
open Verif.Spec.Serializer Verif.Spec.Stream
open Verif.Stream (MemIn MemOut Src splice_splice splice_length splice_nil)
open Verif.PartialIO (Dev Ans)

variable {σ τ : Type}
variable (ord same : (t : Ty) → Val t → Val t → Bool)

/-- An object saved field by field is loaded back, from every class of streams that serves, and exactly its bytes are taken. -/
theorem C118_load {I : In σ} {Rest : σ → List UInt8 → Prop} (hs : Serves I Rest) (old x : Object) (h : Ready ord same old x) (s : σ)
    (rest : List UInt8) (hr : Rest s (bytes x ++ rest)) : ∃ s', loadObject ord same I old s = .ok (x, s') ∧ Rest s' rest :=
  object_ok ord same hs h s rest hr

/-- A truncated object throws, for every class of streams that also ends properly. -/
theorem C118_truncated {I : In σ} {Rest : σ → List UInt8 → Prop} (hs : Serves I Rest) (he : Ends I Rest) (old x : Object)
    (h : Ready ord same old x) (s : σ) (p : List UInt8) (hr : Rest s p) (hp : p <+: bytes x) (hne : p ≠ bytes x) :
    loadObject ord same I old s = .throw := object_short ord same hs he h s p hr hp hne

/-- On any content at all nothing undefined happens. -/
theorem C118_never_undefined {I : In σ} {Rest : σ → List UInt8 → Prop} (hs : Serves I Rest) (he : Ends I Rest) (old : Object) (s : σ)
    (l : List UInt8) (hr : Rest s l) : loadObject ord same I old s ≠ .ub := by
  induction old generalizing s l with
  | nil => simp [loadObject]
  | cons f fs ih =>
    obtain ⟨t, o⟩ := f
    rw [loadObject]
    have hsim := sim_load ord same hs t o (src l) s hr
    cases hf : Serializer.load ord same t o (src l) with
    | ok p =>
      obtain ⟨s1, e1, r1⟩ := hsim.1 p.1 p.2 hf
      rw [e1, Res.ok_bind]
      simp only
      have := ih s1 _ r1
      cases hl : loadObject ord same I fs s1 with
      | ok q => simp
      | throw => simp
      | ub => exact absurd hl this
    | throw => rw [hsim.2 he hf]; simp
    | ub => exact absurd hf (Serializer.load_safe ord same t o (src l))

/-- A class of output streams that takes everything that fits receives exactly the bytes of the object. -/
theorem C118_save {O : Out σ} {Got : σ → List UInt8 → Prop} {Fit : List UInt8 → List UInt8 → Prop} (ht : Takes O Got Fit) (x : Object) (s : σ)
    (l : List UInt8) (hg : Got s l) (hf : AllFit Fit l (calls x)) : ∃ s', saveObject O x s = .ok s' ∧ Got s' (l ++ bytes x) := by
  obtain ⟨s', e, g⟩ := writeAll_takes ht (calls x) s l hg hf
  rw [calls_flatten] at g
  exact ⟨s', by rw [saveObject_eq]; exact e, g⟩

/-! ## The input streams -/

def MemRest (m : MemIn) (l : List UInt8) : Prop :=
  m.pos ≤ m.size ∧ m.size ≤ m.data.length ∧ m.size < 2 ^ 64 ∧ l = (m.data.take m.size).drop m.pos

def StrRest (s : List UInt8 × Nat) (l : List UInt8) : Prop := s.2 ≤ s.1.length ∧ s.1.length < 2 ^ 64 ∧ l = s.1.drop s.2

/-- `MemoryInputStream` serves what is left of its memory, and ends. -/
theorem C118_memory_input : Serves memIn MemRest ∧ Ends memIn MemRest := by
  refine ⟨⟨?_⟩, ⟨?_⟩⟩
  · rintro m l buf off size ⟨h1, h2, h3, rfl⟩ hne h0 hb
    obtain ⟨e, h⟩ := Stream.C22_memory_input m buf off size h1 h2 h3 hb
    have hl : ((m.data.take m.size).drop m.pos).length = m.size - m.pos := by simp; omega
    have hpos : 0 < m.size - m.pos := by rw [← hl]; exact List.length_pos_iff.mpr hne
    refine .inl ⟨_, _, ?_, ?_, ?_, e, ?_⟩
    · omega
    · omega
    · rw [hl]; omega
    · exact ⟨h, h2, h3, by simp [List.drop_drop]⟩
  · rintro m buf off size ⟨h1, h2, h3, h4⟩ h0 hb
    obtain ⟨e, h⟩ := Stream.C22_memory_input m buf off size h1 h2 h3 hb
    have hl : ((m.data.take m.size).drop m.pos).length = m.size - m.pos := by simp; omega
    rw [← h4] at hl
    have hz : min size (m.size - m.pos) = 0 := by simp at hl; omega
    simp only [hz] at e
    exact .inl ⟨_, _, e⟩

/-- `StringInputStream` likewise. -/
theorem C118_string_input : Serves strIn StrRest ∧ Ends strIn StrRest := by
  refine ⟨⟨?_⟩, ⟨?_⟩⟩
  · rintro ⟨data, pos⟩ l buf off size ⟨h1, h3, rfl⟩ hne h0 hb
    simp only at h1 h3 hne ⊢
    obtain ⟨e, h⟩ := Stream.C22_string_input data buf pos off size h1 h3 hb
    have hpos : 0 < data.length - pos := by rw [← List.length_drop]; exact List.length_pos_iff.mpr hne
    refine .inl ⟨min size (data.length - pos), (data, pos + min size (data.length - pos)), by omega, by omega, by simp; omega, ?_, ?_⟩
    · simp only [strIn]
      rw [e]
      rfl
    · exact ⟨h, h3, by simp [List.drop_drop]⟩
  · rintro ⟨data, pos⟩ buf off size ⟨h1, h3, h4⟩ h0 hb
    simp only at h1 h3 h4
    obtain ⟨e, h⟩ := Stream.C22_string_input data buf pos off size h1 h3 hb
    have hl : data.length - pos = 0 := by rw [← List.length_drop, ← h4]; rfl
    have hz : min size (data.length - pos) = 0 := by omega
    simp only [hz] at e
    refine .inl ⟨splice buf off ((data.drop pos).take 0), (data, pos + 0), ?_⟩
    · simp only [strIn]
      rw [e]
      rfl

/-- `std::istream` likewise. -/
theorem C118_istream : Serves istream (fun s l => s = l) ∧ Ends istream (fun s l => s = l) := by
  have amt : ∀ (rest : List UInt8) (size : Nat), Stream.IStream.amount rest size ≤ size ∧ Stream.IStream.amount rest size ≤ rest.length ∧
      (0 < size → rest ≠ [] → 0 < Stream.IStream.amount rest size) := by
    intro rest size
    obtain ⟨a, b, c⟩ := Stream.C22_zero_only_at_end rest size
    refine ⟨b, c, fun h1 h2 => ?_⟩
    rcases Nat.eq_zero_or_pos (Stream.IStream.amount rest size) with h | h
    · rcases a.mp h with h | h
      · omega
      · exact absurd h h2
    · exact h
  have eq : ∀ (rest buf : List UInt8) (off size : Nat), off + size ≤ buf.length → istream.readSome buf off size rest =
      .ok (splice buf off (rest.take (Stream.IStream.amount rest size)), Stream.IStream.amount rest size,
        rest.drop (Stream.IStream.amount rest size)) := by
    intro rest buf off size hb
    have := amt rest size
    simp only [istream]
    rw [Stream.store_ok _ _ _ (by simp; omega)]
    rfl
  refine ⟨⟨?_⟩, ⟨?_⟩⟩
  · rintro s l buf off size rfl hne h0 hb
    obtain ⟨a, b, c⟩ := amt s size
    exact .inl ⟨_, _, c h0 hne, a, b, eq s buf off size hb, rfl⟩
  · rintro s buf off size rfl h0 hb
    obtain ⟨a, b, c⟩ := amt [] size
    have hz : Stream.IStream.amount [] size = 0 := by simpa using b
    have := eq [] buf off size hb
    rw [hz] at this
    exact .inl ⟨_, _, this⟩

/-- The `VecInputStream` of the sample serves what it has. -/
theorem C118_sample_input : Serves vecIn StrRest := by
  refine ⟨?_⟩
  rintro ⟨data, pos⟩ l buf off size ⟨h1, h3, rfl⟩ hne h0 hb
  simp only at h1 h3 hne ⊢
  have hpos : 0 < data.length - pos := by rw [← List.length_drop]; exact List.length_pos_iff.mpr hne
  have hroom : (data.length + 2 ^ 64 - pos) % 2 ^ 64 = data.length - pos := by omega
  refine .inl ⟨min size (data.length - pos), (data, pos + min size (data.length - pos)), by omega, by omega, by simp; omega, ?_, ?_⟩
  · simp only [vecIn, hroom]
    rw [if_pos (by omega), Stream.store_ok _ _ _ (by simp; omega)]
    rfl
  · exact ⟨by simp only; omega, h3, by simp [List.drop_drop]⟩

/-- Finding: at its end it is undefined: `&data[pos]` behind the last element.  So a truncated file is not an exception. -/
theorem C118_finding_sample_end (data : List UInt8) (t : Ty) (old : Val t) (ht : t ≠ .pod 0) :
    load ord same vecIn t old (data, data.length) = .ub := by
  have hr : ∀ n, 0 < n → loadRange vecIn n (data, data.length) = .ub := by
    intro n hn
    rw [loadRange, Verif.SerStream.read, readLoop, if_pos hn]
    simp [vecIn]
  have hp : ∀ n, 0 < n → loadPod vecIn n (data, data.length) = .ub := by
    intro n hn
    rw [loadPod, hr n hn]; rfl
  have hi : ∀ w, loadVariableInt vecIn w (data, data.length) = .ub := by
    intro w
    rw [loadVariableInt, hp 1 (by omega)]; rfl
  have hz : loadSize vecIn (data, data.length) = .ub := by
    rw [loadSize, hi]; rfl
  cases t with
  | pod n =>
    have : n ≠ 0 := by rintro rfl; exact ht rfl
    exact hp n (by omega)
  | int l => exact hi _
  | str => rw [load, loadStr, hz]; rfl
  | podVec n => rw [load, loadPodVec, hz]; rfl
  | seq t => rw [load, hz]; rfl
  | set t => rw [load, hz]; rfl
  | map k v => rw [load, hz]; rfl
  | umap k v => rw [load, hz]; rfl

/-- The system answers without error, moves at least one byte, and does not interrupt `fuel` times in a row. -/
structure Calm (fuel : Nat) (ans : Nat → Ans) : Prop where
  noError : ∀ i, ans i ≠ .error
  moves : ∀ i, ans i ≠ .move 0
  awake : ∀ i, ∃ j, j < fuel ∧ ans (i + j) ≠ .eintr

theorem device_some (fuel : Nat) : ∀ (buf : List UInt8) (off size : Nat) (d : Dev), (∀ i, d.ans i ≠ .error) → (∀ i, d.ans i ≠ .move 0) →
    (∃ j, j < fuel ∧ d.ans (d.calls + j) ≠ .eintr) → 0 < size → off + size ≤ buf.length →
    ∃ n d', PartialIO.readSome fuel buf off size d = (.done, n, splice buf off (d.rest.take n), d') ∧ n ≤ size ∧ n ≤ d.rest.length ∧
      (d.rest ≠ [] → 0 < n) ∧ d'.rest = d.rest.drop n ∧ d'.ans = d.ans := by
  induction fuel with
  | zero => intro buf off size d _ _ ⟨j, h, _⟩; omega
  | succ fuel ih =>
    intro buf off size d he hm ⟨j, hj, ha⟩ h0 hb
    rw [PartialIO.readSome]
    cases hans : d.ans d.calls with
    | move k =>
      have hk : k ≠ 0 := by rintro rfl; exact hm _ hans
      simp only [Dev.read, hans]
      have hn : min k (min (min 0x7fffffff size) d.rest.length) ≤ d.rest.length := by omega
      generalize hn' : min k (min (min 0x7fffffff size) d.rest.length) = n at hn
      rw [if_neg (by omega), if_pos (by simp; omega)]
      refine ⟨n, _, rfl, by omega, hn, ?_, rfl, rfl⟩
      intro hne
      have := List.length_pos_iff.mpr hne
      omega
    | eintr =>
      simp only [Dev.read, hans]
      rw [if_pos (by omega)]
      simp only [if_true]
      have : j ≠ 0 := by rintro rfl; exact ha (by simpa using hans)
      exact ih buf off size _ he hm ⟨j - 1, by omega, by
        simp only
        rw [show d.calls + 1 + (j - 1) = d.calls + j by omega]; exact ha⟩ h0 hb
    | error => exact absurd hans (he _)

/-- `cybozu::File` and `cybozu::Socket` serve what the descriptor delivers, however the system splits and interrupts it, and end. -/
theorem C118_device (fuel : Nat) (ans : Nat → Ans) (h : Calm fuel ans) :
    Serves (device fuel) (fun d l => d.ans = ans ∧ d.rest = l) ∧ Ends (device fuel) (fun d l => d.ans = ans ∧ d.rest = l) := by
  have key : ∀ (buf : List UInt8) (off size : Nat) (d : Dev), d.ans = ans → 0 < size → off + size ≤ buf.length →
      ∃ n d', (device fuel).readSome buf off size d = .ok (splice buf off (d.rest.take n), n, d') ∧ n ≤ size ∧ n ≤ d.rest.length ∧
        (d.rest ≠ [] → 0 < n) ∧ d'.rest = d.rest.drop n ∧ d'.ans = d.ans := by
    intro buf off size d hd h0 hb
    subst hd
    obtain ⟨n, d', e, r⟩ := device_some fuel buf off size d h.noError h.moves (h.awake _) h0 hb
    refine ⟨n, d', ?_, r⟩
    simp only [device]
    rw [e]
  refine ⟨⟨?_⟩, ⟨?_⟩⟩
  · rintro d l buf off size ⟨h1, rfl⟩ hne h0 hb
    obtain ⟨n, d', e, a, b, c, r1, r2⟩ := key buf off size d h1 h0 hb
    exact .inl ⟨n, d', c hne, a, b, e, r2.trans h1, r1⟩
  · rintro d buf off size ⟨h1, h2⟩ h0 hb
    obtain ⟨n, d', e, a, b, c, r1, r2⟩ := key buf off size d h1 h0 hb
    rw [h2] at b
    obtain rfl : n = 0 := by simpa using b
    exact .inl ⟨_, _, e⟩

/-- Whatever the system answers, reading from `cybozu::File` and `cybozu::Socket` into memory that has room delivers the next bytes or throws;
an error of the system, after any interruptions, is an exception. -/
theorem C118_device_never_undefined (fuel : Nat) : ∀ (buf : List UInt8) (off size : Nat) (d : Dev), off + size ≤ buf.length →
    ((∃ n d', (device fuel).readSome buf off size d = .ok (splice buf off (d.rest.take n), n, d') ∧ n ≤ size ∧ n ≤ d.rest.length ∧
        d'.rest = d.rest.drop n) ∨ (device fuel).readSome buf off size d = .throw) ∧
      (∀ j, (∀ i, i < j → d.ans (d.calls + i) = .eintr) → d.ans (d.calls + j) = .error → (device fuel).readSome buf off size d = .throw) := by
  induction fuel with
  | zero =>
    intro buf off size d _
    exact ⟨.inr rfl, fun _ _ _ => rfl⟩
  | succ fuel ih =>
    intro buf off size d hb
    cases hans : d.ans d.calls with
    | move k =>
      constructor
      · left
        have e : ∃ n d', PartialIO.readSome (fuel + 1) buf off size d = (.done, n, splice buf off (d.rest.take n), d') ∧ n ≤ size ∧
            n ≤ d.rest.length ∧ d'.rest = d.rest.drop n := by
          rw [PartialIO.readSome]
          simp only [Dev.read, hans]
          generalize hn' : min k (min (min 0x7fffffff size) d.rest.length) = n
          rw [if_neg (by omega), if_pos (by simp; omega)]
          exact ⟨n, _, rfl, by omega, by omega, rfl⟩
        obtain ⟨n, d', e, r⟩ := e
        refine ⟨n, d', ?_, r⟩
        simp only [device]
        rw [e]
      · intro j h1 h2
        by_cases hj : j = 0
        · subst hj
          rw [Nat.add_zero, hans] at h2
          cases h2
        · have := h1 0 (by omega)
          rw [Nat.add_zero, hans] at this
          cases this
    | eintr =>
      have e : (device (fuel + 1)).readSome buf off size d = (device fuel).readSome buf off size { d with calls := d.calls + 1 } := by
        simp only [device]
        rw [PartialIO.readSome]
        simp only [Dev.read, hans]
        rw [if_pos (by omega)]
        rfl
      rw [e]
      obtain ⟨h1, h2⟩ := ih buf off size { d with calls := d.calls + 1 } hb
      refine ⟨h1, ?_⟩
      intro j h3 h4
      have hj : j ≠ 0 := by
        rintro rfl
        rw [Nat.add_zero, hans] at h4
        cases h4
      refine h2 (j - 1) ?_ ?_
      · intro i hi
        have := h3 (i + 1) (by omega)
        rw [← this]
        simp only
        congr 1
        omega
      · rw [← h4]
        simp only
        congr 1
        omega
    | error =>
      have e : (device (fuel + 1)).readSome buf off size d = .throw := by
        simp only [device]
        rw [PartialIO.readSome]
        simp only [Dev.read, hans]
        rw [if_pos (by omega)]
        rfl
      exact ⟨.inr e, fun _ _ _ => e⟩

example : (device 5).readSome [0, 0] 0 2 ⟨[], [1, 2], fun i => if i = 0 then .eintr else .error, 0⟩ = .throw := by rfl

section zlib
open Verif.Zlib Verif.Spec.Zlib Verif.Spec.Gzip
variable {Enc : List UInt8 → List UInt8 → Prop} {I : Inflater} {D : Deflater}

/-- The decompressor serves the original data, as long as it has less than 2 GiB, and ends. -/
theorem C118_inflate (h : Inflates I Enc) (mb : Nat) (hmb : 0 < mb) (x z T : List UInt8) (hz : z <+: T) (hx : x.length < 2 ^ 31) :
    Serves (inflate mb) (fun (d : Dec I) l => ∃ o, At h z x T d o ∧ l = x.drop o.length) ∧
    Ends (inflate mb) (fun (d : Dec I) l => ∃ o, At h z x T d o ∧ l = x.drop o.length) := by
  refine ⟨⟨?_⟩, ⟨?_⟩⟩
  · rintro d l buf off size ⟨o, ha, rfl⟩ hne h0 hb
    by_cases hbig : 2 ^ 31 ≤ size
    · refine .inr ⟨by simp; omega, ?_⟩
      simp only [inflate, Zlib.Dec.readSome]
      rw [if_pos hbig]
      rfl
    · obtain ⟨out, d', e, hl, ha', he⟩ | ⟨_, hn, _⟩ := readSome_at h hmb h0 (by omega) d o ha
      · have hp := ha'.prefixed
        have hne' : out ≠ [] := by
          rintro rfl
          have := (ha'.empty (he rfl)).1
          simp only [List.append_nil] at this
          subst this
          simp at hne
        have hpre : out <+: x.drop o.length := by
          obtain ⟨r, hr⟩ := hp
          refine ⟨r, ?_⟩
          rw [← hr, List.append_assoc, List.drop_left]
        have htake : (x.drop o.length).take out.length = out := by
          obtain ⟨r, hr⟩ := hpre
          rw [← hr, List.take_left]
        refine .inl ⟨out.length, d', List.length_pos_iff.mpr hne', hl, hpre.length_le, ?_, o ++ out, ha', ?_⟩
        · simp only [inflate]
          rw [e, Res.ok_bind]
          simp only
          rw [Stream.store_ok _ _ _ (by omega), htake]
          rfl
        · rw [List.drop_drop, List.length_append]
      · exact absurd hz hn
  · rintro d buf off size ⟨o, ha, hnil⟩ h0 hb
    by_cases hbig : 2 ^ 31 ≤ size
    · right
      simp only [inflate, Zlib.Dec.readSome]
      rw [if_pos hbig]
      rfl
    · obtain ⟨out, d', e, hl, ha', he⟩ | ⟨_, hn, _⟩ := readSome_at h hmb h0 (by omega) d o ha
      · have hp := ha'.prefixed
        have : out = [] := by
          have h1 := hp.length_le
          have h2 : x.length - o.length = 0 := by rw [← List.length_drop, ← hnil]; rfl
          rw [List.length_append] at h1
          have h3 := ha.prefixed.length_le
          exact List.length_eq_zero_iff.mp (by omega)
        subst this
        left
        refine ⟨splice buf off [], d', ?_⟩
        simp only [inflate]
        rw [e, Res.ok_bind]
        simp only
        rw [Stream.store_ok _ _ _ (by simp; omega)]
        rfl
      · exact absurd hz hn

/-! ## The output streams -/

theorem writes_eq (mb fuel : Nat) (ws : List (List UInt8)) : ∀ c : Comp D, writeAll (deflate mb fuel) ws c = Comp.writes mb fuel c ws := by
  induction ws with
  | nil => intro c; rfl
  | cons w ws ih =>
    intro c
    rw [writeAll, Comp.writes]
    show (c.write mb fuel w >>= _) = _
    cases c.write mb fuel w with
    | ok c1 => exact ih c1
    | throw => rfl
    | ub => rfl

/-- An object saved through a compressor and loaded through a decompressor comes back, raw or gzip, for every buffer size and fragmentation,
if it takes less than 2 GiB. -/
theorem C118_compressed (hD : Deflates D Enc) (hI : Inflates I Enc) (mb mb' : Nat) (hmb : 0 < mb) (hmb' : 0 < mb') (gz : Bool) (old x : Object)
    (h : Ready ord same old x) (hx : (bytes x).length < 2 ^ 31) (frag : Nat → Nat) :
    ∃ N, ∀ fuel, N ≤ fuel → ∃ c c', saveObject (deflate mb fuel) x (Comp.new D gz) = .ok c ∧ c.flush mb fuel = .ok c' ∧
      ∃ d, loadObject ord same (inflate mb') old (Dec.new I gz ⟨c'.os, frag, 0⟩) = .ok (x, d) := by
  have hlen : ∀ b ∈ calls x, b.length < 2 ^ 31 := by
    intro b hb
    have : b.length ≤ (calls x).flatten.length := List.Sublist.length_le (List.sublist_flatten_of_mem hb)
    rw [calls_flatten] at this
    omega
  obtain ⟨N, z, hz, hN⟩ := Verif.Props.Zlib.C67_compress hD mb hmb gz (calls x) hlen
  rw [calls_flatten] at hz
  refine ⟨N, fun fuel hf => ?_⟩
  obtain ⟨c, c', e1, e2, hos, -⟩ := hN fuel hf
  refine ⟨c, c', by rw [saveObject_eq, writes_eq, e1], e2, ?_⟩
  obtain ⟨hd, T, hhd, hr, hT⟩ : ∃ hd T, IsHeader hd ∧ c'.os = (if gz then hd else []) ++ T ∧ z <+: T := by
    rw [hos]
    cases gz with
    | true => exact ⟨Gzip.header, _, Verif.Props.Zlib.own_header, by simp [Verif.Props.Zlib.framed]; rfl, List.prefix_append _ _⟩
    | false => exact ⟨Gzip.header, z, Verif.Props.Zlib.own_header, by simp [Verif.Props.Zlib.framed], List.prefix_refl _⟩
  have ha : At hI z (bytes x) T (Dec.new I gz ⟨c'.os, frag, 0⟩) [] := at_new hI hz gz _ hd hhd hr (.inr hT)
  obtain ⟨d, e, _⟩ := C118_load ord same (C118_inflate hI mb' hmb' (bytes x) z T hT hx).1 old x h _ [] ⟨[], ha, by simp⟩
  exact ⟨d, e⟩

end zlib

/-- Streams that append take everything: `StringOutputStream`, the `VecOutputStream` of the sample, `std::ostream`. -/
theorem C118_string_output (s0 : List UInt8) : Takes strOut (fun s l => s = s0 ++ l) (fun _ _ => True) := by
  refine ⟨?_⟩
  rintro s l b rfl _
  exact ⟨_, rfl, by rw [List.append_assoc]⟩

def MemGot (m0 m : MemOut) (l : List UInt8) : Prop := m.size = m0.size ∧ m.pos = m0.pos + l.length ∧ m.pos ≤ m.size ∧ m.mem = splice m0.mem m0.pos l

/-- `MemoryOutputStream` takes what fits in its memory. -/
theorem C118_memory_output (m0 : MemOut) (h1 : m0.size ≤ m0.mem.length) (h2 : m0.size < 2 ^ 64) :
    Takes memOut (MemGot m0) (fun l b => m0.pos + l.length + b.length ≤ m0.size) := by
  refine ⟨?_⟩
  rintro m l b ⟨g1, g2, g3, g4⟩ hf
  have hroom : (m.size + 2 ^ 64 - m.pos) % 2 ^ 64 = m.size - m.pos := by omega
  have hl : m.mem.length = m0.mem.length := by rw [g4, splice_length _ _ _ (by omega)]
  refine ⟨{ m with mem := splice m.mem m.pos b, pos := m.pos + b.length }, ?_, g1, ?_, ?_, ?_⟩
  · simp only [memOut, MemOut.write, MemOut.writeFlag, hroom]
    rw [if_neg (by omega), Stream.store_ok _ _ _ (by omega)]
    rfl
  · simp only [List.length_append]; omega
  · simp only; omega
  · simp only
    rw [g4, g2, splice_splice _ _ _ _ (by omega)]

/-- Into memory that is too small, `save` throws: it never writes outside. -/
theorem C118_memory_full (m : MemOut) (h0 : m.pos ≤ m.size) (h1 : m.size ≤ m.mem.length) (h2 : m.size < 2 ^ 64) (x : Object)
    (hx : m.size < m.pos + (bytes x).length) : saveObject memOut x m = .throw := by
  rw [saveObject_eq]
  rw [← calls_flatten] at hx
  generalize calls x = ws at hx
  induction ws generalizing m with
  | nil => simp at hx; omega
  | cons w ws ih =>
    have hroom : (m.size + 2 ^ 64 - m.pos) % 2 ^ 64 = m.size - m.pos := by omega
    rw [writeAll]
    by_cases hw : w.length > m.size - m.pos
    · have : memOut.write w m = .throw := by
        simp only [memOut, MemOut.write, MemOut.writeFlag, hroom]
        rw [if_pos hw]
        rfl
      rw [this]; rfl
    · have : memOut.write w m = .ok { m with mem := splice m.mem m.pos w, pos := m.pos + w.length } := by
        simp only [memOut, MemOut.write, MemOut.writeFlag, hroom]
        rw [if_neg hw, Stream.store_ok _ _ _ (by omega)]
        rfl
      rw [this, Res.ok_bind]
      simp only [List.flatten_cons, List.length_append] at hx
      exact ih _ (by simp only; omega) (by simp only; rw [splice_length _ _ _ (by omega)]; exact h1) h2 (by simp only; omega)

/-- The rounds of `File::write` under a calm system. -/
theorem file_rounds (buf : List UInt8) (hb : buf.length < 2 ^ 64) (F : Nat) (ans : Nat → Ans) (h : Calm F ans) (fuel : Nat) :
    ∀ (p size : Nat) (d : Dev) (j : Nat), p + size = buf.length → d.ans = ans → ans (d.calls + j) ≠ .eintr → (if size = 0 then 1 ≤ fuel else size * F + j + 2 ≤ fuel + F) →
    (PartialIO.File.writeLoop fuel buf p size d).1 ≠ .running := by
  have hF : 0 < F := by obtain ⟨j, hj, _⟩ := h.awake 0; omega
  induction fuel with
  | zero =>
    intro p size d j hp hd hj hf
    exfalso
    by_cases h0 : size = 0
    · subst h0; simp at hf
    · rw [if_neg h0] at hf
      have : F ≤ size * F := Nat.le_mul_of_pos_left F (by omega)
      omega
  | succ fuel ih =>
    intro p size d j hp hd hj hf
    rw [PartialIO.File.writeLoop]
    by_cases h0 : size > 0
    · rw [if_pos h0, if_pos (by simp; omega)]
      cases ha : d.ans d.calls with
      | error => exact absurd (hd ▸ ha) (h.noError _)
      | eintr =>
        simp only [Dev.write, ha]
        rw [if_pos (by omega)]
        simp only [if_true]
        have hj0 : j ≠ 0 := by rintro rfl; rw [hd] at ha; exact hj (by simpa using ha)
        refine ih p size _ (j - 1) hp hd ?_ ?_
        · simp only
          rw [show d.calls + 1 + (j - 1) = d.calls + j by omega]; exact hj
        · rw [if_neg (by omega)] at hf ⊢; omega
      | move k =>
        have hk : k ≠ 0 := by rintro rfl; exact h.moves _ (hd ▸ ha)
        simp only [Dev.write, ha, Int.toNat_natCast, List.length_take, List.length_drop]
        have hn : min k (min (min 2147483647 size) (buf.length - p)) ≤ size := by omega
        have hn0 : 0 < min k (min (min 2147483647 size) (buf.length - p)) := by omega
        generalize min k (min (min 2147483647 size) (buf.length - p)) = n at hn hn0
        rw [if_neg (by omega)]
        have e1 : PartialIO.subSize size n = size - n := by
          rw [PartialIO.subSize]
          have : ((size : Int) - n) % 2 ^ 64 = size - n := Int.emod_eq_of_lt (by omega) (by omega)
          rw [this]; omega
        have e2 : (p : Int) + n = ((p + n : Nat) : Int) := by omega
        rw [e1, e2]
        obtain ⟨j', hj', ha'⟩ := h.awake (d.calls + 1)
        refine ih (p + n) (size - n) _ j' (by omega) hd ha' ?_
        rw [if_neg (by omega)] at hf
        have : (size - n) * F + n * F = size * F := by rw [← Nat.add_mul]; congr 1; omega
        have : F ≤ n * F := Nat.le_mul_of_pos_left F hn0
        split <;> omega
    · rw [if_neg h0]; simp

/-- `cybozu::File` takes everything, however the system splits and interrupts it. -/
theorem C118_file_output (F fuel : Nat) (ans : Nat → Ans) (h : Calm F ans) (out : List UInt8) :
    Takes (fileOut fuel) (fun d l => d.ans = ans ∧ d.out = out ++ l) (fun _ b => b.length * F + 1 ≤ fuel ∧ b.length < 2 ^ 64) := by
  refine ⟨?_⟩
  rintro d l b ⟨hd, ho⟩ ⟨hf, hb⟩
  obtain ⟨j, hj, ha⟩ := h.awake d.calls
  have hr : (PartialIO.File.write fuel b d).1 ≠ .running := by
    have := file_rounds b hb F ans h fuel 0 b.length d j (by omega) hd ha (by split <;> omega)
    exact this
  obtain ⟨o, d', n, e, hn, hout, h3, _⟩ := PartialIO.write_inv b hb fuel 0 b.length d (by omega)
  have hans : d'.ans = d.ans := by simp_all
  have e' : PartialIO.File.write fuel b d = (o, d') := e
  obtain ⟨ho1, ho2⟩ | ⟨⟨_, i, _, _, hi⟩ | ho1, _⟩ := PartialIO.C54_file_write fuel b d hb
  · rw [e'] at ho1 ho2
    simp only at ho1 ho2
    subst ho1
    refine ⟨d', ?_, hans.trans hd, ?_⟩
    · simp only [fileOut]; rw [e']
    · rw [ho2, ho, List.append_assoc]
  · exact absurd (hd ▸ hi) (h.noError i)
  · exact absurd ho1 hr

/-- Whatever the system answers, `cybozu::File` takes the bytes or there is an exception. -/
theorem C118_file_never_undefined (fuel : Nat) (b : List UInt8) (hb : b.length < 2 ^ 64) (d : PartialIO.Dev) :
    (fileOut fuel).write b d ≠ .ub := by
  obtain ⟨ho1, _⟩ | ⟨⟨ho1, _⟩ | ho1, _⟩ := PartialIO.C54_file_write fuel b d hb
  all_goals
    intro h
    simp only [fileOut] at h
    split at h
    · cases h
    · simp_all
    · cases h

/-! ## Round trips -/

/-- Saved in memory that has room and loaded from the part that was written: the object again, and nothing is left. -/
theorem C118_memory_roundtrip (mem : List UInt8) (hm : mem.length < 2 ^ 64) (old x : Object) (h : Ready ord same old x)
    (hx : (bytes x).length ≤ mem.length) :
    ∃ m, saveObject memOut x ⟨mem, mem.length, 0⟩ = .ok m ∧ m.pos = (bytes x).length ∧ m.mem = bytes x ++ mem.drop (bytes x).length ∧
      ∃ i, loadObject ord same memIn old ⟨m.mem, m.pos, 0⟩ = .ok (x, i) ∧ i.pos = i.size := by
  obtain ⟨m, e, g1, g2, g3, g4⟩ := C118_save (C118_memory_output ⟨mem, mem.length, 0⟩ (Nat.le_refl _) hm) x _ [] ⟨rfl, rfl, Nat.zero_le _, by simp [splice]⟩ (by
    intro ws1 w ws2 hw
    have : ((ws1 ++ w :: ws2).flatten).length = (bytes x).length := by rw [← hw, calls_flatten]
    simp at this ⊢
    omega)
  simp only [List.nil_append, Nat.zero_add] at g1 g2 g3 g4
  have hmem : m.mem = bytes x ++ mem.drop (bytes x).length := by rw [g4]; simp [splice]
  refine ⟨m, e, g2, hmem, ?_⟩
  obtain ⟨i, e2, r1, r2, r3, r4⟩ := C118_load ord same C118_memory_input.1 old x h ⟨m.mem, m.pos, 0⟩ [] ⟨Nat.zero_le _, by
    simp only [hmem, g2]; simp, by simp only [g2]; omega, by simp [hmem, g2]⟩
  refine ⟨i, e2, ?_⟩
  have : ((i.data.take i.size).drop i.pos).length = 0 := by rw [← r4]; rfl
  simp at this
  omega

/-- Written to a file and read from it, by a system that splits and interrupts the calls as it likes: the object again. -/
theorem C118_file_roundtrip (F F' fuel : Nat) (wans rans : Nat → Ans) (hw : Calm F wans) (hr : Calm F' rans) (old x : Object)
    (h : Ready ord same old x) (hx : (bytes x).length < 2 ^ 64) (hf : (bytes x).length * F + 1 ≤ fuel) :
    ∃ d, saveObject (fileOut fuel) x ⟨[], [], wans, 0⟩ = .ok d ∧ d.out = bytes x ∧
      ∃ i, loadObject ord same (device F') old ⟨[], d.out, rans, 0⟩ = .ok (x, i) ∧ i.rest = [] := by
  obtain ⟨d, e, _, g⟩ := C118_save (C118_file_output F fuel wans hw []) x ⟨[], [], wans, 0⟩ [] ⟨rfl, rfl⟩ (by
    intro ws1 w ws2 hw
    have : ((ws1 ++ w :: ws2).flatten).length = (bytes x).length := by rw [← hw, calls_flatten]
    simp at this ⊢
    have : w.length * F ≤ (bytes x).length * F := Nat.mul_le_mul_right F (by omega)
    omega)
  simp only [List.nil_append] at g
  refine ⟨d, e, g, ?_⟩
  obtain ⟨i, e2, _, r⟩ := C118_load ord same (C118_device F' rans hr).1 old x h ⟨[], d.out, rans, 0⟩ [] ⟨rfl, by simp [g]⟩
  exact ⟨i, e2, r⟩

/-! ## Examples -/

/-- The `Data2` of the sample: a map from string to double, a set of int, a vector of float, a vector of UTF-16 strings, and an int. -/
def data2 : Object := [⟨.map .str (.pod 8), [([57], 1#64), ([97, 98], 2#64)]⟩, ⟨.set (.int false), [5#32, 55#32]⟩, ⟨.podVec 4, [7#32]⟩,
  ⟨.seq (.podVec 2), [[97#16, 98#16], []]⟩, ⟨.int false, 300#32⟩]

/-- A `Data2` before `load`: the map and the set are empty, the rest is not. -/
def fresh : Object := [⟨.map .str (.pod 8), []⟩, ⟨.set (.int false), []⟩, ⟨.podVec 4, [9#32, 9#32]⟩, ⟨.seq (.podVec 2), [[1#16]]⟩, ⟨.int false, 1#32⟩]

/-- The orders of the map and of the set. -/
def keyOrd : (t : Ty) → Val t → Val t → Bool
  | .str, a, b => decide (List.lex (α := UInt8) a b (· < ·) = true)
  | .int l, a, b => decide (BitVec.toInt (n := Verif.Serializer.width l) a < BitVec.toInt (n := Verif.Serializer.width l) b)
  | _, _, _ => false

example : Ready keyOrd keyOrd fresh data2 := by
  refine .cons _ _ _ _ _ ?_ (.inr rfl) (.cons _ _ _ _ _ ?_ (.inr rfl) (.cons _ _ _ _ _ ?_ (.inl trivial)
    (.cons _ _ _ _ _ ?_ (.inl trivial) (.cons _ _ _ _ _ trivial (.inl trivial) .nil))))
  · refine ⟨by decide, ?_, ?_⟩
    · intro e he
      simp only [List.mem_cons, List.not_mem_nil, or_false] at he
      rcases he with rfl | rfl <;> simp [Valid]
    · exact .cons (by intro a ha; simp only [List.mem_singleton] at ha; subst ha; decide +kernel) (.cons (by simp) .nil)
  · refine ⟨by decide, fun _ _ => trivial, ?_⟩
    exact .cons (by intro a ha; obtain rfl := List.mem_singleton.mp ha; decide +kernel) (.cons (by intro a ha; cases ha) .nil)
  · exact ⟨by decide, by decide⟩
  · refine ⟨by decide, ?_⟩
    intro e he
    simp only [List.mem_cons, List.not_mem_nil, or_false] at he
    rcases he with rfl | rfl
    · exact ⟨by decide, by decide⟩
    · exact ⟨by decide, by decide⟩
example : bytes data2 = [2, 1, 57, 1, 0, 0, 0, 0, 0, 0, 0, 2, 97, 98, 2, 0, 0, 0, 0, 0, 0, 0, 2, 5, 55, 1, 7, 0, 0, 0, 2, 2, 97, 0, 98, 0, 0,
  0x81, 44, 1] := by decide +kernel
example : (calls data2).length = 18 := by decide +kernel
-- a system that interrupts every second call and moves three bytes at a time
example : Calm 2 (fun i => if i % 2 = 0 then .eintr else .move 3) := by
  refine ⟨fun i => by split <;> simp, fun i => by split <;> simp, fun i => ?_⟩
  by_cases h : i % 2 = 0
  · exact ⟨1, by omega, by rw [if_neg (by omega)]; simp⟩
  · exact ⟨0, by omega, by rw [Nat.add_zero, if_neg h]; simp⟩
example : MemRest ⟨bytes data2, (bytes data2).length, 0⟩ (bytes data2 ++ []) := ⟨Nat.zero_le _, by simp, by decide +kernel, by simp⟩
example : (Ty.int false) ≠ .pod 0 := by simp

#print axioms C118_device_never_undefined
#print axioms C118_load
#print axioms C118_truncated
#print axioms C118_never_undefined
#print axioms C118_save
#print axioms C118_memory_input
#print axioms C118_string_input
#print axioms C118_istream
#print axioms C118_sample_input
#print axioms C118_finding_sample_end
#print axioms C118_device
#print axioms C118_inflate
#print axioms C118_compressed
#print axioms C118_string_output
#print axioms C118_memory_output
#print axioms C118_memory_full
#print axioms C118_file_output
#print axioms C118_memory_roundtrip
#print axioms C118_file_roundtrip
#print axioms C118_file_never_undefined

end Verif.Props.SerStream
