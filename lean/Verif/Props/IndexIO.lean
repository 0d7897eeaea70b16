import Verif.Proof.IndexIO
import Verif.Proof.IndexFits
set_option linter.unusedSimpArgs false

/-! # C60: saving and loading succinct vectors, wavelet matrices, frequency tables and FM-indexes -/
namespace Verif.Props.IndexIO
open Verif Verif.Stream Verif.Serializer Verif.IndexIO Verif.Spec.IndexIO
open Verif.SucVector (SV)
open Verif.Wavelet (WM)
open Verif.CSuc (CV)
open Verif.Frequency (FV FG Ent SortOutcome SortOutcomeG)
open Verif.FMindex (FM FreqView)

theorem reads_of_good {α : Type} {ld : Src → Res (α × Src)} {b : List UInt8} {v : α} {P : α → Prop} (h : Good ld b v) (hp : P v) :
    Reads ld b P where
  whole s rest hs := by
    obtain ⟨s', e1, e2⟩ := h.ok s rest hs
    exact ⟨v, s', e1, hp, e2⟩
  cut s more hm hs := h.short s ⟨more, hs⟩ (fun e => hm (by rw [e] at hs; simpa using hs))

/-- C60 for `SucVectorT`.  Whatever the object loaded into held before, it answers every query as the saved one. -/
theorem C60_sucvector (big sel : Bool) (old x : SV) (h : SVFits x) :
    Reads (loadSV sel old) (saveSV sel x) fun r => SameSV big sel r x :=
  reads_of_good (sv_good old h) (sv_same big sel old x)

/-- C60.  Every vector built by `init` on a new object satisfies the hypothesis. -/
theorem C60_sucvector_built (big sel : Bool) (old x : SV) (buf : List (BitVec 64)) (bitSize : Nat)
    (h : Verif.SucVector.init big sel Verif.SucVector.empty buf bitSize = .ok x) :
    Reads (loadSV sel old) (saveSV sel x) fun r => SameSV big sel r x :=
  C60_sucvector big sel old x (init_fits empty_fits h)

/-- C60 for `WaveletMatrixT`. -/
theorem C60_wavelet (sel : Bool) (old x : WM) (h : WMFits sel x) :
    ∃ b, saveWM sel x = .ok b ∧ Reads (loadWM sel old) b fun r => SameWM sel r x := by
  obtain ⟨b, h1, r, h2, h3⟩ := wm_good old h
  exact ⟨b, h1, reads_of_good h2 (same_of_bare h3)⟩

/-- C60.  Every wavelet matrix built by `init` on a new object satisfies the hypothesis. -/
theorem C60_wavelet_built (sel : Bool) (old x : WM) (vec : List Nat) (n : Nat)
    (h : Verif.Wavelet.init sel Verif.Wavelet.empty vec n = .ok x) :
    ∃ b, saveWM sel x = .ok b ∧ Reads (loadWM sel old) b fun r => SameWM sel r x :=
  C60_wavelet sel old x (wm_init_fits (by simp [Verif.Wavelet.empty]) ⟨by simp [Mem, Verif.Wavelet.empty], by simp [Verif.Wavelet.empty]⟩
    ⟨by simp [Mem, Verif.Wavelet.empty], by simp [Verif.Wavelet.empty]⟩ (by simp [Verif.Wavelet.empty]) h)

/-- C60 for `CSucVector`. -/
theorem C60_csucvector (x : CV) (h : CVFits x) : Reads loadCV (saveCV x) fun r => r = x :=
  reads_of_good (cv_good h) rfl

/-- C60 for `Frequency<uint8_t, uint32_t>`. -/
theorem C60_frequency_bytes (x : FV) (h : FVFits x) : Reads loadFV (saveFV x) fun r => r = x :=
  reads_of_good (fv_good h) rfl

/-- C60.  Every such table built by `init` satisfies the hypothesis; `a`, `b` are what the constructor left in the tables of
the object (`uint8_t`, frequency.hpp:25-27). -/
theorem C60_frequency_bytes_built (x : FV) (a b l order : List Nat) (ha : a.length = 256) (hv : ∀ v ∈ a, v < 256)
    (ho : SortOutcome (fun e => l.count e) (List.range 256) order) (h : FV.init 32 (FV.clear a b) l order = .ok x) :
    Reads loadFV (saveFV x) fun r => r = x :=
  C60_frequency_bytes x (fv_init_fits ha hv ho h)

/-- C60 for `Frequency<uint16_t, uint32_t>`, loading into an empty table; `sort` stands for whatever `std::sort` does.
Missing: a table that already holds something (false, see `C60_finding_frequency_keeps`). -/
theorem C60_frequency_wide_partial (sort : List Ent → List Nat) (hsort : ∀ m, SortOutcomeG m (sort m)) (x : FG) (h : FGFits x)
    (hx : SortOutcomeG x.m x.idx2ref) : Reads (loadFG sort .clear) (saveFG x) fun r => r = x := by
  have g := fg_good (sort := sort) FG.clear h
  rw [FG.clear, fg_fresh h, sortG_unique (hsort x.m) hx] at g
  exact reads_of_good g rfl

/-- C60.  Every such table built by `init` satisfies the hypotheses. -/
theorem C60_frequency_wide_built_partial (sort : List Ent → List Nat) (hsort : ∀ m, SortOutcomeG m (sort m)) (l order : List Nat)
    (hl : ∀ e ∈ l, e < 2 ^ 16) (ho : SortOutcomeG (FG.clear.appendAll 32 l).m order) :
    Reads (loadFG sort .clear) (saveFG (FG.init 32 .clear l order)) fun r => r = FG.init 32 .clear l order :=
  C60_frequency_wide_partial sort hsort _ (fg_init_fits hl ho).1 (fg_init_fits hl ho).2

/-- Finding for C60.  Loading a `Frequency<uint16_t, uint32_t>` into a table in use keeps the entries of the old one: here a
table of one character 7 is loaded into a table of one character 9, and both are found, both with index 0. -/
theorem C60_finding_frequency_keeps (sort : List Ent → List Nat) (s : Src) (hs : s.rest = saveFG ⟨[⟨7, 1, 0⟩], [7]⟩) :
    ∃ r s', loadFG sort ⟨[⟨9, 1, 0⟩], [9]⟩ s = .ok (r, s') ∧ r.getFrequency 9 = 1 ∧ r.getFrequency 7 = 1 ∧
      r.getIndex 9 = .ok 0 ∧ r.getIndex 7 = .ok 0 := by
  have g := fg_good (sort := sort) (⟨[⟨9, 1, 0⟩], [9]⟩ : FG) (x := ⟨[⟨7, 1, 0⟩], [7]⟩) ⟨by simp, by simp, by simp⟩
  obtain ⟨s', e, _⟩ := g.ok s [] (by rw [hs]; simp)
  exact ⟨_, s', e, rfl, rfl, rfl, rfl⟩

/-- C60 for `FMindexT` with raw characters. -/
theorem C60_fmindex_raw (tb : Nat) (ld : Src → Res (FreqView × Src)) (fb : List UInt8) (old x : FM) (h : FMFits x) :
    ∃ b, saveFM true x fb = .ok b ∧ Reads (loadFM true tb ld old) b fun r => SameFM true tb r x := by
  obtain ⟨b, h1, r, h2, h3, h4, h5, h6, _⟩ := fm_good (raw := true) (tb := tb) (ld := ld) (fb := fb) (f := x.freq) old h (by simp)
  exact ⟨b, h1, reads_of_good h2 (fm_same h3 h4 h5 h6 (by simp))⟩

/-- C60 for `FMindexT<uint8_t, false>`. -/
theorem C60_fmindex_bytes (old x : FM) (f : FV) (h : FMFits x) (hf : FVFits f) (hx : x.freq = Verif.FMindex.ofFV f) :
    ∃ b, saveFM false x (saveFV f) = .ok b ∧ Reads (loadFM false 8 loadFV' old) b fun r => SameFM false 8 r x := by
  obtain ⟨b, h1, r, h2, h3, h4, h5, h6, h7, _⟩ := fm_good (raw := false) (tb := 8) (ld := loadFV') (fb := saveFV f)
    (f := Verif.FMindex.ofFV f) old h (fun _ => last_good (fv_good hf))
  exact ⟨b, h1, reads_of_good h2 (fm_same h3 h4 h5 h6 fun _ => by rw [h7, hx]; simp)⟩

/-- C60 for `FMindexT<uint16_t, false>`, loading into an index whose frequency table is empty (`fold` is its table).
Missing: an index already in use (false, the old characters stay in the table). -/
theorem C60_fmindex_wide_partial (sort : List Ent → List Nat) (hsort : ∀ m, SortOutcomeG m (sort m)) (old x : FM) (f : FG)
    (h : FMFits x) (hf : FGFits f) (hs : SortOutcomeG f.m f.idx2ref) (hx : x.freq = Verif.FMindex.ofFG f) :
    ∃ b, saveFM false x (saveFG f) = .ok b ∧
      Reads (loadFM false 16 (loadFG' sort .clear) old) b fun r => SameFM false 16 r x := by
  have g := fg_good (sort := sort) FG.clear hf
  rw [FG.clear, fg_fresh hf, sortG_unique (hsort f.m) hs] at g
  obtain ⟨b, h1, r, h2, h3, h4, h5, h6, h7, _⟩ := fm_good (raw := false) (tb := 16) (ld := loadFG' sort .clear) (fb := saveFG f)
    (f := Verif.FMindex.ofFG f) old h (fun _ => last_good g)
  exact ⟨b, h1, reads_of_good h2 (fm_same h3 h4 h5 h6 fun _ => by rw [h7, hx]; simp)⟩

/-- C60.  An index built from a new object satisfies the hypotheses, given that the suffix sorter filled its
`vector<uint32_t>` with at most 2^32 numbers. -/
theorem C60_fmindex_built (raw : Bool) (tb : Nat) (htb : tb ≤ 32) (f0 freq : FreqView) (sais : List Nat → Int × List Nat)
    (hs1 : ∀ v, ((sais v).2).length ≤ 2 ^ 32) (hs2 : ∀ v, ∀ x ∈ (sais v).2, x < 2 ^ 32) (text : List Nat) (skip : Int)
    (hskip : skip < 2 ^ 31) (x : FM) (h : Verif.FMindex.init raw tb (Verif.FMindex.empty f0) freq sais text skip = .ok x) :
    FMFits x ∧ x.freq = freq :=
  fm_init_fits htb hskip (fun v => by have := hs1 v; omega) hs2 h

/-- C60.  Loading never reads or writes outside its objects, whatever bytes the stream holds: it succeeds or throws. -/
theorem C60_load_never_undefined (sel raw : Bool) (tb : Nat) (sort : List Ent → List Nat) (osv : SV) (owm : WM) (ofg : FG) (ofm : FM)
    (s : Src) :
    loadSV sel osv s ≠ .ub ∧ loadWM sel owm s ≠ .ub ∧ loadCV s ≠ .ub ∧ loadFV s ≠ .ub ∧ loadFG sort ofg s ≠ .ub ∧
      loadFM raw tb loadFV' ofm s ≠ .ub ∧ loadFM raw tb (loadFG' sort ofg) ofm s ≠ .ub :=
  ⟨sv_safe _ _ s, wm_safe _ _ s, cv_safe s, fv_safe s, fg_safe _ _ s, fm_safe _ _ (last_safe _ fv_safe) _ s,
    fm_safe _ _ (last_safe _ (fg_safe _ _)) _ s⟩

/-- Finding for C60.  The sizes are not checked against the data: the bytes of a vector of 300 bits without blocks load
without complaint, and `get(0)` on the result then reads outside of the block vector. -/
theorem C60_finding_not_validated (s : Src) (hs : s.rest = saveSV false ⟨300, 0, 0, false, [], [], []⟩) :
    ∃ r s', loadSV false Verif.SucVector.empty s = .ok (r, s') ∧ r.bitSize = 300 ∧ Verif.SucVector.get r 0 = .ub := by
  obtain ⟨s', e, _⟩ := (sv_good (sel := false) Verif.SucVector.empty (x := ⟨300, 0, 0, false, [], [], []⟩)
    ⟨by simp, by simp, by simp, by simp [Mem], by simp, ⟨by simp [Mem], by simp⟩, ⟨by simp [Mem], by simp⟩⟩).ok s [] (by rw [hs]; simp)
  exact ⟨_, s', e, rfl, by decide⟩

/-! ## Cases meeting the hypotheses -/

example : (Verif.SucVector.init false true Verif.SucVector.empty [5#64, 3#64] 70).bind (fun x => .ok x.num1) = .ok 4 := by
  decide +kernel

example : (Verif.Wavelet.init true Verif.Wavelet.empty [2, 0, 3, 1, 2] 2).bind (fun x => .ok (x.size, x.svv.length)) =
    .ok (5, 2) := by
  decide +kernel

example : CVFits ⟨[⟨5#64, 3, 2⟩], 3, [0], [⟨0, 0, 0⟩], 2⟩ :=
  ⟨by simp, by simp, by simp [Mem], by simp, by simp [Mem], by simp, by simp [Mem], by simp⟩

example : FGFits (FG.init 32 .clear [300, 5, 300] [300, 5]) ∧
    (FG.init 32 .clear [300, 5, 300] [300, 5]).m.length = 2 := by
  refine ⟨(fg_init_fits (by simp) ⟨by decide, ?_⟩).1, by decide⟩
  refine List.Pairwise.cons ?_ (by simp)
  intro a ha
  rw [List.mem_singleton] at ha
  subst ha
  rintro (h | ⟨h, _⟩) <;> revert h <;> decide

example : (Verif.FMindex.init false 16 (Verif.FMindex.empty (Verif.FMindex.ofFG .clear)) (Verif.FMindex.ofFG (FG.init 32 .clear [300, 5, 300] [300, 5]))
    (fun _ => (0, [3, 2, 0, 1])) [300, 5, 300] 2).bind (fun x => .ok (x.cf, x.alignedSa)) = .ok ([0, 1, 3], [2, 0]) := by
  decide +kernel

#print axioms C60_sucvector
#print axioms C60_sucvector_built
#print axioms C60_wavelet
#print axioms C60_wavelet_built
#print axioms C60_csucvector
#print axioms C60_frequency_bytes
#print axioms C60_frequency_bytes_built
#print axioms C60_frequency_wide_partial
#print axioms C60_frequency_wide_built_partial
#print axioms C60_finding_frequency_keeps
#print axioms C60_fmindex_raw
#print axioms C60_fmindex_bytes
#print axioms C60_fmindex_wide_partial
#print axioms C60_fmindex_built
#print axioms C60_load_never_undefined
#print axioms C60_finding_not_validated

end Verif.Props.IndexIO
