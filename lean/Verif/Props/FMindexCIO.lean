import Verif.Proof.FMindexCIO
import Verif.Props.FMindexC
import Verif.Props.IndexIO
set_option linter.unusedSimpArgs false

/-! # C113: the index over compressed vectors, saved and loaded -/
namespace Verif.Props.FMindexCIO
open Verif.IndexIO hiding saveWM loadWM saveFM loadFM wm_safe fm_safe wm_good fm_good wm_init_fits fm_init_fits
open Verif Verif.Stream Verif.Spec.IndexIO Verif.Spec.Frequency Verif.Spec.FMindex Verif.FMindexCIO
open Verif.FMindex (FreqView ofFV ofFG codeOf)
open Verif.FMindexC (FM getRange convertPosition getPrevString)
open Verif.Frequency (FV FG Ent SortOutcome SortOutcomeG)
open Verif.Props.FMindexC (Right)
open Verif.Props.IndexIO (reads_of_good)
open Verif.Sais (Arr sorter)

/-- A new index, frequency table included. -/
abbrev newIndex (f : FreqView) : FM := Verif.FMindexC.empty f

theorem new_fresh (f : FreqView) : Verif.Props.FMindexC.Fresh (newIndex f) :=
  ⟨rfl, rfl, by simp [newIndex, Verif.FMindexC.empty, Verif.WaveletC.empty]⟩

theorem right_view {raw : Bool} {tb : Nat} {r x : FM} {text : List Nat} {keyOk : Nat → Prop}
    (h1 : r.cf = x.cf) (h2 : r.wm = x.wm) (h3 : r.alignedPos = x.alignedPos) (h4 : r.alignedSa = x.alignedSa)
    (h5 : raw = false → r.freq = x.freq) (h : Right raw tb (.ok x) text keyOk) : Right raw tb (.ok r) text keyOk := by
  obtain ⟨f, e, h⟩ := h
  injection e with e
  subst e
  refine ⟨r, rfl, fun key hne hk => ?_⟩
  have hc : convertPosition r = convertPosition x := by
    funext fuel row
    exact conv_view h1 h2 h3 h4 fuel row 0
  have hp : getPrevString raw r = getPrevString raw x := by
    funext row len
    exact prev_view h1 h2 h5 len row []
  rw [range_view h1 h2 h5, hc, hp]
  exact h key hne hk

/-- The index built is right, is saved, and what is loaded from those bytes is right. -/
def Kept (raw : Bool) (tb : Nat) (ld : Src → Res (FM × Src)) (fb : List UInt8) (built : Res FM) (text : List Nat)
    (keyOk : Nat → Prop) : Prop :=
  ∃ f b, built = .ok f ∧ saveFM raw f fb = .ok b ∧ Reads ld b fun r => Right raw tb (.ok r) text keyOk

theorem kept_of_right {raw : Bool} {tb : Nat} {ld : Src → Res (FreqView × Src)} {fb : List UInt8} {old f0 freq : FreqView}
    {sais : List Nat → Int × List Nat} {text : List Nat} {skip : Int} {keyOk : Nat → Prop} (htb : tb ≤ 16)
    (hskip : skip < 2 ^ 31)
    (hs : ∀ v cf n, Verif.FMindex.initCf raw tb freq text = .ok (v, cf, n) →
      ((sais v).2).length < 2 ^ 60 ∧ ∀ x ∈ (sais v).2, x < 2 ^ 32)
    (hld : raw = false → Verif.Serializer.Good ld fb freq)
    (h : Right raw tb (Verif.FMindexC.init raw tb (newIndex f0) freq sais text skip) text keyOk) :
    Kept raw tb (loadFM raw tb ld old) fb (Verif.FMindexC.init raw tb (newIndex f0) freq sais text skip) text keyOk := by
  have hf := new_fresh f0
  have hem : Vec32 [] := ⟨by simp [Mem], by simp⟩
  obtain ⟨f, e, _⟩ := id h
  rw [e] at h
  obtain ⟨g1, g2⟩ := fm_init_fits hf.sa hf.pos hf.svv hem hem htb hskip hs e
  obtain ⟨b, b1, n, b2⟩ := fm_good (raw := raw) (tb := tb) (ld := ld) (fb := fb) old g1 (f := freq) hld
  refine ⟨f, b, e, b1, reads_of_good b2 (right_view (x := f) rfl rfl rfl rfl (fun hr => ?_) h)⟩
  subst hr
  exact g2.symm

theorem sorter_fits {g : Arr} {alloc : Nat → Nat → Bool} {v : List Nat} {k : Nat} (hk : 0 < k) (hk2 : k < 2 ^ 31)
    (hv : ∀ c ∈ v, c < k) (hn : v.length < 2 ^ 31) (hal : ∀ d c, alloc d c = true) :
    ((sorter alloc g k v).2).length < 2 ^ 60 ∧ ∀ x ∈ (sorter alloc g k v).2, x < 2 ^ 32 := by
  obtain ⟨sa, h1, h2⟩ := Verif.Props.Sais.sorter_ok (g := g) (v := v) (k := k) (by omega) (by omega) hv (by omega) hal
  rw [h1]
  have := h2.perm.length_eq
  simp at this
  refine ⟨by simp only; omega, fun x hx => ?_⟩
  have := List.mem_range.mp (h2.perm.mem_iff.mp hx)
  omega

/-- C113, one compressed vector: built by `init` on a new vector, saved and loaded it is the same. -/
theorem C113_vector (x : Verif.CSuc.CV) (buf : List (BitVec 64)) (bitSize : Nat)
    (h : Verif.CSuc.init .empty buf bitSize = .ok x) : Reads loadCV (saveCV x) fun r => r = x :=
  reads_of_good (cv_good (cv_init_fits rfl h)) rfl

/-- C113, a matrix: built by `init` on a new matrix, saved and loaded it is the same. -/
theorem C113_matrix (x : Verif.WaveletC.WM) (l : List Nat) (B : Nat) (h : Verif.WaveletC.init Verif.WaveletC.empty l B = .ok x) :
    ∃ b, saveWM x = .ok b ∧ Reads loadWM b fun r => r = x := by
  have hem : Vec32 [] := ⟨by simp [Mem], by simp⟩
  obtain ⟨b, h1, h2⟩ := wm_good (wm_init_fits (by simp [Verif.WaveletC.empty]) hem hem h)
  exact ⟨b, h1, reads_of_good h2 rfl⟩

/-- C113, `FMindexT<uint8_t, true>`: whatever the index loaded into holds (`old` is its frequency table). -/
theorem C113_raw_bytes (ld : Src → Res (FreqView × Src)) (fb : List UInt8) (old f0 freq : FreqView) (g : Arr)
    (alloc : Nat → Nat → Bool)
    (hal : ∀ d c, alloc d c = true) (text : List Nat) (htext : ∀ c ∈ text, 0 < c ∧ c < 256) (hn : text.length < 2 ^ 31 - 1)
    (skip : Int) (hskip : 0 < skip) (hskip2 : skip < 2 ^ 31) :
    Kept true 8 (loadFM true 8 ld old) fb (Verif.FMindexC.init true 8 (newIndex f0) freq (sorter alloc g 256) text skip) text
      (fun c => c ≠ 0 ∧ c < 256) := by
  refine kept_of_right (by omega) hskip2 ?_ (by simp)
    (Verif.Props.FMindexC.C112_raw_bytes (newIndex f0) (new_fresh f0) (Verif.FMindex.empty f0) rfl freq g alloc hal text htext hn
      skip hskip).1
  obtain ⟨cf, h1, _⟩ := Verif.FMindex.raw_coded (tb := 8) (freq := freq) htext (by omega)
  intro v cf' n e
  rw [h1] at e
  injection e with e
  injection e with e _
  subst e
  refine sorter_fits (by omega) (by omega) ?_ (by simp; omega) hal
  intro c hc
  rcases List.mem_append.mp hc with h | h
  · exact (htext c h).2
  · rw [List.mem_singleton.mp h]
    omega

theorem coded_fits {tb : Nat} (htb : tb ≤ 16) (freq : FreqView) (g : Arr) (alloc : Nat → Nat → Bool)
    (hal : ∀ d c, alloc d c = true) (text : List Nat)
    (hr : Ranks text (fun c => c < 2 ^ tb) freq.size freq.getFrequency freq.getIndex freq.getElement)
    (htext : ∀ c ∈ text, c < 2 ^ tb) (hsize : freq.size + 1 ≤ 2 ^ tb) (hbits : freq.size + 1 < 2 ^ 16)
    (hn : text.length < 2 ^ 31 - 1) : ∀ v cf n, Verif.FMindex.initCf false tb freq text = .ok (v, cf, n) →
      ((sorter alloc g (freq.size + 1) v).2).length < 2 ^ 60 ∧ ∀ x ∈ (sorter alloc g (freq.size + 1) v).2, x < 2 ^ 32 := by
  obtain ⟨cf, h1, h2⟩ := Verif.FMindex.cvt_coded (by omega) hr htext hsize (by omega)
  intro v cf' n e
  rw [h1] at e
  injection e with e
  injection e with e _
  subst e
  refine sorter_fits (by omega) (by omega) ?_ (by simp; omega) hal
  intro c hc
  rcases List.mem_append.mp hc with w | w
  · obtain ⟨d, hd, rfl⟩ := List.mem_map.mp w
    exact (h2.range d hd).2
  · rw [List.mem_singleton.mp w]
    omega

/-- C113, `FMindexT<uint8_t, false>`: whatever the index loaded into holds. -/
theorem C113_coded_bytes (old f0 : FreqView) (text a b order : List Nat)
    (hl : ∀ e ∈ text, e < 256) (hn : text.length < 2 ^ 31 - 1) (ha : a.length = 256) (hv : ∀ v ∈ a, v < 256)
    (ho : SortOutcome (fun e => text.count e) (List.range 256) order) (st : FV)
    (hst : FV.init 32 (FV.clear a b) text order = .ok st) (hsize : st.size ≤ 255)
    (g : Arr) (alloc : Nat → Nat → Bool) (hal : ∀ d c, alloc d c = true) (skip : Int) (hskip : 0 < skip)
    (hskip2 : skip < 2 ^ 31) :
    Kept false 8 (loadFM false 8 loadFV' old) (saveFV st)
      (Verif.FMindexC.init false 8 (newIndex f0) (ofFV st) (sorter alloc g (st.size + 1)) text skip) text (fun c => c < 256) :=
  kept_of_right (by omega) hskip2
    (coded_fits (tb := 8) (by omega) (ofFV st) g alloc hal text (Verif.Props.FMindex.bytes_ranks hl (by omega) ha ho hst) hl
      (by simp [ofFV]; omega) (by simp [ofFV]; omega) hn)
    (fun _ => last_good (fv_good (fv_init_fits ha hv ho hst)))
    (Verif.Props.FMindexC.C112_coded_bytes (newIndex f0) (new_fresh f0) (Verif.FMindex.empty f0) rfl text a b order hl hn ha ho
      st hst hsize g alloc hal skip hskip).1

/-- C113, `FMindexT<uint16_t, false>`, loaded into an index whose frequency table is empty; `sort` stands for whatever
`std::sort` does in `load`. -/
theorem C113_coded_wide (old f0 : FreqView) (sort : List Ent → List Nat) (hsort : ∀ m, SortOutcomeG m (sort m))
    (text order : List Nat) (hl : ∀ e ∈ text, e < 65536) (hn : text.length < 2 ^ 31 - 1)
    (ho : SortOutcomeG (FG.clear.appendAll 32 text).m order)
    (st : FG) (hst : st = FG.init 32 .clear text order) (hsize : st.size ≤ 65534)
    (g : Arr) (alloc : Nat → Nat → Bool) (hal : ∀ d c, alloc d c = true) (skip : Int) (hskip : 0 < skip)
    (hskip2 : skip < 2 ^ 31) :
    Kept false 16 (loadFM false 16 (loadFG' sort .clear) old) (saveFG st)
      (Verif.FMindexC.init false 16 (newIndex f0) (ofFG st) (sorter alloc g (st.size + 1)) text skip) text
      (fun c => c < 65536) := by
  refine kept_of_right (by omega) hskip2
    (coded_fits (tb := 16) (by omega) (ofFG st) g alloc hal text
      (by subst hst; exact Verif.Props.FMindex.wide_ranks (by omega) ho) hl
      (by simp only [ofFG]; omega) (by simp only [ofFG]; omega) hn)
    (fun _ => ?_)
    (Verif.Props.FMindexC.C112_coded_wide (newIndex f0) (new_fresh f0) (Verif.FMindex.empty f0) rfl text order hl hn ho st hst
      hsize g alloc hal skip hskip).1
  have ff := fg_init_fits hl ho
  rw [← hst] at ff
  obtain ⟨f1, f2⟩ := ff
  have gg := fg_good (sort := sort) FG.clear f1
  rw [FG.clear, fg_fresh f1, sortG_unique (hsort _) f2] at gg
  exact last_good gg

/-- C113.  Loading never reads or writes outside its objects, whatever the bytes. -/
theorem C113_load_never_undefined (raw : Bool) (tb : Nat) (sort : List Ent → List Nat) (old : FreqView) (ofg : FG) (s : Src) :
    loadWM s ≠ .ub ∧ loadFM raw tb loadFV' old s ≠ .ub ∧ loadFM raw tb (loadFG' sort ofg) old s ≠ .ub :=
  ⟨wm_safe s, fm_safe _ _ (last_safe _ fv_safe) _ s, fm_safe _ _ (last_safe _ (fg_safe _ _)) _ s⟩

/-- C113 (finding).  What was loaded cannot be built anew either: `init` of a loaded vector appends to the blocks read
from the file.  After loading 1024 zeros and 1024 ones, `init` with 1024 ones and 1024 zeros counts no one before position
1500. -/
theorem C113_finding_rebuild (s : Src) (x : Verif.WaveletC.WM)
    (hx : Verif.WaveletC.init Verif.WaveletC.empty Verif.Props.FMindexC.zerosOnes 1 = .ok x) (b : List UInt8)
    (hb : saveWM x = .ok b) (hs : s.rest = b) :
    ∃ r s', loadWM s = .ok (r, s') ∧ (do
      let m ← Verif.WaveletC.init r Verif.Props.FMindexC.onesZeros 1
      Verif.WaveletC.rank m 1 1500) = .ok 0 ∧ Verif.Spec.Wavelet.countOf Verif.Props.FMindexC.onesZeros 1 1500 = 1024 := by
  obtain ⟨b', h1, h2⟩ := C113_matrix x _ 1 hx
  rw [hb] at h1
  injection h1 with h1
  subst h1
  obtain ⟨r, s', e1, e2, _⟩ := h2.whole s [] (by rw [hs]; simp)
  subst e2
  refine ⟨_, s', e1, ?_, Verif.Props.FMindexC.C112_finding_rebuild.2⟩
  have := Verif.Props.FMindexC.C112_finding_rebuild.1
  rw [hx, Res.ok_bind] at this
  exact this

/-! ## Cases meeting the hypotheses -/

example : (do let x ← Verif.CSuc.init .empty [5#64, 3#64] 70
              return x.rk) = .ok 4 := by decide +kernel

example : (do let x ← Verif.WaveletC.init Verif.WaveletC.empty [2, 0, 3, 1, 2] 2
              return (x.size, x.svv.length)) = .ok (5, 2) := by decide +kernel

example : (do let f ← Verif.FMindexC.init true 8 (newIndex (Verif.Props.FMindex.ab 2 1)) (Verif.Props.FMindex.ab 2 1)
                (fun _ => (0, [3, 2, 0, 1])) [10, 20, 10] 2
              return (f.alignedSa, f.skip)) = .ok ([2, 0], 2) := by decide +kernel

#print axioms C113_vector
#print axioms C113_matrix
#print axioms C113_raw_bytes
#print axioms C113_coded_bytes
#print axioms C113_coded_wide
#print axioms C113_load_never_undefined
#print axioms C113_finding_rebuild

end Verif.Props.FMindexCIO
