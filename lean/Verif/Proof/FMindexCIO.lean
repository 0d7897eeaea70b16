import Verif.Model.FMindexCIO
import Verif.Proof.IndexIO
import Verif.Proof.IndexFits
import Verif.Proof.FMindexC
set_option linter.unusedSimpArgs false
set_option maxRecDepth 8000

/-! Lemmas for C113. -/
namespace Verif.FMindexCIO
open Verif.Stream Verif.Serializer Verif.IndexIO Verif.Spec.IndexIO
open Verif.CSuc (CV Blk Enc)
open Verif.WaveletC (WM)
open Verif.FMindexC (FM)
open Verif.FMindex (FreqView)

/-- The members of the matrix fit their types; there is a level for each bit. -/
structure WMFits (x : WM) : Prop where
  maxVal : x.maxVal < 2 ^ 64
  size : x.size < 2 ^ 64
  levels : x.svv.length = x.valBitLen
  mem : Mem 112 x.svv
  svv : ∀ v ∈ x.svv, CVFits v
  off : Vec32 x.offTbl
  from_ : Vec32 x.fromTbl
  fromLt : Vec32 x.fromLtTbl

/-- The members of the index apart from the frequency table. -/
structure FMFits (x : FM) : Prop where
  skip : -2 ^ 31 ≤ x.skip ∧ x.skip < 2 ^ 31
  cf : Vec32 x.cf
  wm : WMFits x.wm
  sa : Vec32 x.alignedSa
  pos : CVFits x.alignedPos

theorem levels_bytes (svv : List CV) : ∀ (n i : Nat), i + n = svv.length →
    saveLevels svv n i = .ok ((svv.drop i).map saveCV).flatten := by
  intro n
  induction n with
  | zero =>
    intro i h
    rw [saveLevels, List.drop_eq_nil_of_le (by omega)]
    rfl
  | succ n ih =>
    intro i h
    have hi : i < svv.length := by omega
    rw [saveLevels, at?_eq_ok hi, Res.ok_bind, ih (i + 1) (by omega), List.drop_eq_getElem_cons hi]
    rfl

theorem levels_good : ∀ (new : List CV), (∀ v ∈ new, CVFits v) →
    Good (loadLevels new.length) (new.map saveCV).flatten new
  | [], _ => done_good _
  | n :: ns, hf =>
    next_good (cv_good (hf n (by simp))) (last_good (levels_good ns (fun v hv => hf v (by simp [hv]))))

theorem levels_safe : ∀ n : Nat, Safe (loadLevels n)
  | 0 => done_safe _
  | n + 1 => next_safe cv_safe fun _ => last_safe _ (levels_safe n)

theorem wm_good {x : WM} (h : WMFits x) : ∃ b, saveWM x = .ok b ∧ Good loadWM b x := by
  have hl := levels_bytes x.svv x.valBitLen 0 (by rw [← h.levels]; omega)
  rw [List.drop_zero] at hl
  have hm := h.mem
  rw [Mem, h.levels] at hm
  refine ⟨_, by rw [saveWM, hl, Res.ok_bind]; rfl, ?_⟩
  refine next_good (loadSize_good _ h.maxVal) ?_
  refine next_good (loadSize_good x.valBitLen (by omega)) ?_
  refine next_good (loadSize_good _ h.size) ?_
  refine next_good (v1 := x.svv) ?_ ?_
  · rw [loadSvv, if_neg (by omega), ← h.levels]
    exact levels_good _ h.svv
  refine next_good (vec32_good h.off) ?_
  refine next_good (vec32_good h.from_) ?_
  exact last_good (vec32_good h.fromLt)

theorem svv_safe (n : Nat) : Safe (loadSvv n) := by
  rw [loadSvv]
  split
  · intro s; simp
  · exact levels_safe _

theorem wm_safe : Safe loadWM :=
  next_safe loadSize_safe fun _ => next_safe loadSize_safe fun _ => next_safe loadSize_safe fun _ =>
    next_safe (svv_safe _) fun _ => next_safe (vec_safe _ _) fun _ => next_safe (vec_safe _ _) fun _ =>
      last_safe _ (vec_safe _ _)

theorem fm_safe (raw : Bool) (tb : Nat) {ld : Src → Res (FreqView × Src)} (hl : Safe ld) (old : FreqView) :
    Safe (loadFM raw tb ld old) :=
  next_safe (variable_safe 32) fun _ => next_safe (vec_safe _ _) fun _ => next_safe wm_safe fun _ =>
    next_safe (vec_safe _ _) fun _ => next_safe cv_safe fun _ => last_safe (fun p : FreqView × Nat => _) (freq_safe hl _)

theorem fm_good {raw : Bool} {tb : Nat} {ld : Src → Res (FreqView × Src)} {fb : List UInt8} (old : FreqView) {x : FM}
    {f : FreqView} (h : FMFits x) (hf : raw = false → Good ld fb f) :
    ∃ b, saveFM raw x fb = .ok b ∧ ∃ n, Good (loadFM raw tb ld old) b
      { x with freq := if raw then old else f, charNum := n } := by
  obtain ⟨w, w1, w2⟩ := wm_good h.wm
  obtain ⟨n, g⟩ := freq_good (tb := tb) (old := old) hf
  have hs : (BitVec.ofInt 32 x.skip).toInt = x.skip := by
    have := h.skip
    simp only [BitVec.toInt_ofInt]
    rw [Int.bmod_eq_of_le] <;> omega
  refine ⟨_, by rw [saveFM, w1, Res.ok_bind]; rfl, n, ?_⟩
  refine next_good (variable_good 32 (.inl rfl) (BitVec.ofInt 32 x.skip)) ?_
  rw [hs]
  refine next_good (vec32_good h.cf) ?_
  refine next_good w2 ?_
  refine next_good (vec32_good h.sa) ?_
  refine next_good (cv_good h.pos) ?_
  exact last_good (f := fun p : FreqView × Nat => (⟨x.cf, x.wm, x.alignedSa, x.alignedPos, p.1, x.skip, p.2⟩ : FM)) g

/-! ## What the queries read -/

theorem rangeLoop_view {r x : FM} (h1 : r.cf = x.cf) (h2 : r.wm = x.wm) : ∀ (key : List Nat) (b e : Nat),
    Verif.FMindexC.rangeLoop r key b e = Verif.FMindexC.rangeLoop x key b e
  | [], _, _ => rfl
  | c :: cs, b, e => by
    have ih := rangeLoop_view h1 h2 cs
    have hs : Verif.FMindexC.rangeStep r c b e = Verif.FMindexC.rangeStep x c b e := by
      rw [Verif.FMindexC.rangeStep, Verif.FMindexC.rangeStep, h1, h2]
    simp only [Verif.FMindexC.rangeLoop, hs, ih]

theorem range_view {raw : Bool} {tb : Nat} {r x : FM} (h1 : r.cf = x.cf) (h2 : r.wm = x.wm)
    (h3 : raw = false → r.freq = x.freq) (key : List Nat) :
    Verif.FMindexC.getRange raw tb r key = Verif.FMindexC.getRange raw tb x key := by
  have hs : ∀ k, Verif.FMindexC.searchKey r k = Verif.FMindexC.searchKey x k := fun k => by
    rw [Verif.FMindexC.searchKey, Verif.FMindexC.searchKey, rangeLoop_view h1 h2, h2]
  cases raw
  · simp only [Verif.FMindexC.getRange, hs, h3 rfl]
  · simp only [Verif.FMindexC.getRange, hs, if_true]

theorem lfStep_view {r x : FM} (h1 : r.cf = x.cf) (h2 : r.wm = x.wm) (row : Nat) :
    Verif.FMindexC.lfStep r row = Verif.FMindexC.lfStep x row := by
  rw [Verif.FMindexC.lfStep, Verif.FMindexC.lfStep, h1, h2]

theorem conv_view {r x : FM} (h1 : r.cf = x.cf) (h2 : r.wm = x.wm) (h3 : r.alignedPos = x.alignedPos)
    (h4 : r.alignedSa = x.alignedSa) : ∀ (fuel row t : Nat),
    Verif.FMindexC.convLoop r fuel row t = Verif.FMindexC.convLoop x fuel row t
  | 0, _, _ => rfl
  | fuel + 1, row, t => by
    have ih := conv_view h1 h2 h3 h4 fuel
    simp only [Verif.FMindexC.convLoop, h3, h4, lfStep_view h1 h2, ih]

theorem prev_view {raw : Bool} {r x : FM} (h1 : r.cf = x.cf) (h2 : r.wm = x.wm) (h3 : raw = false → r.freq = x.freq) :
    ∀ (len row : Nat) (acc : List Nat),
    Verif.FMindexC.prevLoop raw r len row acc = Verif.FMindexC.prevLoop raw x len row acc
  | 0, _, _ => rfl
  | len + 1, row, acc => by
    have ih := prev_view h1 h2 h3 len
    have hp : ∀ c, Verif.FMindexC.prevChar raw r c = Verif.FMindexC.prevChar raw x c := fun c => by
      cases raw
      · rw [Verif.FMindexC.prevChar, Verif.FMindexC.prevChar, h3 rfl]
      · rfl
    simp only [Verif.FMindexC.prevLoop, lfStep_view h1 h2, hp, ih]

/-! ## What `init` builds fits -/

theorem outLoop_fits (buf : List (BitVec 64)) (bitSize : Nat) (enc : List Enc) : ∀ (fuel cur : Nat) (vec : List Nat) (rk : Nat)
    (r : List Nat × Nat), (∀ v ∈ vec, v < 256) → Verif.CSuc.outLoop buf bitSize enc fuel cur vec rk = .ok r →
    r.1.length ≤ vec.length + fuel ∧ (∀ v ∈ r.1, v < 256) ∧ r.2 < 2 ^ 32 := by
  intro fuel
  induction fuel with
  | zero => intro cur vec rk r _ e; simp [Verif.CSuc.outLoop] at e
  | succ fuel ih =>
    intro cur vec rk r h e
    rw [Verif.CSuc.outLoop] at e
    obtain ⟨v, _, e⟩ := Res.bind_eq_ok.mp e
    obtain ⟨⟨i, en⟩, _, e⟩ := Res.bind_eq_ok.mp e
    simp only at e
    have hv : ∀ v ∈ vec ++ [i % 256], v < 256 := by
      intro v hv
      rcases List.mem_append.mp hv with hv | hv
      · exact h v hv
      · rw [List.mem_singleton.mp hv]; omega
    generalize (if cur < bitSize then cur + en.len else cur) = c at e
    split at e
    · injection e with e
      subst e
      exact ⟨by simp, hv, Nat.mod_lt _ (by decide)⟩
    · obtain ⟨a, b, c⟩ := ih _ _ _ _ hv e
      refine ⟨?_, b, c⟩
      rw [List.length_append, List.length_singleton] at a
      omega

theorem sampleLoop_fits {b : Blk} {next : Nat} (hb : b.orgPos < 2 ^ 32 ∧ b.vecPos < 2 ^ 32 ∧ b.rk < 2 ^ 32) :
    ∀ (fuel sp : Nat) (blk : List Blk) (r : Nat × List Blk), blk.length * 1024 = sp → sp < 2 ^ 32 →
    (∀ b ∈ blk, b.orgPos < 2 ^ 32 ∧ b.vecPos < 2 ^ 32 ∧ b.rk < 2 ^ 32) →
    Verif.CSuc.sampleLoop b next fuel sp blk = .ok r →
    r.2.length * 1024 = r.1 ∧ r.1 < 2 ^ 32 ∧ ∀ b ∈ r.2, b.orgPos < 2 ^ 32 ∧ b.vecPos < 2 ^ 32 ∧ b.rk < 2 ^ 32 := by
  intro fuel
  induction fuel with
  | zero => intro sp blk r _ _ _ e; simp [Verif.CSuc.sampleLoop] at e
  | succ fuel ih =>
    intro sp blk r h1 h2 h3 e
    rw [Verif.CSuc.sampleLoop] at e
    split at e
    · rename_i hlt
      by_cases hw : 2 ^ 32 - 1024 < next
      · rw [Verif.CSuc.sampleLoop_hang _ _ hw _ _ _ (by omega) (Nat.mod_lt _ (by decide))] at e
        simp at e
      · refine ih _ _ _ ?_ ?_ ?_ e
        · rw [List.length_append, List.length_singleton]; omega
        · exact Nat.mod_lt _ (by decide)
        · intro x hx
          rcases List.mem_append.mp hx with hx | hx
          · exact h3 x hx
          · rw [List.mem_singleton.mp hx]; exact hb
    · injection e with e
      subst e
      exact ⟨h1, h2, h3⟩

theorem blockLoop_fits (enc : List Enc) : ∀ (vs : List Nat) (vp op rk sp : Nat) (blk r : List Blk),
    op < 2 ^ 32 → rk < 2 ^ 32 → blk.length * 1024 = sp → sp < 2 ^ 32 →
    (∀ b ∈ blk, b.orgPos < 2 ^ 32 ∧ b.vecPos < 2 ^ 32 ∧ b.rk < 2 ^ 32) →
    Verif.CSuc.blockLoop enc vs vp op rk sp blk = .ok r →
    r.length * 1024 < 2 ^ 32 ∧ ∀ b ∈ r, b.orgPos < 2 ^ 32 ∧ b.vecPos < 2 ^ 32 ∧ b.rk < 2 ^ 32
  | [], vp, op, rk, sp, blk, r, h1, h2, h3, h4, h5, e => by
    rw [Verif.CSuc.blockLoop] at e
    injection e with e
    subst e
    exact ⟨by omega, h5⟩
  | v :: vs, vp, op, rk, sp, blk, r, h1, h2, h3, h4, h5, e => by
    rw [Verif.CSuc.blockLoop] at e
    obtain ⟨en, _, e⟩ := Res.bind_eq_ok.mp e
    obtain ⟨⟨sp', blk'⟩, e1, e⟩ := Res.bind_eq_ok.mp e
    obtain ⟨a, b, c⟩ := sampleLoop_fits (b := ⟨op, vp % 2 ^ 32, rk⟩) ⟨h1, Nat.mod_lt _ (by decide), h2⟩ _ _ _ _ h3 h4 h5 e1
    exact blockLoop_fits enc vs _ _ _ _ _ _ (Nat.mod_lt _ (by decide)) (Nat.mod_lt _ (by decide)) a b c e

theorem cv_init_fits {c r : CV} {buf : List (BitVec 64)} {n : Nat} (hc : c.blk = [])
    (e : Verif.CSuc.init c buf n = .ok r) : CVFits r := by
  rw [Verif.CSuc.init] at e
  split at e
  · simp at e
  rename_i hn
  obtain ⟨enc, h1, h2, h3⟩ := Verif.CSuc.initTable_ok
  rw [h1, Res.ok_bind, Verif.CSuc.buildWith, Verif.CSuc.growLoop] at e
  obtain ⟨⟨enc', vec, rk⟩, e1, e⟩ := Res.bind_eq_ok.mp e
  obtain ⟨⟨vec', rk'⟩, e2, e1⟩ := Res.bind_eq_ok.mp e1
  simp only at e1
  rw [if_pos h3] at e1
  injection e1 with e1
  injection e1 with e3 e4
  injection e4 with e4 e5
  subst e3 e4 e5
  obtain ⟨blk, e6, e⟩ := Res.bind_eq_ok.mp e
  injection e with e
  subst e
  obtain ⟨o1, o2, o3⟩ := outLoop_fits _ _ _ _ _ _ _ _ (by simp) e2
  rw [hc] at e6
  obtain ⟨b1, b2⟩ := blockLoop_fits _ _ _ _ _ _ _ _ (by decide) (by decide) (by simp) (by decide) (by simp) e6
  simp only [List.length_nil] at o1
  refine ⟨by simp only; omega, o3, by simp only [Mem]; omega, o2, by simp only [Mem]; omega, b2, by simp only [Mem]; omega, ?_⟩
  intro en hen
  obtain ⟨g1, g2⟩ := h2.good en hen
  refine ⟨by omega, ?_⟩
  have := Verif.CSuc.rk_eq g1
  have h4 : (Verif.CSuc.bitsE en).count true ≤ (Verif.CSuc.bitsE en).length := List.count_le_length
  rw [Verif.CSuc.bitsE_length] at h4
  omega

theorem levels_fits (size : Nat) (off : List Nat) (old : List CV) (ho : ∀ v ∈ old, v.blk = []) : ∀ (k i : Nat) (cur next : List Nat)
    (r : List CV), Verif.WaveletC.levels size off old k i cur next = .ok r → r.length = k ∧ ∀ v ∈ r, CVFits v := by
  intro k
  induction k with
  | zero =>
    intro i cur next r e
    rw [Verif.WaveletC.levels] at e
    injection e with e
    subst e
    simp
  | succ k ih =>
    intro i cur next r e
    rw [Verif.WaveletC.levels] at e
    obtain ⟨_, _, e⟩ := Res.bind_eq_ok.mp e
    obtain ⟨_, _, e⟩ := Res.bind_eq_ok.mp e
    obtain ⟨_, _, e⟩ := Res.bind_eq_ok.mp e
    obtain ⟨o, e1, e⟩ := Res.bind_eq_ok.mp e
    obtain ⟨sv, e2, e⟩ := Res.bind_eq_ok.mp e
    obtain ⟨rest, e3, e⟩ := Res.bind_eq_ok.mp e
    injection e with e
    subst e
    have hm : o ∈ old := by
      simp only [at?] at e1
      split at e1
      · rename_i a ha
        injection e1 with e1
        subst e1
        exact List.mem_of_getElem? ha
      · simp at e1
    obtain ⟨i1, i2⟩ := ih _ _ _ _ e3
    refine ⟨by simp [i1], fun v hv => ?_⟩
    rcases List.mem_cons.mp hv with rfl | hv
    · exact cv_init_fits (ho o hm) e2
    · exact i2 v hv

theorem fromTbl_fits (svv : List CV) (off : List Nat) : ∀ (k i : Nat) (tbl : List Nat) (pos f : Nat) (r : List Nat), Vec32 tbl →
    Verif.WaveletC.initFromTbl svv off k i tbl pos f = .ok r → Vec32 r := by
  intro k
  induction k with
  | zero => intro i tbl pos f r h e; exact setAt_vec32 h (toSize_lt _) e
  | succ k ih =>
    intro i tbl pos f r h e
    rw [Verif.WaveletC.initFromTbl] at e
    obtain ⟨_, _, e⟩ := Res.bind_eq_ok.mp e
    obtain ⟨_, _, e⟩ := Res.bind_eq_ok.mp e
    obtain ⟨t, e1, e⟩ := Res.bind_eq_ok.mp e
    obtain ⟨_, _, e⟩ := Res.bind_eq_ok.mp e
    obtain ⟨_, _, e⟩ := Res.bind_eq_ok.mp e
    exact ih _ _ _ _ _ (ih _ _ _ _ _ h e1) e

theorem fromLtTbl_fits (svv : List CV) (off : List Nat) : ∀ (k i : Nat) (tbl : List Nat) (pos f ret : Nat) (r : List Nat), Vec32 tbl →
    Verif.WaveletC.initFromLtTbl svv off k i tbl pos f ret = .ok r → Vec32 r := by
  intro k
  induction k with
  | zero => intro i tbl pos f ret r h e; exact setAt_vec32 h (toSize_lt _) e
  | succ k ih =>
    intro i tbl pos f ret r h e
    rw [Verif.WaveletC.initFromLtTbl] at e
    obtain ⟨_, _, e⟩ := Res.bind_eq_ok.mp e
    obtain ⟨_, _, e⟩ := Res.bind_eq_ok.mp e
    obtain ⟨t, e1, e⟩ := Res.bind_eq_ok.mp e
    obtain ⟨_, _, e⟩ := Res.bind_eq_ok.mp e
    exact ih _ _ _ _ _ _ (ih _ _ _ _ _ _ h e1) e

theorem wm_init_fits {wm r : WM} {vec : List Nat} {n : Nat} (hv : ∀ v ∈ wm.svv, v.blk = [])
    (h1 : Vec32 wm.fromTbl) (h2 : Vec32 wm.fromLtTbl) (e : Verif.WaveletC.init wm vec n = .ok r) : WMFits r := by
  rw [Verif.WaveletC.init] at e
  split at e
  · simp at e
  rename_i hl
  split at e
  · simp at e
  rename_i hn
  obtain ⟨svv, e1, e⟩ := Res.bind_eq_ok.mp e
  obtain ⟨ft, e2, e⟩ := Res.bind_eq_ok.mp e
  obtain ⟨lt, e3, e⟩ := Res.bind_eq_ok.mp e
  have hp : 2 ^ n ≤ 2 ^ 16 := Nat.pow_le_pow_right (by decide) (by omega)
  obtain ⟨i1, i2⟩ := levels_fits _ _ _ (fun v hv' => by
    rw [Verif.Wavelet.vresize, List.mem_append] at hv'
    rcases hv' with hv' | hv'
    · exact hv v (List.mem_of_mem_take hv')
    · rw [List.eq_of_mem_replicate hv']; rfl) _ _ _ _ _ e1
  have f1 := fromTbl_fits _ _ _ _ _ _ _ _ (vresize_vec32 h1 (by omega)) e2
  have f2 := fromLtTbl_fits _ _ _ _ _ _ _ _ _ (vresize_vec32 h2 (by omega)) e3
  have off : Vec32 ((List.range n).map fun i => Verif.Wavelet.toSize (Verif.Wavelet.countZero vec (n - 1 - i))) := by
    constructor
    · simp [Mem]; omega
    · intro x hx
      simp only [List.mem_map] at hx
      obtain ⟨i, _, rfl⟩ := hx
      exact toSize_lt _
  injection e with e
  subst e
  exact ⟨by simp only; omega, by simp only; omega, i1, by simp only [Mem, i1]; omega, i2, off, f1, f2⟩

theorem fm_init_fits {raw : Bool} {tb : Nat} {fm : FM} (hsa : fm.alignedSa = []) (hpos : fm.alignedPos.blk = [])
    (hsvv : ∀ o ∈ fm.wm.svv, o.blk = []) (h1 : Vec32 fm.wm.fromTbl) (h2 : Vec32 fm.wm.fromLtTbl) {freq : FreqView}
    {sais : List Nat → Int × List Nat}
    {text : List Nat} {skip : Int} {r : FM} (htb : tb ≤ 16) (hskip : skip < 2 ^ 31)
    (hs : ∀ v cf n, Verif.FMindex.initCf raw tb freq text = .ok (v, cf, n) →
      ((sais v).2).length < 2 ^ 60 ∧ ∀ x ∈ (sais v).2, x < 2 ^ 32)
    (e : Verif.FMindexC.init raw tb fm freq sais text skip = .ok r) : FMFits r ∧ r.freq = freq := by
  rw [Verif.FMindexC.init] at e
  split at e
  · simp at e
  rename_i h0
  obtain ⟨⟨v, cf, n⟩, e1, e⟩ := Res.bind_eq_ok.mp e
  simp only at e
  split at e
  · simp at e
  obtain ⟨bwt, _, e⟩ := Res.bind_eq_ok.mp e
  obtain ⟨wm, e2, e⟩ := Res.bind_eq_ok.mp e
  obtain ⟨bv, _, e⟩ := Res.bind_eq_ok.mp e
  obtain ⟨⟨bv2, al⟩, e3, e⟩ := Res.bind_eq_ok.mp e
  obtain ⟨ap, e4, e⟩ := Res.bind_eq_ok.mp e
  injection e with e
  subst e
  obtain ⟨a1, a2⟩ := alignLoop_mem _ _ _ _ _ _ _ e3
  obtain ⟨s1, s2⟩ := hs _ _ _ e1
  refine ⟨⟨⟨by simp only; omega, hskip⟩, initCf_fits (by omega) e1, wm_init_fits hsvv h1 h2 e2, ⟨?_, fun x hx => ?_⟩,
    cv_init_fits hpos e4⟩, rfl⟩
  · rw [hsa, List.length_nil] at a1
    simp only [Mem]
    omega
  · rcases a2 x hx with h | h
    · rw [hsa] at h; simp at h
    · exact s2 x h

end Verif.FMindexCIO
