import Verif.Spec.IndexIO
import Verif.Proof.Serializer
set_option linter.unusedSimpArgs false
set_option maxRecDepth 8000

/-! Lemmas for C60. -/
namespace Verif.IndexIO
open Verif.Stream Verif.Serializer Verif.Spec.IndexIO
open Verif.SucVector (SV Block)
open Verif.Wavelet (WM)
open Verif.CSuc (CV Enc Blk)
open Verif.Frequency (FV FG Ent)
open Verif.FMindex (FM FreqView)

theorem next_good {α β : Type} {l1 : Src → Res (α × Src)} {l2 : α → Src → Res (β × Src)} {b1 b2 : List UInt8} {v1 : α} {v2 : β}
    (h1 : Good l1 b1 v1) (h2 : Good (l2 v1) b2 v2) : Good (next l1 l2) (b1 ++ b2) v2 := Good.bind h1 h2

theorem done_good {α : Type} (a : α) : Good (done a) [] a := Good.pure a

/-- A last load, whose result goes into the object. -/
theorem last_good {α β : Type} {l1 : Src → Res (α × Src)} {f : α → β} {b : List UInt8} {v : α} (h1 : Good l1 b v) :
    Good (next l1 fun a => done (f a)) b (f v) := by
  have := next_good (l2 := fun a => done (f a)) h1 (done_good (f v))
  rwa [List.append_nil] at this

theorem next_safe {α β : Type} {l1 : Src → Res (α × Src)} {l2 : α → Src → Res (β × Src)} (h1 : Safe l1) (h2 : ∀ a, Safe (l2 a)) :
    Safe (next l1 l2) := Safe.bind h1 h2

theorem done_safe {α : Type} (a : α) : Safe (done a) := fun s => by simp [done]

theorem last_safe {α β : Type} {l1 : Src → Res (α × Src)} (f : α → β) (h1 : Safe l1) : Safe (next l1 fun a => done (f a)) :=
  next_safe h1 fun _ => done_safe _

theorem vec_good {α : Type} {n : Nat} (hn : 0 < n) {enc : α → Nat} {dec : Nat → α} {l : List α} (hl : Mem n l)
    (h : ∀ x ∈ l, enc x < 2 ^ (8 * n) ∧ dec (enc x) = x) : Good (loadVec n dec) (saveVec n enc l) l := by
  have h1 := last_good (f := fun v : List (BitVec (8 * n)) => v.map fun x => dec x.toNat)
    (podVec_good n hn (l.map fun x => BitVec.ofNat (8 * n) (enc x)) (by simpa [Mem] using hl))
  have h2 : ((l.map fun x => BitVec.ofNat (8 * n) (enc x)).map fun x => dec x.toNat) = l := by
    rw [List.map_map]
    conv => rhs; rw [← List.map_id l]
    apply List.map_congr_left
    intro x hx
    obtain ⟨h3, h4⟩ := h x hx
    simp [Nat.mod_eq_of_lt h3, h4]
  rw [h2] at h1
  exact h1

theorem vec_safe {α : Type} (n : Nat) (dec : Nat → α) : Safe (loadVec n dec) := last_safe _ (podVec_safe n)

theorem vec32_good {l : List Nat} (h : Vec32 l) : Good (loadVec 4 id) (saveVec 4 id l) l :=
  vec_good (by omega) h.1 (fun x hx => ⟨h.2 x hx, rfl⟩)

theorem load32_good {x : Nat} (h : x < 2 ^ 32) : Good load32 (save32 x) x := by
  have := last_good (f := BitVec.toNat) (variable_good 32 (.inl rfl) (BitVec.ofNat 32 x))
  rw [BitVec.toNat_ofNat, Nat.mod_eq_of_lt h] at this
  exact this

theorem load32_safe : Safe load32 := last_safe _ (variable_safe 32)

/-! ## The succinct vector -/

theorem block_codec {x : Block} (h : BlockFits x) : encBlock x < 2 ^ (8 * 40) ∧ decBlock (encBlock x) = x := by
  obtain ⟨org, a, b0, b1, b2, b3⟩ := x
  obtain ⟨ho, ha, h0, h1, h2, h3⟩ := h
  match org, ho with
  | [o0, o1, o2, o3], _ =>
    simp only at ha h0 h1 h2 h3
    have e0 := o0.isLt; have e1 := o1.isLt; have e2 := o2.isLt; have e3 := o3.isLt
    simp only [encBlock, decBlock, Block.a64, Block.setA64, Block.mk.injEq, List.cons.injEq, and_true]
    refine ⟨by omega, ⟨?_, ?_, ?_, ?_⟩, by omega, by omega, by omega, by omega, by omega⟩ <;>
    · apply BitVec.eq_of_toNat_eq
      rw [BitVec.toNat_ofNat]
      omega

theorem sv_good {sel : Bool} (old : SV) {x : SV} (h : SVFits x) :
    Good (loadSV sel old) (saveSV sel x) (Verif.SucVector.load sel old x) := by
  refine next_good (loadSize_good _ h.bitSize) ?_
  refine next_good (loadSize_good _ h.num0) ?_
  refine next_good (loadSize_good _ h.num1) ?_
  refine next_good (vec_good (by omega) h.mem (fun b hb => block_codec (h.blk b hb))) ?_
  cases sel
  · exact done_good _
  · rw [loadSel, if_pos rfl, if_pos rfl]
    refine next_good (vec32_good h.sel0) ?_
    exact (last_good (f := fun t => ({ old with
      bitSize := x.bitSize, num0 := x.num0, num1 := x.num1, blk := x.blk, sel0 := x.sel0, sel1 := t } : SV)) (vec32_good h.sel1))

theorem sv_safe (sel : Bool) (old : SV) : Safe (loadSV sel old) := by
  refine next_safe loadSize_safe fun _ => next_safe loadSize_safe fun _ => next_safe loadSize_safe fun _ =>
    next_safe (vec_safe _ _) fun _ => ?_
  cases sel
  · exact done_safe _
  · exact next_safe (vec_safe 4 id) fun _ => last_safe _ (vec_safe 4 id)

theorem sv_same (big sel : Bool) (old x : SV) : SameSV big sel (Verif.SucVector.load sel old x) x where
  size := rfl
  count b := rfl
  get i := rfl
  rank1 i := rfl
  rank0 i := rfl
  select b k := by
    cases sel
    · simp [Verif.SucVector.selectSub]
    · rfl

/-! ## The wavelet matrix -/

/-- What queries cannot see of a level. -/
def bare (x : SV) : SV := Verif.SucVector.load false Verif.SucVector.empty x

/-- The matrix as queries see it. -/
def bareWM (sel : Bool) (x : WM) : WM := { x with svv := x.svv.map bare, selTbl := if sel then x.selTbl else [] }

theorem bare_load (old x : SV) : bare (Verif.SucVector.load false old x) = bare x := rfl

theorem at?_map {α β : Type} (f : α → β) (l : List α) (i : Nat) :
    at? (l.map f) i = (at? l i).bind fun x => .ok (f x) := by
  simp only [at?, List.getElem?_map]
  cases l[i]? <;> rfl

theorem levels_bytes (svv : List SV) : ∀ (n i : Nat), i + n = svv.length →
    saveLevels svv n i = .ok ((svv.drop i).map (saveSV false)).flatten := by
  intro n
  induction n with
  | zero =>
    intro i h
    rw [saveLevels, List.drop_eq_nil_of_le (by omega)]
    rfl
  | succ n ih =>
    intro i h
    have hi : i < svv.length := by omega
    rw [saveLevels, at?_eq_ok hi, Res.ok_bind, ih (i + 1) (by omega), List.drop_eq_getElem_cons hi]
    rfl

theorem sels_bytes (tbl : List (List Nat)) : ∀ (n i : Nat), i + n = tbl.length →
    saveSels tbl n i = .ok ((tbl.drop i).map (saveVec 4 id)).flatten := by
  intro n
  induction n with
  | zero =>
    intro i h
    rw [saveSels, List.drop_eq_nil_of_le (by omega)]
    rfl
  | succ n ih =>
    intro i h
    have hi : i < tbl.length := by omega
    rw [saveSels, at?_eq_ok hi, Res.ok_bind, ih (i + 1) (by omega), List.drop_eq_getElem_cons hi]
    rfl

/-- The levels after loading `new` into `old`. -/
def mix (old new : List SV) : List SV := List.zipWith (Verif.SucVector.load false) old new

theorem mix_bare : ∀ (old new : List SV), old.length = new.length → (mix old new).map bare = new.map bare
  | [], [], _ => rfl
  | o :: os, n :: ns, h => by
    have := mix_bare os ns (by simpa using h)
    simp only [mix, List.zipWith_cons_cons, List.map_cons, bare_load] at this ⊢
    rw [this]
  | [], _ :: _, h => by simp at h
  | _ :: _, [], h => by simp at h

theorem levels_good : ∀ (old new : List SV), old.length = new.length → (∀ v ∈ new, SVFits v) →
    Good (loadLevels old) (new.map (saveSV false)).flatten (mix old new)
  | [], [], _, _ => done_good _
  | o :: os, n :: ns, h, hf => by
    have ih := levels_good os ns (by simpa using h) (fun v hv => hf v (by simp [hv]))
    exact next_good (sv_good (sel := false) o (hf n (by simp))) (last_good ih)
  | [], _ :: _, h, _ => by simp at h
  | _ :: _, [], h, _ => by simp at h

theorem levels_safe : ∀ old : List SV, Safe (loadLevels old)
  | [] => done_safe _
  | o :: os => next_safe (sv_safe false o) fun _ => last_safe _ (levels_safe os)

theorem vresize_length {α : Type} (d : α) (v : List α) (n : Nat) : (Verif.Wavelet.vresize d v n).length = n := by
  simp [Verif.Wavelet.vresize]; omega

theorem selTbl_good {sel : Bool} (old : List (List Nat)) {x : WM} (h : WMFits sel x) :
    ∃ b, saveSelTbl sel x = .ok b ∧ Good (loadSelTbl sel old x.maxVal) b (if sel then x.selTbl else old) := by
  cases sel
  · exact ⟨[], rfl, done_good _⟩
  · obtain ⟨h1, h2, h3⟩ := h.selLen rfl
    refine ⟨(x.selTbl.map (saveVec 4 id)).flatten, ?_, ?_⟩
    · have := sels_bytes x.selTbl x.maxVal 0 (by omega)
      simpa [saveSelTbl] using this
    · have g := loadMany_good (ld := loadVec 4 id) (sv := saveVec 4 id) (fun l t => l ++ [t]) x.selTbl
        (fun t ht => vec32_good (h3 t ht)) []
      rw [foldl_append_one, List.nil_append, h1] at g
      have h4 : ¬ x.maxVal * 24 ≥ 2 ^ 63 := by rw [← h1]; simpa [Mem] using h2
      rw [loadSelTbl, if_pos rfl, if_neg h4]
      exact g

theorem wm_good {sel : Bool} (old : WM) {x : WM} (h : WMFits sel x) :
    ∃ b, saveWM sel x = .ok b ∧ ∃ r, Good (loadWM sel old) b r ∧
      bareWM sel r = bareWM sel x := by
  obtain ⟨st, s1, s2⟩ := selTbl_good old.selTbl h
  have hl := levels_bytes x.svv x.valBitLen 0 (by rw [← h.levels]; omega)
  rw [List.drop_zero] at hl
  refine ⟨_, by rw [saveWM, hl, Res.ok_bind, s1, Res.ok_bind]; rfl, ?_⟩
  refine ⟨{ x with
    svv := mix (Verif.Wavelet.vresize Verif.SucVector.empty old.svv x.valBitLen) x.svv
    selTbl := (if sel then x.selTbl else old.selTbl) }, ?_, ?_⟩
  · refine next_good (loadSize_good _ h.maxVal) ?_
    refine next_good (loadSize_good x.valBitLen ?_) ?_
    · have := h.mem; simp only [Mem, h.levels] at this; omega
    refine next_good (loadSize_good _ h.size) ?_
    refine next_good (v1 := mix (Verif.Wavelet.vresize Verif.SucVector.empty old.svv x.valBitLen) x.svv) ?_ ?_
    · have := h.mem
      rw [Mem, h.levels] at this
      rw [loadSvv, if_neg (by omega)]
      exact levels_good _ _ (by rw [vresize_length, h.levels]) h.svv
    refine next_good (vec32_good h.off) ?_
    refine next_good (vec32_good h.from_) ?_
    refine next_good (vec32_good h.fromLt) ?_
    exact last_good s2
  · have := mix_bare (Verif.Wavelet.vresize Verif.SucVector.empty old.svv x.valBitLen) x.svv (by rw [vresize_length, h.levels])
    simp only [bareWM, this]
    cases sel <;> simp

theorem selTbl_safe (sel : Bool) (old : List (List Nat)) (n : Nat) : Safe (loadSelTbl sel old n) := by
  cases sel
  · exact done_safe _
  · rw [loadSelTbl, if_pos rfl]
    split
    · intro s; simp
    · exact fun s => loadMany_safe _ (vec_safe 4 id) n [] s

theorem svv_safe (old : List SV) (n : Nat) : Safe (loadSvv old n) := by
  rw [loadSvv]
  split
  · intro s; simp
  · exact levels_safe _

theorem wm_safe (sel : Bool) (old : WM) : Safe (loadWM sel old) :=
  next_safe loadSize_safe fun _ => next_safe loadSize_safe fun _ => next_safe loadSize_safe fun _ =>
    next_safe (svv_safe _ _) fun _ => next_safe (vec_safe _ _) fun _ => next_safe (vec_safe _ _) fun _ =>
    next_safe (vec_safe _ _) fun _ => last_safe _ (selTbl_safe _ _ _)

theorem down_bare (sel : Bool) (x : WM) (i : Nat) (b : Bool) (pos : Nat) :
    Verif.Wavelet.down (bareWM sel x) i b pos = Verif.Wavelet.down x i b pos := by
  simp only [Verif.Wavelet.down, bareWM, at?_map]
  cases at? x.svv i <;> cases b <;> rfl

theorem rankLoop_bare (sel : Bool) (x : WM) (v : Nat) : ∀ k i pos,
    Verif.Wavelet.rankLoop (bareWM sel x) v k i pos = Verif.Wavelet.rankLoop x v k i pos := by
  intro k
  induction k with
  | zero => intros; rfl
  | succ k ih =>
    intro i pos
    simp only [Verif.Wavelet.rankLoop, down_bare, ih]

theorem rank_bare (sel : Bool) (x : WM) (v pos : Nat) :
    Verif.Wavelet.rank (bareWM sel x) v pos = Verif.Wavelet.rank x v pos := by
  rw [Verif.Wavelet.rank, Verif.Wavelet.rank, rankLoop_bare]; rfl

theorem getLoop_bare (sel : Bool) (x : WM) : ∀ k i ret pos,
    Verif.Wavelet.getLoop (bareWM sel x) k i ret pos = Verif.Wavelet.getLoop x k i ret pos := by
  intro k
  induction k with
  | zero => intros; rfl
  | succ k ih =>
    intro i ret pos
    rw [Verif.Wavelet.getLoop, Verif.Wavelet.getLoop]
    simp only [down_bare, ih]
    simp only [bareWM, at?_map]
    cases at? x.svv i <;> rfl

theorem get2Loop_bare (sel : Bool) (x : WM) : ∀ k i ret pos,
    Verif.Wavelet.get2Loop (bareWM sel x) k i ret pos = Verif.Wavelet.get2Loop x k i ret pos := by
  intro k
  induction k with
  | zero => intros; rfl
  | succ k ih =>
    intro i ret pos
    rw [Verif.Wavelet.get2Loop, Verif.Wavelet.get2Loop]
    simp only [down_bare, ih]
    simp only [bareWM, at?_map]
    cases at? x.svv i <;> rfl

theorem get2_bare (sel : Bool) (x : WM) (pos : Nat) :
    Verif.Wavelet.get2 (bareWM sel x) pos = Verif.Wavelet.get2 x pos := by
  rw [Verif.Wavelet.get2, Verif.Wavelet.get2, get2Loop_bare]; rfl

theorem rankLtLoop_bare (sel : Bool) (x : WM) (v : Nat) : ∀ k i ret pos,
    Verif.Wavelet.rankLtLoop (bareWM sel x) v k i ret pos = Verif.Wavelet.rankLtLoop x v k i ret pos := by
  intro k
  induction k with
  | zero => intros; rfl
  | succ k ih =>
    intro i ret pos
    have hd : Verif.Wavelet.downLt (bareWM sel x) i (Verif.Wavelet.getPos v k) ret pos =
        Verif.Wavelet.downLt x i (Verif.Wavelet.getPos v k) ret pos := by
      simp only [Verif.Wavelet.downLt, bareWM, at?_map]
      cases at? x.svv i <;> rfl
    simp only [Verif.Wavelet.rankLtLoop, hd, ih]

theorem selBin_bare (sel : Bool) (x : WM) (v r : Nat) : ∀ n L R, R - L ≤ n →
    Verif.Wavelet.selBin (bareWM sel x) v r L R = Verif.Wavelet.selBin x v r L R := by
  intro n
  induction n with
  | zero =>
    intro L R h
    rw [Verif.Wavelet.selBin, Verif.Wavelet.selBin, dif_neg (by omega), dif_neg (by omega)]
  | succ n ih =>
    intro L R h
    rw [Verif.Wavelet.selBin, Verif.Wavelet.selBin]
    by_cases hlr : L < R
    · rw [dif_pos hlr, dif_pos hlr]
      simp only [rank_bare, ih ((L + R) / 2 + 1) R (by omega), ih L ((L + R) / 2) (by omega)]
    · rw [dif_neg hlr, dif_neg hlr]

theorem selScan_unfold (x : WM) (v r L : Nat) : Verif.Wavelet.selScan x v r L = (do
    let c ← Verif.Wavelet.rank x v L
    if c = r then return Verif.SucVector.sub64 L 1
    else if x.size < L + 1 then return Verif.SucVector.NotFound
    else Verif.Wavelet.selScan x v r (L + 1)) := by
  rw [Verif.Wavelet.selScan]
  split <;> rfl

theorem selScan_bare (sel : Bool) (x : WM) (v r : Nat) : ∀ n L, x.size - L ≤ n →
    Verif.Wavelet.selScan (bareWM sel x) v r L = Verif.Wavelet.selScan x v r L := by
  intro n
  have hs : (bareWM sel x).size = x.size := rfl
  induction n with
  | zero =>
    intro L h
    have hl : x.size < L + 1 := by omega
    rw [selScan_unfold x, selScan_unfold (bareWM sel x), rank_bare, hs]
    simp only [if_pos hl]
  | succ n ih =>
    intro L h
    rw [selScan_unfold x, selScan_unfold (bareWM sel x), rank_bare, hs]
    by_cases hl : x.size < L + 1
    · simp only [if_pos hl]
    · simp only [if_neg hl, ih (L + 1) (by omega)]

theorem get_bare (sel : Bool) (x : WM) (i : Nat) : Verif.Wavelet.get (bareWM sel x) i = Verif.Wavelet.get x i := by
  rw [Verif.Wavelet.get, Verif.Wavelet.get, getLoop_bare]; rfl

theorem rankLt_bare (sel : Bool) (x : WM) (v i : Nat) : Verif.Wavelet.rankLt (bareWM sel x) v i = Verif.Wavelet.rankLt x v i := by
  rw [Verif.Wavelet.rankLt, Verif.Wavelet.rankLt, rankLtLoop_bare]; rfl

theorem select_bare (sel : Bool) (x : WM) (v k : Nat) :
    Verif.Wavelet.select sel (bareWM sel x) v k = Verif.Wavelet.select sel x v k := by
  cases sel
  · simp only [Verif.Wavelet.select, Bool.not_false, if_true]
  · have h1 : ∀ L R r, Verif.Wavelet.selBin (bareWM true x) v r L R = Verif.Wavelet.selBin x v r L R :=
      fun L R r => selBin_bare true x v r _ L R (Nat.le_refl _)
    have h2 : ∀ L r, Verif.Wavelet.selScan (bareWM true x) v r L = Verif.Wavelet.selScan x v r L :=
      fun L r => selScan_bare true x v r _ L (Nat.le_refl _)
    have h3 : (bareWM true x).selTbl = x.selTbl := rfl
    have h4 : ∀ t p, Verif.Wavelet.selEnd (bareWM true x) t p = Verif.Wavelet.selEnd x t p := by
      intro t p
      simp only [Verif.Wavelet.selEnd, show (bareWM true x).size = x.size from rfl]
    simp only [Verif.Wavelet.select, h1, h2, h3, h4]

theorem same_bare (sel : Bool) (x : WM) : SameWM sel (bareWM sel x) x where
  size := rfl
  sizeVal v := rank_bare sel x v x.size
  get i := get_bare sel x i
  get2 i := get2_bare sel x i
  rank v i := rank_bare sel x v i
  rankLt v i := rankLt_bare sel x v i
  select v k := select_bare sel x v k

theorem same_of_bare {sel : Bool} {r x : WM} (h : bareWM sel r = bareWM sel x) : SameWM sel r x := by
  have h1 := same_bare sel r
  have h2 := same_bare sel x
  rw [h] at h1
  exact ⟨h1.size.symm.trans h2.size, fun v => (h1.sizeVal v).symm.trans (h2.sizeVal v),
    fun i => (h1.get i).symm.trans (h2.get i), fun i => (h1.get2 i).symm.trans (h2.get2 i),
    fun v i => (h1.rank v i).symm.trans (h2.rank v i), fun v i => (h1.rankLt v i).symm.trans (h2.rankLt v i),
    fun v k => (h1.select v k).symm.trans (h2.select v k)⟩

/-! ## The compressed vector -/

theorem enc_codec {e : Enc} (h : e.len < 2 ^ 32 ∧ e.rk < 2 ^ 32) : encEnc e < 2 ^ (8 * 16) ∧ decEnc (encEnc e) = e := by
  obtain ⟨v, len, rk⟩ := e
  have hv := v.isLt
  obtain ⟨h1, h2⟩ := h
  simp only at h1 h2
  simp only [encEnc, decEnc, Enc.mk.injEq]
  refine ⟨by omega, ?_, by omega, by omega⟩
  apply BitVec.eq_of_toNat_eq
  rw [BitVec.toNat_ofNat]; omega

theorem blk_codec {b : Blk} (h : b.orgPos < 2 ^ 32 ∧ b.vecPos < 2 ^ 32 ∧ b.rk < 2 ^ 32) :
    encBlk b < 2 ^ (8 * 12) ∧ decBlk (encBlk b) = b := by
  obtain ⟨o, v, r⟩ := b
  obtain ⟨h1, h2, h3⟩ := h
  simp only at h1 h2 h3
  simp only [encBlk, decBlk, Blk.mk.injEq]
  refine ⟨by omega, by omega, by omega, by omega⟩

theorem cv_good {x : CV} (h : CVFits x) : Good loadCV (saveCV x) x := by
  refine next_good (load32_good h.bitSize) ?_
  refine next_good (vec_good (by omega) h.vecMem (fun v hv => ⟨h.vec v hv, rfl⟩)) ?_
  refine next_good (vec_good (by omega) h.blkMem (fun b hb => blk_codec (h.blk b hb))) ?_
  refine next_good (load32_good h.rk) ?_
  exact last_good
    (vec_good (by omega) h.encMem (fun e he => enc_codec (h.enc e he)))

theorem cv_safe : Safe loadCV :=
  next_safe load32_safe fun _ => next_safe (vec_safe _ _) fun _ => next_safe (vec_safe _ _) fun _ =>
    next_safe load32_safe fun _ => last_safe _ (vec_safe _ _)

/-! ## The frequency tables -/

theorem arr_good {n : Nat} {l : List Nat} (hl : l.length = 256) (h : ∀ x ∈ l, x < 2 ^ (8 * n)) :
    Good (loadArr n) (saveArr n l) l := by
  have e : saveArr n l = ((l.map (BitVec.ofNat (8 * n))).map fun x => savePod n x.toNat).flatten := by
    rw [saveArr, List.map_map]
    congr 1
    apply List.map_congr_left
    intro x hx
    simp [Nat.mod_eq_of_lt (h x hx)]
  have hb : (saveArr n l).length = 256 * n := by rw [e, podVec_bytes]; simp [hl]
  have g := loadRange_good (saveArr n l)
  rw [hb] at g
  have g := last_good (f := fun c => (chunks n 256 c).map BitVec.toNat) g
  have hc := chunks_save n (l.map (BitVec.ofNat (8 * n)))
  rw [← e, List.length_map, hl] at hc
  rw [hc, List.map_map] at g
  have : (l.map (BitVec.toNat ∘ BitVec.ofNat (8 * n))) = l := by
    conv => rhs; rw [← List.map_id l]
    apply List.map_congr_left
    intro x hx
    simp [Nat.mod_eq_of_lt (h x hx)]
  rw [this] at g
  exact g

theorem arr_safe (n : Nat) : Safe (loadArr n) := last_safe _ (loadRange_safe _)

theorem fv_good {x : FV} (h : FVFits x) : Good loadFV (saveFV x) x := by
  refine next_good (loadSize_good _ h.size) ?_
  refine next_good (arr_good h.freqLen h.freq) ?_
  refine next_good (arr_good h.c2iLen h.c2i) ?_
  exact last_good (arr_good h.i2cLen h.i2c)

theorem fv_safe : Safe loadFV :=
  next_safe loadSize_safe fun _ => next_safe (arr_safe _) fun _ => next_safe (arr_safe _) fun _ => last_safe _ (arr_safe _)

theorem ent_good {e : Ent} (h : e.key < 2 ^ 16 ∧ e.freq < 2 ^ 32 ∧ e.idx < 2 ^ 32) : Good loadEnt (saveEnt e) e := by
  have g := loadPod_good 2 e.key
  have hk : (BitVec.ofNat (8 * 2) e.key).toNat = e.key := by rw [BitVec.toNat_ofNat]; exact Nat.mod_eq_of_lt h.1
  have := next_good (l2 := fun k : BitVec (8 * 2) => next load32 fun f => next load32 fun i => done (⟨k.toNat, f, i⟩ : Ent)) g
    (next_good (load32_good h.2.1) (last_good (load32_good h.2.2)))
  rw [hk] at this
  exact this

theorem ent_safe : Safe loadEnt :=
  next_safe (loadPod_safe _) fun _ => next_safe load32_safe fun _ => last_safe _ load32_safe

theorem fg_good {sort : List Ent → List Nat} (old : FG) {x : FG} (h : FGFits x) :
    Good (loadFG sort old) (saveFG x) ⟨x.m.foldl insertEnt old.m, sort (x.m.foldl insertEnt old.m)⟩ := by
  refine next_good (loadSize_good _ h.len) ?_
  exact last_good (f := fun m => (⟨m, sort m⟩ : FG)) (loadMany_good (sv := saveEnt) insertEnt x.m (fun e he => ent_good (h.ents e he)) old.m)

theorem fg_safe (sort : List Ent → List Nat) (old : FG) : Safe (loadFG sort old) :=
  next_safe loadSize_safe fun n => last_safe _ (fun s => loadMany_safe _ ent_safe n old.m s)

theorem foldl_insertEnt : ∀ (l acc : List Ent), (∀ e ∈ l, e.key ∉ acc.map Ent.key) → (l.map Ent.key).Nodup →
    l.foldl insertEnt acc = acc ++ l
  | [], acc, _, _ => by simp
  | e :: l, acc, h1, h2 => by
    have he := h1 e (by simp)
    have ha : acc.any (fun y => y.key == e.key) = false := by
      rw [List.any_eq_false]
      intro y hy
      simp only [beq_iff_eq]
      intro hk
      exact he (List.mem_map.mpr ⟨y, hy, hk⟩)
    rw [List.map_cons, List.nodup_cons] at h2
    rw [List.foldl_cons, insertEnt, ha, if_neg (by simp), foldl_insertEnt l (acc ++ [e]) ?_ h2.2]
    · simp
    · intro z hz hm
      rw [List.map_append, List.mem_append] at hm
      rcases hm with hm | hm
      · exact h1 z (by simp [hz]) hm
      · simp only [List.map_cons, List.map_nil, List.mem_singleton] at hm
        exact h2.1 (List.mem_map.mpr ⟨z, hz, hm⟩)

theorem fg_fresh {x : FG} (h : FGFits x) : x.m.foldl insertEnt [] = x.m := by
  rw [foldl_insertEnt x.m [] (by simp) h.keys]; simp

/-! ## The FM-index -/

theorem freq_safe {raw : Bool} {tb : Nat} {ld : Src → Res (FreqView × Src)} (hl : Safe ld) (old : FreqView) :
    Safe (loadFreq raw tb ld old) := by
  cases raw
  · rw [loadFreq, if_neg (by simp)]
    exact last_safe _ hl
  · exact done_safe _

theorem fm_safe (raw : Bool) (tb : Nat) {ld : Src → Res (FreqView × Src)} (hl : Safe ld) (old : FM) :
    Safe (loadFM raw tb ld old) :=
  next_safe (variable_safe 32) fun _ => next_safe (vec_safe _ _) fun _ => next_safe (wm_safe _ _) fun _ =>
    next_safe (vec_safe _ _) fun _ => next_safe (sv_safe _ _) fun _ => last_safe (fun p : FreqView × Nat => _) (freq_safe hl _)

theorem freq_good {raw : Bool} {tb : Nat} {ld : Src → Res (FreqView × Src)} {old f : FreqView} {fb : List UInt8}
    (hf : raw = false → Good ld fb f) :
    ∃ n, Good (loadFreq raw tb ld old) (if raw then [] else fb) (if raw then old else f, n) := by
  cases raw
  · refine ⟨f.size, ?_⟩
    rw [loadFreq, if_neg (by simp), if_neg (by simp), if_neg (by simp)]
    exact last_good (f := fun f : FreqView => (f, f.size)) (hf rfl)
  · exact ⟨2 ^ tb, done_good _⟩

theorem fm_good {raw : Bool} {tb : Nat} {ld : Src → Res (FreqView × Src)} {fb : List UInt8} (old : FM) {x : FM} {f : FreqView}
    (h : FMFits x) (hf : raw = false → Good ld fb f) :
    ∃ b, saveFM raw x fb = .ok b ∧ ∃ r, Good (loadFM raw tb ld old) b r ∧ r.cf = x.cf ∧ bareWM false r.wm = bareWM false x.wm ∧
      r.alignedSa = x.alignedSa ∧ bare r.alignedPos = bare x.alignedPos ∧ r.freq = (if raw then old.freq else f) ∧
      r.skip = x.skip := by
  obtain ⟨w, w1, wm, w2, w3⟩ := wm_good (sel := false) old.wm h.wm
  obtain ⟨n, g⟩ := freq_good (tb := tb) (old := old.freq) hf
  refine ⟨_, by rw [saveFM, w1, Res.ok_bind]; rfl, ⟨x.cf, wm, x.alignedSa, Verif.SucVector.load false old.alignedPos x.alignedPos,
    if raw then old.freq else f, (BitVec.ofInt 32 x.skip).toInt, n⟩, ?_, rfl, w3, rfl, rfl, rfl, ?_⟩
  · refine next_good (variable_good 32 (.inl rfl) (BitVec.ofInt 32 x.skip)) ?_
    refine next_good (vec32_good h.cf) ?_
    refine next_good w2 ?_
    refine next_good (vec32_good h.sa) ?_
    refine next_good (sv_good (sel := false) old.alignedPos h.pos) ?_
    exact last_good (f := fun p : FreqView × Nat => (⟨x.cf, wm, x.alignedSa,
      Verif.SucVector.load false old.alignedPos x.alignedPos, p.1, (BitVec.ofInt 32 x.skip).toInt, p.2⟩ : FM)) g
  · have := h.skip
    simp only [BitVec.toInt_ofInt]
    rw [Int.bmod_eq_of_le] <;> omega

/-- What the queries read of an index. -/
def view (fm : FM) : List Nat × WM × List Nat × SV × FreqView := (fm.cf, bareWM false fm.wm, fm.alignedSa, bare fm.alignedPos, fm.freq)

theorem rangeLoop_view {r x : FM} (h1 : r.cf = x.cf) (h2 : bareWM false r.wm = bareWM false x.wm) : ∀ (key : List Nat) (b e : Nat),
    Verif.FMindex.rangeLoop r key b e = Verif.FMindex.rangeLoop x key b e := by
  intro key
  have hw := same_of_bare h2
  induction key with
  | nil => intros; rfl
  | cons c cs ih =>
    intro b e
    have hs : Verif.FMindex.rangeStep r c b e = Verif.FMindex.rangeStep x c b e := by
      simp only [Verif.FMindex.rangeStep, h1, hw.rank]
    simp only [Verif.FMindex.rangeLoop, hs, ih]

theorem searchKey_view {r x : FM} (h1 : r.cf = x.cf) (h2 : bareWM false r.wm = bareWM false x.wm) (key : List Nat) :
    Verif.FMindex.searchKey r key = Verif.FMindex.searchKey x key := by
  simp only [Verif.FMindex.searchKey, rangeLoop_view h1 h2, (same_of_bare h2).size]

theorem lfStep_view {r x : FM} (h1 : r.cf = x.cf) (h2 : bareWM false r.wm = bareWM false x.wm) (row : Nat) :
    Verif.FMindex.lfStep r row = Verif.FMindex.lfStep x row := by
  simp only [Verif.FMindex.lfStep, h1, (same_of_bare h2).get2]

theorem fm_same {raw : Bool} {tb : Nat} {r x : FM} (h1 : r.cf = x.cf) (h2 : bareWM false r.wm = bareWM false x.wm)
    (h3 : r.alignedSa = x.alignedSa) (h4 : bare r.alignedPos = bare x.alignedPos) (h5 : raw = false → r.freq = x.freq) :
    SameFM raw tb r x where
  range key := by
    simp only [Verif.FMindex.getRange, searchKey_view h1 h2]
    cases raw
    · simp only [h5 rfl]
    · rfl
  convert fuel row := by
    have hg : ∀ i, Verif.SucVector.get r.alignedPos i = Verif.SucVector.get x.alignedPos i := by
      intro i
      have h : Verif.SucVector.get (bare r.alignedPos) i = Verif.SucVector.get (bare x.alignedPos) i := by rw [h4]
      exact h
    have hr : ∀ i, Verif.SucVector.rank1 false r.alignedPos i = Verif.SucVector.rank1 false x.alignedPos i := by
      intro i
      have h : Verif.SucVector.rank1 false (bare r.alignedPos) i = Verif.SucVector.rank1 false (bare x.alignedPos) i := by rw [h4]
      exact h
    have : ∀ fuel row t, Verif.FMindex.convLoop r fuel row t = Verif.FMindex.convLoop x fuel row t := by
      intro fuel
      induction fuel with
      | zero => intros; rfl
      | succ fuel ih =>
        intro row t
        simp only [Verif.FMindex.convLoop, hg, hr, h3, lfStep_view h1 h2, ih]
    exact this fuel row 0
  prev row len := by
    have hc : ∀ c, Verif.FMindex.prevChar raw r c = Verif.FMindex.prevChar raw x c := by
      intro c
      cases raw
      · simp only [Verif.FMindex.prevChar, h5 rfl]
      · rfl
    have : ∀ len row acc, Verif.FMindex.prevLoop raw r len row acc = Verif.FMindex.prevLoop raw x len row acc := by
      intro len
      induction len with
      | zero => intros; rfl
      | succ len ih =>
        intro row acc
        simp only [Verif.FMindex.prevLoop, lfStep_view h1 h2, hc, ih]
    exact this len row []

end Verif.IndexIO
