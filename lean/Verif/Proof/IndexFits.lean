import Verif.Spec.IndexIO
import Verif.Proof.SucVector
import Verif.Proof.Frequency
set_option linter.unusedSimpArgs false
set_option maxRecDepth 8000

/-! Lemmas for C60: what `init` builds fits the C++ types. -/
namespace Verif.IndexIO
open Verif.Spec.IndexIO
open Verif.SucVector
open Verif.Frequency (FV FG Ent)

theorem zero_fits : BlockFits Block.zero := ⟨rfl, by decide, by decide, by decide, by decide, by decide⟩

theorem setHead_fits {big : Bool} {x y : Block} {n : Nat} (h : BlockFits x) (e : setHead big x n = .ok y) : BlockFits y := by
  rw [setHead] at e
  split at e
  · injection e with e
    subst e
    exact ⟨h.org, Nat.mod_lt _ (by decide), Nat.mod_lt _ (by decide), Nat.mod_lt _ (by decide), Nat.mod_lt _ (by decide),
      Nat.mod_lt _ (by decide)⟩
  · split at e
    · simp at e
    · injection e with e
      subst e
      exact ⟨h.org, by simp only; omega, h.b0, h.b1, h.b2, h.b3⟩

theorem initBlocks_fits (big : Bool) (buf : Option (List (BitVec 64))) (blkNum : Nat) : ∀ (l : List Block) (pos n : Nat)
    (r : List Block) (m : Nat), (∀ b ∈ l, BlockFits b) → initBlocks big buf blkNum l pos n = .ok (r, m) →
    r.length = l.length ∧ (∀ b ∈ r, BlockFits b) ∧ m ≤ n + 256 * l.length := by
  intro l
  induction l with
  | nil =>
    intro pos n r m _ e
    rw [initBlocks] at e
    injection e with e
    injection e with e1 e2
    subst e1 e2
    simp
  | cons x xs ih =>
    intro pos n r m h e
    rw [initBlocks] at e
    obtain ⟨y, e1, e⟩ := Res.bind_eq_ok.mp e
    obtain ⟨⟨⟨v0, v1, v2, v3⟩, pos'⟩, _, e⟩ := Res.bind_eq_ok.mp e
    obtain ⟨⟨ys, k⟩, e3, e⟩ := Res.bind_eq_ok.mp e
    injection e with e
    injection e with e4 e5
    subst e4 e5
    have hy := setHead_fits (h x (by simp)) e1
    obtain ⟨i1, i2, i3⟩ := ih _ _ _ _ (fun b hb => h b (by simp [hb])) e3
    have c0 := cnt_le v0 64
    have c1 := cnt_le v1 64
    have c2 := cnt_le v2 64
    have c3 := cnt_le v3 64
    rw [← cnt64] at c0 c1 c2 c3
    refine ⟨by simp [i1], ?_, by simp only [List.length_cons]; omega⟩
    intro b hb
    rcases List.mem_cons.mp hb with rfl | hb
    · exact ⟨rfl, hy.a, hy.b0, Nat.mod_lt _ (by decide), Nat.mod_lt _ (by decide), Nat.mod_lt _ (by decide)⟩
    · exact i2 b hb

theorem selAdvance_lt (big b : Bool) (blk : List Block) (r : Nat) : ∀ (n pos p : Nat), blk.length - pos ≤ n → pos < 2 ^ 32 →
    selAdvance big b blk r pos = .ok p → p < 2 ^ 32 := by
  intro n
  induction n with
  | zero =>
    intro pos p h _ e
    rw [selAdvance, if_neg (by omega)] at e
    simp at e
  | succ n ih =>
    intro pos p h hp e
    rw [selAdvance] at e
    split at e
    · split at e
      · split at e
        · split at e
          · simp at e
          · split at e
            · injection e with e; omega
            · exact ih (pos + 1) p (by omega) (by omega) e
        · injection e with e; omega
      · simp at e
      · simp at e
    · simp at e

theorem selTblLoop_fits (big b : Bool) (blk : List Block) : ∀ (n i pos : Nat) (t : List Nat), pos < 2 ^ 32 →
    selTblLoop big b blk n i pos = .ok t → t.length = n ∧ ∀ x ∈ t, x < 2 ^ 32 := by
  intro n
  induction n with
  | zero =>
    intro i pos t _ e
    rw [selTblLoop] at e
    injection e with e
    subst e
    simp
  | succ n ih =>
    intro i pos t hp e
    rw [selTblLoop] at e
    obtain ⟨p, e1, e⟩ := Res.bind_eq_ok.mp e
    obtain ⟨rest, e2, e⟩ := Res.bind_eq_ok.mp e
    injection e with e
    subst e
    have hp' := selAdvance_lt big b blk _ _ pos p (Nat.le_refl _) hp e1
    obtain ⟨i1, i2⟩ := ih _ _ _ hp' e2
    refine ⟨by simp [i1], ?_⟩
    intro x hx
    rcases List.mem_cons.mp hx with rfl | hx
    · exact hp'
    · exact i2 x hx

theorem initSelTblSub_fits {big b : Bool} {blk : List Block} {num : Nat} {t : List Nat}
    (e : initSelTblSub big b blk num = .ok t) : Vec32 t := by
  obtain ⟨h1, h2⟩ := selTblLoop_fits big b blk _ 0 0 t (by decide) e
  refine ⟨?_, h2⟩
  have : getBlockNum num 1024 < 2 ^ 60 := by
    rw [getBlockNum]
    have := Nat.mod_lt (num + 1024 - 1) (show 2 ^ 64 > 0 by decide)
    omega
  simp only [Mem, h1]
  omega

theorem initSelTbl_fits {big sel : Bool} {s r : SV} (h : SVFits s) (e : initSelTbl big sel s = .ok r) : SVFits r := by
  cases sel
  · simp only [initSelTbl, Bool.false_eq_true, if_false] at e
    injection e with e
    subst e
    exact h
  · rw [initSelTbl, if_pos rfl] at e
    obtain ⟨t0, e0, e⟩ := Res.bind_eq_ok.mp e
    obtain ⟨t1, e1, e⟩ := Res.bind_eq_ok.mp e
    injection e with e
    subst e
    exact ⟨h.bitSize, h.num0, h.num1, h.mem, h.blk, initSelTblSub_fits e0, initSelTblSub_fits e1⟩

theorem initBlock_fits {big sel : Bool} {s r : SV} {buf : Option (List (BitVec 64))} {n : Nat} (h : SVFits s)
    (hl : s.blk.length < 2 ^ 50) (e : initBlock big sel s buf n = .ok r) : SVFits r := by
  rw [initBlock] at e
  obtain ⟨⟨blk, k⟩, e1, e⟩ := Res.bind_eq_ok.mp e
  obtain ⟨i1, i2, i3⟩ := initBlocks_fits big buf n _ _ _ _ _ h.blk e1
  obtain ⟨t, e2, e⟩ := Res.bind_eq_ok.mp e
  injection e with e
  subst e
  have : SVFits { s with blk := blk, num0 := sub64 (n * 64) k, num1 := k } :=
    ⟨h.bitSize, Nat.mod_lt _ (by decide), by simp only; omega, by simp only [Mem, i1]; omega, i2, h.sel0, h.sel1⟩
  have := initSelTbl_fits this e2
  exact ⟨this.bitSize, this.num0, this.num1, this.mem, this.blk, this.sel0, this.sel1⟩

theorem resize_fits {big : Bool} {s r : SV} {n k : Nat} {c : Bool} (h : SVFits s) (e : resize big s n c = .ok (r, k)) :
    SVFits r ∧ r.blk.length < 2 ^ 50 := by
  rw [resize] at e
  split at e
  · simp at e
  · rename_i hn
    injection e with e
    injection e with e1 e2
    subst e1
    have hm : maxBitSize big ≤ 2 ^ 40 := by cases big <;> simp [maxBitSize]
    have hlen : (if c then List.replicate (((n + 63) / 64 + 3) / 4) Block.zero else vresize s.blk (((n + 63) / 64 + 3) / 4)).length =
        ((n + 63) / 64 + 3) / 4 := by
      cases c
      · simp [vresize]; omega
      · simp
    refine ⟨⟨by simp only; omega, h.num0, h.num1, by simp only [Mem, hlen]; omega, ?_, h.sel0, h.sel1⟩, by simp only [hlen]; omega⟩
    intro b hb
    simp only at hb
    split at hb
    · exact (List.eq_of_mem_replicate hb) ▸ zero_fits
    · rw [vresize, List.mem_append] at hb
      rcases hb with hb | hb
      · exact h.blk b (List.mem_of_mem_take hb)
      · exact (List.eq_of_mem_replicate hb) ▸ zero_fits

theorem init_fits {big sel : Bool} {s r : SV} {buf : List (BitVec 64)} {n : Nat} (h : SVFits s)
    (e : init big sel s buf n = .ok r) : SVFits r := by
  rw [init] at e
  obtain ⟨⟨t, k⟩, e1, e⟩ := Res.bind_eq_ok.mp e
  obtain ⟨h1, h2⟩ := resize_fits h e1
  exact initBlock_fits h1 h2 e

theorem empty_fits : SVFits empty :=
  ⟨by decide, by decide, by decide, by simp [Mem, empty], by simp [empty], ⟨by simp [Mem, empty], by simp [empty]⟩,
    ⟨by simp [Mem, empty], by simp [empty]⟩⟩

/-! ## The wavelet matrix -/

theorem setAt_vec32 {l r : List Nat} {i x : Nat} (h : Vec32 l) (hx : x < 2 ^ 32) (e : Verif.BitVector.setAt? l i x = .ok r) :
    Vec32 r := by
  rw [Verif.BitVector.setAt?] at e
  split at e
  · injection e with e
    subst e
    refine ⟨by simpa [Mem] using h.1, fun y hy => ?_⟩
    rcases List.mem_or_eq_of_mem_set hy with hy | rfl
    · exact h.2 y hy
    · exact hx
  · simp at e

theorem toSize_lt (x : Nat) : Verif.Wavelet.toSize x < 2 ^ 32 := Nat.mod_lt _ (by decide)

theorem levels_fits (size : Nat) (off : List Nat) (old : List SV) (ho : ∀ v ∈ old, SVFits v) : ∀ (k i : Nat) (cur next : List Nat)
    (r : List SV), Verif.Wavelet.levels size off old k i cur next = .ok r → r.length = k ∧ ∀ v ∈ r, SVFits v := by
  intro k
  induction k with
  | zero =>
    intro i cur next r e
    rw [Verif.Wavelet.levels] at e
    injection e with e
    subst e
    simp
  | succ k ih =>
    intro i cur next r e
    rw [Verif.Wavelet.levels] at e
    obtain ⟨_, _, e⟩ := Res.bind_eq_ok.mp e
    obtain ⟨_, _, e⟩ := Res.bind_eq_ok.mp e
    obtain ⟨_, _, e⟩ := Res.bind_eq_ok.mp e
    obtain ⟨o, e1, e⟩ := Res.bind_eq_ok.mp e
    obtain ⟨sv, e2, e⟩ := Res.bind_eq_ok.mp e
    obtain ⟨rest, e3, e⟩ := Res.bind_eq_ok.mp e
    injection e with e
    subst e
    have hm : o ∈ old := by
      simp only [at?] at e1
      split at e1
      · rename_i a ha
        injection e1 with e1
        subst e1
        exact List.mem_of_getElem? ha
      · simp at e1
    obtain ⟨i1, i2⟩ := ih _ _ _ _ e3
    refine ⟨by simp [i1], fun v hv => ?_⟩
    rcases List.mem_cons.mp hv with rfl | hv
    · exact init_fits (ho o hm) e2
    · exact i2 v hv

theorem fromTbl_fits (svv : List SV) (off : List Nat) : ∀ (k i : Nat) (tbl : List Nat) (pos f : Nat) (r : List Nat), Vec32 tbl →
    Verif.Wavelet.initFromTbl svv off k i tbl pos f = .ok r → Vec32 r := by
  intro k
  induction k with
  | zero => intro i tbl pos f r h e; exact setAt_vec32 h (toSize_lt _) e
  | succ k ih =>
    intro i tbl pos f r h e
    rw [Verif.Wavelet.initFromTbl] at e
    obtain ⟨_, _, e⟩ := Res.bind_eq_ok.mp e
    obtain ⟨_, _, e⟩ := Res.bind_eq_ok.mp e
    obtain ⟨t, e1, e⟩ := Res.bind_eq_ok.mp e
    obtain ⟨_, _, e⟩ := Res.bind_eq_ok.mp e
    obtain ⟨_, _, e⟩ := Res.bind_eq_ok.mp e
    exact ih _ _ _ _ _ (ih _ _ _ _ _ h e1) e

theorem fromLtTbl_fits (svv : List SV) (off : List Nat) : ∀ (k i : Nat) (tbl : List Nat) (pos f ret : Nat) (r : List Nat), Vec32 tbl →
    Verif.Wavelet.initFromLtTbl svv off k i tbl pos f ret = .ok r → Vec32 r := by
  intro k
  induction k with
  | zero => intro i tbl pos f ret r h e; exact setAt_vec32 h (toSize_lt _) e
  | succ k ih =>
    intro i tbl pos f ret r h e
    rw [Verif.Wavelet.initFromLtTbl] at e
    obtain ⟨_, _, e⟩ := Res.bind_eq_ok.mp e
    obtain ⟨_, _, e⟩ := Res.bind_eq_ok.mp e
    obtain ⟨t, e1, e⟩ := Res.bind_eq_ok.mp e
    obtain ⟨_, _, e⟩ := Res.bind_eq_ok.mp e
    exact ih _ _ _ _ _ _ (ih _ _ _ _ _ _ h e1) e

theorem vresize_vec32 {l : List Nat} {n : Nat} (h : Vec32 l) (hn : n * 4 < 2 ^ 63) : Vec32 (Verif.Wavelet.vresize 0 l n) := by
  constructor
  · simp only [Mem, Verif.Wavelet.vresize, List.length_append, List.length_take, List.length_replicate]
    omega
  · intro x hx
    rw [Verif.Wavelet.vresize, List.mem_append] at hx
    rcases hx with hx | hx
    · exact h.2 x (List.mem_of_mem_take hx)
    · rw [List.eq_of_mem_replicate hx]; decide

theorem selSizes_fits (wm : Verif.Wavelet.WM) (old : List (List Nat)) (ho : ∀ t ∈ old, Vec32 t) : ∀ (c v : Nat) (r : List (List Nat)),
    Verif.Wavelet.selSizes wm old c v = .ok r → r.length = c ∧ ∀ t ∈ r, Vec32 t := by
  intro c
  induction c with
  | zero =>
    intro v r e
    rw [Verif.Wavelet.selSizes] at e
    injection e with e
    subst e
    simp
  | succ c ih =>
    intro v r e
    rw [Verif.Wavelet.selSizes] at e
    obtain ⟨n, _, e⟩ := Res.bind_eq_ok.mp e
    obtain ⟨o, e1, e⟩ := Res.bind_eq_ok.mp e
    obtain ⟨rest, e3, e⟩ := Res.bind_eq_ok.mp e
    injection e with e
    subst e
    have hm : o ∈ old := by
      simp only [at?] at e1
      split at e1
      · rename_i a ha
        injection e1 with e1
        subst e1
        exact List.mem_of_getElem? ha
      · simp at e1
    obtain ⟨i1, i2⟩ := ih _ _ e3
    refine ⟨by simp [i1], fun v hv => ?_⟩
    rcases List.mem_cons.mp hv with rfl | hv
    · apply vresize_vec32 (ho o hm)
      rw [getBlockNum]
      have := Nat.mod_lt (n + 256 - 1) (show 2 ^ 64 > 0 by decide)
      omega
    · exact i2 v hv

theorem setAt_mem {α : Type} {l r : List α} {i : Nat} {x : α} (e : Verif.BitVector.setAt? l i x = .ok r) :
    r.length = l.length ∧ ∀ y ∈ r, y ∈ l ∨ y = x := by
  rw [Verif.BitVector.setAt?] at e
  split at e
  · injection e with e
    subst e
    exact ⟨by simp, fun y hy => List.mem_or_eq_of_mem_set hy⟩
  · simp at e

theorem selStep_fits {s t : Verif.Wavelet.SelSt} {v pos : Nat} (h : ∀ t ∈ s.tbl, Vec32 t) (e : Verif.Wavelet.selStep s v pos = .ok t) :
    t.tbl.length = s.tbl.length ∧ ∀ u ∈ t.tbl, Vec32 u := by
  rw [Verif.Wavelet.selStep] at e
  obtain ⟨i, _, e⟩ := Res.bind_eq_ok.mp e
  obtain ⟨c, _, e⟩ := Res.bind_eq_ok.mp e
  obtain ⟨nt, _, e⟩ := Res.bind_eq_ok.mp e
  split at e
  · rw [Verif.Wavelet.selPut] at e
    obtain ⟨o, e1, e⟩ := Res.bind_eq_ok.mp e
    have hm : o ∈ s.tbl := by
      simp only [at?] at e1
      split at e1
      · rename_i a ha
        injection e1 with e1
        subst e1
        exact List.mem_of_getElem? ha
      · simp at e1
    split at e
    · obtain ⟨o2, e2, e⟩ := Res.bind_eq_ok.mp e
      obtain ⟨tb, e3, e⟩ := Res.bind_eq_ok.mp e
      obtain ⟨_, _, e⟩ := Res.bind_eq_ok.mp e
      injection e with e
      subst e
      obtain ⟨j1, j2⟩ := setAt_mem e3
      refine ⟨j1, fun u hu => ?_⟩
      rcases j2 u hu with hu | rfl
      · exact h u hu
      · exact setAt_vec32 (h o hm) (toSize_lt _) e2
    · injection e with e
      subst e
      exact ⟨rfl, h⟩
  · injection e with e
    subst e
    exact ⟨rfl, h⟩

theorem selLoop_fits : ∀ (l : List Nat) (pos : Nat) (s t : Verif.Wavelet.SelSt), (∀ t ∈ s.tbl, Vec32 t) →
    Verif.Wavelet.selLoop l pos s = .ok t → t.tbl.length = s.tbl.length ∧ ∀ u ∈ t.tbl, Vec32 u := by
  intro l
  induction l with
  | nil =>
    intro pos s t h e
    rw [Verif.Wavelet.selLoop] at e
    injection e with e
    subst e
    exact ⟨rfl, h⟩
  | cons v l ih =>
    intro pos s t h e
    rw [Verif.Wavelet.selLoop] at e
    obtain ⟨s1, e1, e⟩ := Res.bind_eq_ok.mp e
    obtain ⟨i1, i2⟩ := selStep_fits h e1
    obtain ⟨j1, j2⟩ := ih _ _ _ i2 e
    exact ⟨by omega, j2⟩

/-- What an object of the class satisfies before `init`: nothing yet built with select tables for other values. -/
theorem wm_init_fits {sel : Bool} {wm r : Verif.Wavelet.WM} {vec : List Nat} {n : Nat} (hv : ∀ v ∈ wm.svv, SVFits v)
    (h1 : Vec32 wm.fromTbl) (h2 : Vec32 wm.fromLtTbl) (h3 : ∀ t ∈ wm.selTbl, Vec32 t)
    (e : Verif.Wavelet.init sel wm vec n = .ok r) : WMFits sel r := by
  rw [Verif.Wavelet.init] at e
  split at e
  · simp at e
  rename_i hl
  split at e
  · simp at e
  rename_i hn
  obtain ⟨svv, e1, e⟩ := Res.bind_eq_ok.mp e
  obtain ⟨ft, e2, e⟩ := Res.bind_eq_ok.mp e
  obtain ⟨lt, e3, e⟩ := Res.bind_eq_ok.mp e
  have hp : 2 ^ n ≤ 2 ^ 16 := Nat.pow_le_pow_right (by decide) (by omega)
  obtain ⟨i1, i2⟩ := levels_fits _ _ _ (fun v hv' => by
    rw [Verif.Wavelet.vresize, List.mem_append] at hv'
    rcases hv' with hv' | hv'
    · exact hv v (List.mem_of_mem_take hv')
    · exact (List.eq_of_mem_replicate hv') ▸ empty_fits) _ _ _ _ _ e1
  have f1 := fromTbl_fits _ _ _ _ _ _ _ _ (vresize_vec32 h1 (by omega)) e2
  have f2 := fromLtTbl_fits _ _ _ _ _ _ _ _ _ (vresize_vec32 h2 (by omega)) e3
  have off : Vec32 ((List.range n).map fun i => Verif.Wavelet.toSize (Verif.Wavelet.countZero vec (n - 1 - i))) := by
    constructor
    · simp [Mem]; omega
    · intro x hx
      simp only [List.mem_map] at hx
      obtain ⟨i, _, rfl⟩ := hx
      exact toSize_lt _
  cases sel
  · simp only [Verif.Wavelet.initSel, Bool.false_eq_true, if_false] at e
    injection e with e
    subst e
    exact ⟨by simp only; omega, by simp only; omega, i1, by simp only [Mem, i1]; omega, i2, off, f1, f2, fun h => by simp at h⟩
  · rw [Verif.Wavelet.initSel, if_pos rfl] at e
    obtain ⟨t, e4, e⟩ := Res.bind_eq_ok.mp e
    injection e with e
    subst e
    rw [Verif.Wavelet.initSelTbl] at e4
    obtain ⟨tb, e5, e4⟩ := Res.bind_eq_ok.mp e4
    obtain ⟨st, e6, e4⟩ := Res.bind_eq_ok.mp e4
    injection e4 with e4
    subst e4
    obtain ⟨k1, k2⟩ := selSizes_fits _ _ (fun t ht => by
      rw [Verif.Wavelet.vresize, List.mem_append] at ht
      rcases ht with ht | ht
      · exact h3 t (List.mem_of_mem_take ht)
      · rw [List.eq_of_mem_replicate ht]; exact ⟨by simp [Mem], by simp⟩) _ _ _ e5
    obtain ⟨m1, m2⟩ := selLoop_fits _ _ _ _ k2 e6
    simp only [k1] at m1
    exact ⟨by simp only; omega, by simp only; omega, i1, by simp only [Mem, i1]; omega, i2, off, f1, f2,
      fun _ => ⟨m1, by simp only [Mem, m1]; omega, m2⟩⟩

/-! ## The FM-index -/

theorem rawCf_fits : ∀ (l : List Nat) (s : Nat), s < 2 ^ 32 →
    (Verif.FMindex.rawCf l s).length = l.length ∧ ∀ x ∈ Verif.FMindex.rawCf l s, x < 2 ^ 32
  | [], _, _ => by simp [Verif.FMindex.rawCf]
  | n :: l, s, h => by
    obtain ⟨h1, h2⟩ := rawCf_fits l ((s + n) % 2 ^ 32) (Nat.mod_lt _ (by decide))
    rw [Verif.FMindex.rawCf]
    refine ⟨by simp [h1], fun x hx => ?_⟩
    rcases List.mem_cons.mp hx with rfl | hx
    · exact h
    · exact h2 x hx

theorem rawLoop_len : ∀ (l t v u : List Nat), Verif.FMindex.rawLoop l t = .ok (v, u) → u.length = t.length
  | [], t, v, u, e => by
    rw [Verif.FMindex.rawLoop] at e
    injection e with e
    injection e with _ e
    rw [e]
  | c :: l, t, v, u, e => by
    rw [Verif.FMindex.rawLoop] at e
    split at e
    · simp at e
    · obtain ⟨n, _, e⟩ := Res.bind_eq_ok.mp e
      obtain ⟨t1, e1, e⟩ := Res.bind_eq_ok.mp e
      obtain ⟨⟨v1, u1⟩, e2, e⟩ := Res.bind_eq_ok.mp e
      injection e with e
      injection e with _ e
      subst e
      rw [rawLoop_len l t1 v1 u1 e2, (setAt_mem e1).1]

theorem cvtCf_fits (freq : Verif.FMindex.FreqView) : ∀ (c i s : Nat) (r : List Nat), s < 2 ^ 32 →
    Verif.FMindex.cvtCf freq c i s = .ok r → r.length = c ∧ ∀ x ∈ r, x < 2 ^ 32
  | 0, _, _, r, _, e => by
    rw [Verif.FMindex.cvtCf] at e
    injection e with e
    subst e
    simp
  | c + 1, i, s, r, h, e => by
    rw [Verif.FMindex.cvtCf] at e
    obtain ⟨_, _, e⟩ := Res.bind_eq_ok.mp e
    obtain ⟨n, _, e⟩ := Res.bind_eq_ok.mp e
    obtain ⟨cf, e1, e⟩ := Res.bind_eq_ok.mp e
    injection e with e
    subst e
    obtain ⟨h1, h2⟩ := cvtCf_fits freq c (i + 1) _ cf (Nat.mod_lt _ (by decide)) e1
    refine ⟨by simp [h1], fun x hx => ?_⟩
    rcases List.mem_cons.mp hx with rfl | hx
    · exact h
    · exact h2 x hx

theorem initCf_fits {raw : Bool} {tb : Nat} {freq : Verif.FMindex.FreqView} {text v cf : List Nat} {n : Nat} (htb : tb ≤ 32)
    (e : Verif.FMindex.initCf raw tb freq text = .ok (v, cf, n)) : Vec32 cf := by
  have hp : 2 ^ tb ≤ 2 ^ 32 := Nat.pow_le_pow_right (by decide) htb
  rw [Verif.FMindex.initCf] at e
  split at e
  · simp at e
  split at e
  · obtain ⟨⟨v1, t1⟩, e1, e⟩ := Res.bind_eq_ok.mp e
    injection e with e
    injection e with _ e
    injection e with e _
    subst e
    have := rawLoop_len _ _ _ _ e1
    obtain ⟨h1, h2⟩ := rawCf_fits t1 0 (by decide)
    refine ⟨?_, h2⟩
    simp only [List.length_set, List.length_replicate] at this
    simp only [Mem, h1, this]
    omega
  · simp only at e
    split at e
    · simp at e
    · rename_i hc
      obtain ⟨v1, _, e⟩ := Res.bind_eq_ok.mp e
      obtain ⟨c1, e1, e⟩ := Res.bind_eq_ok.mp e
      injection e with e
      injection e with _ e
      injection e with e _
      subst e
      obtain ⟨h1, h2⟩ := cvtCf_fits freq _ _ _ _ (by decide) e1
      refine ⟨by simp only [Mem, List.length_cons, h1]; omega, fun x hx => ?_⟩
      rcases List.mem_cons.mp hx with rfl | hx
      · decide
      · exact h2 x hx

theorem alignLoop_mem (k : Nat) : ∀ (sa : List Nat) (i : Nat) (bv : Verif.BitVector.BV 64) (out : List Nat)
    (r : Verif.BitVector.BV 64) (q : List Nat), Verif.FMindex.alignLoop k sa i bv out = .ok (r, q) →
    q.length ≤ out.length + sa.length ∧ ∀ x ∈ q, x ∈ out ∨ x ∈ sa
  | [], _, _, out, r, q, e => by
    rw [Verif.FMindex.alignLoop] at e
    injection e with e
    injection e with _ e
    subst e
    exact ⟨by omega, fun x hx => .inl hx⟩
  | j :: sa, i, bv, out, r, q, e => by
    rw [Verif.FMindex.alignLoop] at e
    split at e
    · obtain ⟨b1, _, e⟩ := Res.bind_eq_ok.mp e
      obtain ⟨h1, h2⟩ := alignLoop_mem k sa (i + 1) b1 (out ++ [j]) r q e
      simp only [List.length_append, List.length_cons, List.length_nil] at h1
      refine ⟨by simp only [List.length_cons]; omega, fun x hx => ?_⟩
      rcases h2 x hx with h | h
      · rcases List.mem_append.mp h with h | h
        · exact .inl h
        · exact .inr (by rw [List.mem_singleton] at h; simp [h])
      · exact .inr (by simp [h])
    · obtain ⟨h1, h2⟩ := alignLoop_mem k sa (i + 1) bv out r q e
      refine ⟨by simp only [List.length_cons]; omega, fun x hx => ?_⟩
      rcases h2 x hx with h | h
      · exact .inl h
      · exact .inr (by simp [h])

/-- An index built from a new object fits the types; `sa` is the array the suffix sorter filled. -/
theorem fm_init_fits {raw : Bool} {tb : Nat} {f0 freq : Verif.FMindex.FreqView} {sais : List Nat → Int × List Nat}
    {text : List Nat} {skip : Int} {r : Verif.FMindex.FM} (htb : tb ≤ 32) (hskip : skip < 2 ^ 31)
    (hs1 : ∀ v, ((sais v).2).length < 2 ^ 60) (hs2 : ∀ v, ∀ x ∈ (sais v).2, x < 2 ^ 32)
    (e : Verif.FMindex.init raw tb (Verif.FMindex.empty f0) freq sais text skip = .ok r) : FMFits r ∧ r.freq = freq := by
  rw [Verif.FMindex.init] at e
  split at e
  · simp at e
  rename_i h0
  obtain ⟨⟨v, cf, n⟩, e1, e⟩ := Res.bind_eq_ok.mp e
  simp only at e
  split at e
  · simp at e
  obtain ⟨bwt, _, e⟩ := Res.bind_eq_ok.mp e
  obtain ⟨wm, e2, e⟩ := Res.bind_eq_ok.mp e
  obtain ⟨bv, _, e⟩ := Res.bind_eq_ok.mp e
  obtain ⟨⟨bv2, al⟩, e3, e⟩ := Res.bind_eq_ok.mp e
  obtain ⟨ap, e4, e⟩ := Res.bind_eq_ok.mp e
  injection e with e
  subst e
  have hem : Vec32 [] := ⟨by simp [Mem], by simp⟩
  obtain ⟨a1, a2⟩ := alignLoop_mem _ _ _ _ _ _ _ e3
  have := hs1 v
  refine ⟨⟨⟨by simp only; omega, hskip⟩, initCf_fits htb e1, ?_, ⟨?_, fun x hx => ?_⟩, init_fits empty_fits e4⟩, rfl⟩
  · exact wm_init_fits (by simp [Verif.FMindex.empty, Verif.Wavelet.empty]) hem hem
      (by simp [Verif.FMindex.empty, Verif.Wavelet.empty]) e2
  · simp only [Verif.FMindex.empty, List.length_nil] at a1
    simp only [Mem]
    omega
  · rcases a2 x hx with h | h
    · simp [Verif.FMindex.empty] at h
    · exact hs2 v x h

/-! ## The frequency tables -/

theorem appendAll_fits : ∀ (l : List Nat) (st r : FV), st.freqTbl.length = 256 → (∀ v ∈ st.freqTbl, v < 2 ^ 32) →
    FV.appendAll 32 l st = .ok r →
    r.freqTbl.length = 256 ∧ (∀ v ∈ r.freqTbl, v < 2 ^ 32) ∧ r.char2idx = st.char2idx
  | [], st, r, h1, h2, e => by
    rw [FV.appendAll] at e
    injection e with e
    subst e
    exact ⟨h1, h2, rfl⟩
  | c :: l, st, r, h1, h2, e => by
    rw [FV.appendAll, FV.append] at e
    obtain ⟨s1, e1, e⟩ := Res.bind_eq_ok.mp e
    obtain ⟨n, _, e1⟩ := Res.bind_eq_ok.mp e1
    obtain ⟨t, e2, e1⟩ := Res.bind_eq_ok.mp e1
    injection e1 with e1
    subst e1
    obtain ⟨j1, j2⟩ := setAt_mem e2
    obtain ⟨k1, k2, k3⟩ := appendAll_fits l _ r (by simp only; omega) (fun v hv => by
      rcases j2 v hv with h | h
      · exact h2 v h
      · rw [h]; exact Nat.mod_lt _ (by decide)) e
    exact ⟨k1, k2, k3⟩

theorem readyLoop_fits (tbl : List Nat) : ∀ (cs : List Nat) (i size : Nat) (c2i : List Nat) (r : Nat × List Nat), c2i.length = 256 →
    (∀ v ∈ c2i, v < 256) → FV.readyLoop tbl cs i size c2i = .ok r →
    r.1 ≤ size + cs.length ∧ r.2.length = 256 ∧ ∀ v ∈ r.2, v < 256
  | [], i, size, c2i, r, h1, h2, e => by
    rw [FV.readyLoop] at e
    injection e with e
    subst e
    exact ⟨by simp, h1, h2⟩
  | c :: cs, i, size, c2i, r, h1, h2, e => by
    rw [FV.readyLoop] at e
    obtain ⟨t, e1, e⟩ := Res.bind_eq_ok.mp e
    obtain ⟨f, _, e⟩ := Res.bind_eq_ok.mp e
    obtain ⟨j1, j2⟩ := setAt_mem e1
    obtain ⟨k1, k2⟩ := readyLoop_fits tbl cs _ _ _ r (by omega) (fun v hv => by
      rcases j2 v hv with h | h
      · exact h2 v h
      · rw [h]; exact Nat.mod_lt _ (by decide)) e
    refine ⟨?_, k2⟩
    simp only [List.length_cons]
    split at k1 <;> omega

theorem fv_init_fits {a b l order : List Nat} {freq : Nat → Nat} {st : FV} (ha : a.length = 256) (hv : ∀ v ∈ a, v < 256)
    (ho : Verif.Frequency.SortOutcome freq (List.range 256) order)
    (e : FV.init 32 (FV.clear a b) l order = .ok st) : FVFits st := by
  rw [FV.init] at e
  obtain ⟨s1, e1, e⟩ := Res.bind_eq_ok.mp e
  obtain ⟨k1, k2, k3⟩ := appendAll_fits l _ s1 (by simp [FV.clear]) (by
    intro v hv
    rw [FV.clear] at hv
    rw [List.eq_of_mem_replicate hv]; decide) e1
  rw [FV.ready] at e
  obtain ⟨⟨size, c2i⟩, e2, e⟩ := Res.bind_eq_ok.mp e
  injection e with e
  subst e
  obtain ⟨m1, m2, m3⟩ := readyLoop_fits _ _ _ _ _ _ (by rw [k3]; exact ha) (by rw [k3]; exact hv) e2
  have hl := ho.perm.length_eq
  rw [List.length_range] at hl
  exact ⟨by simp only at m1 ⊢; omega, k1, k2, m2, m3, hl, fun v hv => List.mem_range.mp ((ho.perm.mem_iff).mp hv)⟩

theorem bump_fits {B : Nat} (e : Nat) : ∀ (m : List Ent), e < B →
    (∀ x ∈ m, x.key < B ∧ x.freq < 2 ^ 32 ∧ x.idx < 2 ^ 32) →
    ∀ x ∈ Verif.Frequency.bump 32 e m, x.key < B ∧ x.freq < 2 ^ 32 ∧ x.idx < 2 ^ 32
  | [], he, _ => by simp [Verif.Frequency.bump]; omega
  | y :: m, he, h => by
    intro x hx
    have hy := h y (by simp)
    rw [Verif.Frequency.bump] at hx
    split at hx
    · rcases List.mem_cons.mp hx with rfl | hx
      · exact ⟨hy.1, Nat.mod_lt _ (by decide), hy.2.2⟩
      · exact h x (by simp [hx])
    · rcases List.mem_cons.mp hx with rfl | hx
      · exact hy
      · exact bump_fits e m he (fun z hz => h z (by simp [hz])) x hx

theorem setIdx_fits {B : Nat} (e i : Nat) (hi : i < 2 ^ 32) : ∀ (m : List Ent),
    (∀ x ∈ m, x.key < B ∧ x.freq < 2 ^ 32 ∧ x.idx < 2 ^ 32) →
    ∀ x ∈ Verif.Frequency.setIdx e i m, x.key < B ∧ x.freq < 2 ^ 32 ∧ x.idx < 2 ^ 32
  | [], _ => by simp [Verif.Frequency.setIdx]
  | y :: m, h => by
    intro x hx
    have hy := h y (by simp)
    rw [Verif.Frequency.setIdx] at hx
    split at hx
    · rcases List.mem_cons.mp hx with rfl | hx
      · exact ⟨hy.1, hy.2.1, hi⟩
      · exact h x (by simp [hx])
    · rcases List.mem_cons.mp hx with rfl | hx
      · exact hy
      · exact setIdx_fits e i hi m (fun z hz => h z (by simp [hz])) x hx

theorem setIdx_keys (e i : Nat) : ∀ (m : List Ent), (Verif.Frequency.setIdx e i m).map Ent.key = m.map Ent.key ∧
    ∀ k, Verif.Frequency.freqOf (Verif.Frequency.setIdx e i m) k = Verif.Frequency.freqOf m k := by
  intro m
  constructor
  · induction m with
    | nil => rfl
    | cons y m ih =>
      rw [Verif.Frequency.setIdx]
      split
      · simp
      · simp [ih]
  · intro k
    rw [Verif.Frequency.freqOf, Verif.Frequency.freqOf, Verif.Frequency.find_setIdx]
    by_cases hk : k = e
    · rw [if_pos hk]
      cases Verif.Frequency.find m k <;> rfl
    · rw [if_neg hk]

theorem readyG_keys {B : Nat} : ∀ (es : List Nat) (i : Nat) (m : List Ent),
    (FG.readyLoop 32 es i m).map Ent.key = m.map Ent.key ∧
    (∀ k, Verif.Frequency.freqOf (FG.readyLoop 32 es i m) k = Verif.Frequency.freqOf m k) ∧
    ((∀ x ∈ m, x.key < B ∧ x.freq < 2 ^ 32 ∧ x.idx < 2 ^ 32) →
      ∀ x ∈ FG.readyLoop 32 es i m, x.key < B ∧ x.freq < 2 ^ 32 ∧ x.idx < 2 ^ 32)
  | [], _, _ => by simp [FG.readyLoop]
  | e :: es, i, m => by
    obtain ⟨h1, h2, h3⟩ := readyG_keys es (i + 1) (Verif.Frequency.setIdx e (i % 2 ^ 32) m)
    obtain ⟨g1, g2⟩ := setIdx_keys e (i % 2 ^ 32) m
    rw [FG.readyLoop]
    exact ⟨h1.trans g1, fun k => (h2 k).trans (g2 k),
      fun h => h3 (setIdx_fits e _ (Nat.mod_lt _ (by decide)) m h)⟩

theorem sortG_congr {m m' : List Ent} {order : List Nat} (hk : m'.map Ent.key = m.map Ent.key)
    (hf : ∀ k, Verif.Frequency.freqOf m' k = Verif.Frequency.freqOf m k) (h : Verif.Frequency.SortOutcomeG m order) :
    Verif.Frequency.SortOutcomeG m' order := by
  refine ⟨hk ▸ h.perm, h.sorted.imp fun hab => ?_⟩
  simpa only [Verif.Frequency.greater, hf] using hab

/-- The comparison leaves `std::sort` no choice. -/
theorem sortG_unique {m : List Ent} {o1 o2 : List Nat} (h1 : Verif.Frequency.SortOutcomeG m o1)
    (h2 : Verif.Frequency.SortOutcomeG m o2) : o1 = o2 := by
  refine List.Perm.eq_of_pairwise (le := fun a b => ¬ Verif.Frequency.greater m b a) ?_ h1.sorted h2.sorted
    (h1.perm.trans h2.perm.symm)
  intro a b _ _ hab hba
  simp only [Verif.Frequency.greater, not_or, not_and] at hab hba
  omega

/-- The map of a table built by `init` from elements below `B`. -/
theorem fg_init_ents {B : Nat} (hB : B < 2 ^ 64) {l order : List Nat} (hl : ∀ e ∈ l, e < B)
    (ho : Verif.Frequency.SortOutcomeG (FG.clear.appendAll 32 l).m order) :
    ((FG.init 32 .clear l order).m.length < 2 ^ 64 ∧
      (∀ x ∈ (FG.init 32 .clear l order).m, x.key < B ∧ x.freq < 2 ^ 32 ∧ x.idx < 2 ^ 32) ∧
      ((FG.init 32 .clear l order).m.map Ent.key).Nodup) ∧
      Verif.Frequency.SortOutcomeG (FG.init 32 .clear l order).m (FG.init 32 .clear l order).idx2ref := by
  have hc := Verif.Frequency.appendAllG_counts (iw := 32) l [] FG.clear ⟨by simp [FG.clear, Verif.Frequency.freqOf, Verif.Frequency.find],
    by simp [FG.clear], by simp [FG.clear]⟩
  have hb : ∀ (l : List Nat) (st : FG), (∀ e ∈ l, e < B) → (∀ x ∈ st.m, x.key < B ∧ x.freq < 2 ^ 32 ∧ x.idx < 2 ^ 32) →
      ∀ x ∈ (st.appendAll 32 l).m, x.key < B ∧ x.freq < 2 ^ 32 ∧ x.idx < 2 ^ 32 := by
    intro l
    induction l with
    | nil => intro st _ h; exact h
    | cons e l ih =>
      intro st hl h
      exact ih (st.append 32 e) (fun x hx => hl x (by simp [hx])) (bump_fits e st.m (hl e (by simp)) h)
  obtain ⟨k1, k2, k3⟩ := readyG_keys (B := B) order 0 (FG.clear.appendAll 32 l).m
  have hn : ((FG.init 32 .clear l order).m.map Ent.key).Nodup := by
    rw [FG.init, FG.ready]; simp only; rw [k1]; exact hc.nodup
  have hents : ∀ x ∈ (FG.init 32 .clear l order).m, x.key < B ∧ x.freq < 2 ^ 32 ∧ x.idx < 2 ^ 32 :=
    k3 (hb l .clear hl (by simp [FG.clear]))
  refine ⟨⟨?_, hents, hn⟩, sortG_congr k1 k2 ho⟩
  have : ((FG.init 32 .clear l order).m.map Ent.key).length ≤ B := by
    have hs : (FG.init 32 .clear l order).m.map Ent.key ⊆ List.range B := by
      intro k hk
      simp only [List.mem_map] at hk
      obtain ⟨x, hx, rfl⟩ := hk
      exact List.mem_range.mpr (hents x hx).1
    have := (List.subperm_of_subset hn hs).length_le
    simpa using this
  simp only [List.length_map] at this
  omega

theorem fg_init_fits {l order : List Nat} (hl : ∀ e ∈ l, e < 2 ^ 16)
    (ho : Verif.Frequency.SortOutcomeG (FG.clear.appendAll 32 l).m order) :
    FGFits (FG.init 32 .clear l order) ∧
      Verif.Frequency.SortOutcomeG (FG.init 32 .clear l order).m (FG.init 32 .clear l order).idx2ref := by
  obtain ⟨⟨h1, h2, h3⟩, h4⟩ := fg_init_ents (B := 2 ^ 16) (by decide) hl ho
  exact ⟨⟨h1, h2, h3⟩, h4⟩

end Verif.IndexIO
