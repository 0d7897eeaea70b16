import Verif.Proof.WaveletDirect
import Verif.Props.IndexIO
set_option linter.unusedSimpArgs false

/-!
# C127: the wavelet matrix built in place

`init` is the default construction, `initD` the one compiled with `CYBOZU_WAVELET_MATRIX_DIRECT_CONSTRUCT`.
`ws` is `withSelect`, `B` is `valBitLen`.
-/
namespace Verif.Props.WaveletDirect
open Verif.Wavelet Verif.Spec.Wavelet

theorem zeros_lt {l : List Nat} (hn : l.length < 2 ^ 32) (j : Nat) : zeros j l < 2 ^ 32 := by
  have := zeros_ones j l; omega

theorem finish {B : Nat} {l : List Nat} (hn : l.length < 2 ^ 32) (hl : ∀ x ∈ l, x < 2 ^ B) (ws : Bool) {wm1 : WM}
    (h1 : Built B l wm1) (hre1 : Reusable wm1) :
    ∃ wm', initSel ws wm1 l = .ok wm' ∧ Built B l wm' ∧ Reusable wm' ∧
      (ws = true → ∀ v, v < 2 ^ B → ∃ t, wm'.selTbl[v]? = some t ∧ SelOK l v t) := by
  cases ws
  · exact ⟨wm1, rfl, h1, hre1, by simp⟩
  · obtain ⟨ts, e1, e2, e3⟩ := initSelTbl_spec h1 hn hl hre1
    refine ⟨{ wm1 with selTbl := ts }, by simp [initSel, e1], ?_, ?_, fun _ => e3⟩
    · exact ⟨h1.maxVal, h1.bits, h1.size, h1.holds, h1.frm, h1.lt, h1.frm_len, h1.lt_len⟩
    · intro t ht
      obtain ⟨v, hv, rfl⟩ := List.getElem_of_mem ht
      have hv' : v < ts.length := hv
      obtain ⟨t, g1, g2⟩ := e3 v (by omega)
      have hg : ts[v] = t := by
        rw [List.getElem?_eq_getElem hv'] at g1; exact Option.some.inj g1
      show (ts[v]).getD 0 0 = 0
      rw [hg]; exact g2.head

theorem initD_built (ws : Bool) (wm : WM) (hre : Reusable wm) (l : List Nat) (B : Nat) (hB : B ≤ 16)
    (hn : l.length < 2 ^ 32) (hl : ∀ x ∈ l, x < 2 ^ B) :
    ∃ wm', initD ws wm l B = .ok wm' ∧ Built B l wm' ∧ Reusable wm' ∧
      (ws = true → ∀ v, v < 2 ^ B → ∃ t, wm'.selTbl[v]? = some t ∧ SelOK l v t) := by
  obtain ⟨wm1, h1, h2, h3⟩ := built_of_initD hB l (by omega) (fun j _ => zeros_lt hn j) ws wm
  rw [h3]
  exact finish hn hl ws h1 (by rw [Reusable, h2]; exact hre)

theorem init_built (ws : Bool) (wm : WM) (hre : Reusable wm) (l : List Nat) (B : Nat) (hB : B ≤ 16)
    (hn : l.length < 2 ^ 32) (hl : ∀ x ∈ l, x < 2 ^ B) :
    ∃ wm', init ws wm l B = .ok wm' ∧ Built B l wm' ∧ Reusable wm' ∧
      (ws = true → ∀ v, v < 2 ^ B → ∃ t, wm'.selTbl[v]? = some t ∧ SelOK l v t) := by
  obtain ⟨wm1, h1, h2, h3⟩ := built_of_init hB l (by omega) (fun j _ => zeros_lt hn j) ws wm
  rw [h3]
  exact finish hn hl ws h1 (by rw [Reusable, h2]; exact hre)

/-- C127.  The matrix built in place, on a new or an already used object, holds the sequence: `get` returns
the elements, `rank` and `size(val)` count, `get(&val, pos)` returns both, reading behind the end throws. -/
theorem C127_get_rank (ws : Bool) (wm : WM) (hre : Reusable wm) (l : List Nat) (B : Nat) (hB : B ≤ 16)
    (hn : l.length < 2 ^ 32) (hl : ∀ x ∈ l, x < 2 ^ B) :
    ∃ wm', initD ws wm l B = .ok wm' ∧ Reusable wm' ∧ wm'.size = l.length ∧
      (0 < B → ∀ p (hp : p < l.length), get wm' p = .ok l[p]) ∧
      (∀ p (hp : p < l.length), get2 wm' p = .ok (l[p], countOf l l[p] p)) ∧
      (0 < B → ∀ p, l.length ≤ p → get wm' p = .throw ∧ get2 wm' p = .throw) ∧
      (∀ v, v < 2 ^ B → ∀ p, rank wm' v p = .ok (countOf l v p)) ∧
      (∀ v, v < 2 ^ B → sizeVal wm' v = .ok (l.count v)) := by
  obtain ⟨wm', e1, e2, e3, _⟩ := initD_built ws wm hre l B hB hn hl
  refine ⟨wm', e1, e3, e2.size, fun h0 p hp => e2.get (by omega) h0 hB hl hp,
    fun p hp => e2.get2 hn hB hl hp, fun h0 p hp => e2.get_ge h0 hp, fun v hv p => e2.rank hn hl hv p,
    fun v hv => ?_⟩
  rw [sizeVal, e2.rank hn hl hv, e2.size, countOf_ge (Nat.le_refl _)]

/-- C127.  `select` finds every occurrence and answers `NotFound` exactly if there is none. -/
theorem C127_select (wm : WM) (hre : Reusable wm) (l : List Nat) (B : Nat) (hB : B ≤ 16)
    (hn : l.length < 2 ^ 32) (hl : ∀ x ∈ l, x < 2 ^ B) :
    ∃ wm', initD true wm l B = .ok wm' ∧ ∀ v, v < 2 ^ B → ∀ r, r < 2 ^ 64 →
      (r < l.count v → ∃ p, select true wm' v r = .ok p ∧ IsNth l v r p) ∧
      (l.count v ≤ r → select true wm' v r = .ok SucVector.NotFound) := by
  obtain ⟨wm', e1, e2, _, e4⟩ := initD_built true wm hre l B hB hn hl
  refine ⟨wm', e1, fun v hv r hr => ?_⟩
  obtain ⟨t, t1, t2⟩ := e4 rfl v hv
  exact select_spec e2 hn hl hv t1 t2 hr

theorem nth_unique {l : List Nat} {v r p q : Nat} (hp : IsNth l v r p) (hq : IsNth l v r q) : p = q := by
  have key : ∀ {p q : Nat}, IsNth l v r p → IsNth l v r q → ¬ p < q := by
    intro p q hp hq hlt
    obtain ⟨h1, h2⟩ := List.getElem?_eq_some_iff.mp hp.1
    have a := countOf_succ (v := v) h1
    rw [if_pos h2, hp.2] at a
    have b := countOf_mono l v (show p + 1 ≤ q by omega)
    rw [hq.2] at b
    omega
  have := key hp hq
  have := key hq hp
  omega

/-- C127.  A program cannot tell the two constructions apart: whatever the objects held before, every query
gives the same answer, including the `rankLt` of sequences for which it is wrong (C14). -/
theorem C127_same (ws : Bool) (wa wb : WM) (ha : Reusable wa) (hb : Reusable wb) (l : List Nat) (B : Nat)
    (hB : B ≤ 16) (hn : l.length < 2 ^ 32) (hl : ∀ x ∈ l, x < 2 ^ B) :
    ∃ a b, init ws wa l B = .ok a ∧ initD ws wb l B = .ok b ∧ a.size = b.size ∧ a.valBitLen = b.valBitLen ∧
      (0 < B → ∀ p, get a p = get b p ∧ get2 a p = get2 b p) ∧
      (∀ v, v < 2 ^ B → ∀ p, rank a v p = rank b v p ∧ rankLt a v p = rankLt b v p) ∧
      (∀ v, v < 2 ^ B → sizeVal a v = sizeVal b v) ∧
      (∀ v, v < 2 ^ B → ∀ r, r < 2 ^ 64 → select ws a v r = select ws b v r) := by
  obtain ⟨a, a1, a2, _, a4⟩ := init_built ws wa ha l B hB hn hl
  obtain ⟨b, b1, b2, _, b4⟩ := initD_built ws wb hb l B hB hn hl
  refine ⟨a, b, a1, b1, by rw [a2.size, b2.size], by rw [a2.bits, b2.bits], fun h0 p => ?_, fun v hv p => ?_,
    fun v hv => ?_, fun v hv r hr => ?_⟩
  · by_cases hp : p < l.length
    · rw [a2.get (by omega) h0 hB hl hp, b2.get (by omega) h0 hB hl hp, a2.get2 hn hB hl hp, b2.get2 hn hB hl hp]
      exact ⟨rfl, rfl⟩
    · obtain ⟨x1, x2⟩ := a2.get_ge h0 (p := p) (by omega)
      obtain ⟨y1, y2⟩ := b2.get_ge h0 (p := p) (by omega)
      rw [x1, x2, y1, y2]; exact ⟨rfl, rfl⟩
  · rw [a2.rank hn hl hv, b2.rank hn hl hv, a2.rankLt_gen hn hB hl hv, b2.rankLt_gen hn hB hl hv]
    exact ⟨rfl, rfl⟩
  · rw [sizeVal, sizeVal, a2.rank hn hl hv, b2.rank hn hl hv, a2.size, b2.size]
  · cases ws
    · simp [select]
    · obtain ⟨s, s1, s2⟩ := a4 rfl v hv
      obtain ⟨t, t1, t2⟩ := b4 rfl v hv
      obtain ⟨x1, x2⟩ := select_spec a2 hn hl hv s1 s2 hr
      obtain ⟨y1, y2⟩ := select_spec b2 hn hl hv t1 t2 hr
      by_cases hc : r < l.count v
      · obtain ⟨p, p1, p2⟩ := x1 hc
        obtain ⟨q, q1, q2⟩ := y1 hc
        rw [p1, q1, nth_unique p2 q2]
      · rw [x2 (by omega), y2 (by omega)]

/-- C127.  The same inputs are refused. -/
theorem C127_throws (ws : Bool) (wa wb : WM) (l : List Nat) (B : Nat) (h : 2 ^ 32 < l.length ∨ 16 < B) :
    init ws wa l B = .throw ∧ initD ws wb l B = .throw := by
  rw [init, initD]
  by_cases h1 : l.length > 2 ^ 32
  · rw [if_pos h1, if_pos h1]; exact ⟨rfl, rfl⟩
  · rw [if_neg h1, if_pos (by omega), if_neg h1, if_pos (by omega)]; exact ⟨rfl, rfl⟩

/-! ## Files -/

open Verif.SucVector (SV Block)
open Verif.IndexIO Verif.Spec.IndexIO Verif.Stream Verif.Serializer

theorem set_fits {s r : SV} {i : Nat} (h : SVFits s) (e : SucVector.set s i = .ok r) :
    SVFits r ∧ r.blk.length = s.blk.length := by
  rw [SucVector.set] at e
  split at e
  · simp at e
  split at e
  · simp at e
  dsimp only at e
  obtain ⟨x, e1, e⟩ := Res.bind_eq_ok.mp e
  obtain ⟨v, e2, e⟩ := Res.bind_eq_ok.mp e
  injection e with e
  subst e
  have hx : x ∈ s.blk := by
    simp only [at?] at e1
    split at e1
    · rename_i a ha
      injection e1 with e1
      subst e1
      exact List.mem_of_getElem? ha
    · simp at e1
  refine ⟨⟨h.bitSize, h.num0, h.num1, by simpa [Mem] using h.mem, ?_, h.sel0, h.sel1⟩, by simp⟩
  intro b hb
  rcases List.mem_or_eq_of_mem_set hb with hb | rfl
  · exact h.blk b hb
  · have := h.blk x hx
    exact ⟨by simpa using this.org, this.a, this.b0, this.b1, this.b2, this.b3⟩

theorem levelLoopD_fits (last : Bool) (k : Nat) (xs : List Nat) : ∀ (j : Nat) (s r : LoopStD), SVFits s.sv →
    levelLoopD last k xs j s = .ok r → SVFits r.sv ∧ r.sv.blk.length = s.sv.blk.length := by
  induction xs with
  | nil =>
    intro j s r h e
    rw [levelLoopD] at e
    cases e
    exact ⟨h, rfl⟩
  | cons x xs ih =>
    intro j s r h e
    rw [levelLoopD] at e
    obtain ⟨sv, e1, e⟩ := Res.bind_eq_ok.mp e
    obtain ⟨t, e2, e⟩ := Res.bind_eq_ok.mp e
    have h1 : SVFits sv ∧ sv.blk.length = s.sv.blk.length := by
      rw [setIfD] at e1
      split at e1
      · exact set_fits h e1
      · cases e1; exact ⟨h, rfl⟩
    have h2 : t.sv = sv := by
      rw [placeD] at e2
      split at e2
      · cases e2; rfl
      · split at e2
        · obtain ⟨_, _, e2⟩ := Res.bind_eq_ok.mp e2
          cases e2; rfl
        · obtain ⟨_, _, e2⟩ := Res.bind_eq_ok.mp e2
          cases e2; rfl
    obtain ⟨g1, g2⟩ := ih _ _ _ (by rw [h2]; exact h1.1) e
    exact ⟨g1, by rw [g2, h2, h1.2]⟩

theorem levelsD_fits (size : Nat) (off : List Nat) (old : List SV) (ho : ∀ v ∈ old, SVFits v) :
    ∀ (k i : Nat) (cur next : List Nat) (r : List SV), levelsD size off old k i cur next = .ok r →
    r.length = k ∧ ∀ v ∈ r, SVFits v := by
  intro k
  induction k with
  | zero =>
    intro i cur next r e
    rw [levelsD] at e
    injection e with e
    subst e
    simp
  | succ k ih =>
    intro i cur next r e
    rw [levelsD] at e
    obtain ⟨o, e1, e⟩ := Res.bind_eq_ok.mp e
    obtain ⟨⟨s0, n0⟩, e4, e⟩ := Res.bind_eq_ok.mp e
    obtain ⟨_, _, e⟩ := Res.bind_eq_ok.mp e
    obtain ⟨s, e5, e⟩ := Res.bind_eq_ok.mp e
    obtain ⟨sv, e2, e⟩ := Res.bind_eq_ok.mp e
    obtain ⟨rest, e3, e⟩ := Res.bind_eq_ok.mp e
    injection e with e
    subst e
    have hm : o ∈ old := by
      simp only [at?] at e1
      split at e1
      · rename_i a ha
        injection e1 with e1
        subst e1
        exact List.mem_of_getElem? ha
      · simp at e1
    obtain ⟨f1, f2⟩ := resize_fits (ho o hm) e4
    obtain ⟨g1, g2⟩ := levelLoopD_fits _ _ _ _ _ _ f1 e5
    obtain ⟨i1, i2⟩ := ih _ _ _ _ e3
    refine ⟨by simp [i1], fun v hv => ?_⟩
    rcases List.mem_cons.mp hv with rfl | hv
    · exact initBlock_fits g1 (by rw [g2]; exact f2) e2
    · exact i2 v hv

theorem initD_fits {sel : Bool} {r : WM} {vec : List Nat} {n : Nat} (e : initD sel empty vec n = .ok r) :
    WMFits sel r := by
  rw [initD] at e
  split at e
  · simp at e
  rename_i hl
  split at e
  · simp at e
  rename_i hn
  obtain ⟨svv, e1, e⟩ := Res.bind_eq_ok.mp e
  obtain ⟨ft, e2, e⟩ := Res.bind_eq_ok.mp e
  obtain ⟨lt, e3, e⟩ := Res.bind_eq_ok.mp e
  have hp : 2 ^ n ≤ 2 ^ 16 := Nat.pow_le_pow_right (by decide) (by omega)
  obtain ⟨i1, i2⟩ := levelsD_fits _ _ _ (fun v hv' => by
    rw [vresize, List.mem_append] at hv'
    rcases hv' with hv' | hv'
    · simp [empty] at hv'
    · exact (List.eq_of_mem_replicate hv') ▸ empty_fits) _ _ _ _ _ e1
  have v0 : Vec32 ([] : List Nat) := ⟨by simp [Mem], by simp⟩
  have f1 := fromTbl_fits _ _ _ _ _ _ _ _ (vresize_vec32 v0 (by omega)) e2
  have f2 := fromLtTbl_fits _ _ _ _ _ _ _ _ _ (vresize_vec32 v0 (by omega)) e3
  have off : Vec32 ((List.range n).map fun i => toSize (countZero vec (n - 1 - i))) := by
    constructor
    · simp [Mem]; omega
    · intro x hx
      simp only [List.mem_map] at hx
      obtain ⟨i, _, rfl⟩ := hx
      exact toSize_lt _
  cases sel
  · simp only [initSel, Bool.false_eq_true, if_false] at e
    injection e with e
    subst e
    exact ⟨by simp only; omega, by simp only; omega, i1, by simp only [Mem, i1]; omega, i2, off, f1, f2, fun h => by simp at h⟩
  · rw [initSel, if_pos rfl] at e
    obtain ⟨t, e4, e⟩ := Res.bind_eq_ok.mp e
    injection e with e
    subst e
    rw [initSelTbl] at e4
    obtain ⟨tb, e5, e4⟩ := Res.bind_eq_ok.mp e4
    obtain ⟨st, e6, e4⟩ := Res.bind_eq_ok.mp e4
    injection e4 with e4
    subst e4
    obtain ⟨k1, k2⟩ := selSizes_fits _ _ (fun t ht => by
      rw [vresize, List.mem_append] at ht
      rcases ht with ht | ht
      · simp [empty] at ht
      · rw [List.eq_of_mem_replicate ht]; exact ⟨by simp [Mem], by simp⟩) _ _ _ e5
    obtain ⟨m1, m2⟩ := selLoop_fits _ _ _ _ k2 e6
    simp only [k1] at m1
    exact ⟨by simp only; omega, by simp only; omega, i1, by simp only [Mem, i1]; omega, i2, off, f1, f2,
      fun _ => ⟨m1, by simp only [Mem, m1]; omega, m2⟩⟩

/-- C127.  A matrix built in place can be saved, and any program - `load` does not depend on the macro - loads
it into an object that answers every query as the saved one. -/
theorem C127_saved (sel : Bool) (old x : WM) (vec : List Nat) (n : Nat) (h : initD sel empty vec n = .ok x) :
    ∃ b, saveWM sel x = .ok b ∧ Reads (loadWM sel old) b fun r => SameWM sel r x :=
  Verif.Props.IndexIO.C60_wavelet sel old x (initD_fits h)

/-- C127 (finding).  The two files of the same sequence are not the same bytes: `ready()` counts the zeros of
the whole last block, `init` those of the last word. -/
theorem C127_finding_files_differ :
    (do let a ← init false empty [1, 0, 1] 1
        let b ← initD false empty [1, 0, 1] 1
        return (a.svv.map SV.num0, b.svv.map SV.num0)) = .ok ([62], [254]) := by decide +kernel

/-! Non-trivial cases: an object built in place, built again by the other construction and the other way round. -/

example : Reusable empty := by intro t ht; simp [empty] at ht

example : (do
    let wm ← init true empty [1, 1, 1, 0] 1
    let wm ← initD true wm [5, 3, 7, 3, 0, 3, 6] 3
    return (← get wm 2, ← get2 wm 3, ← rank wm 3 6, ← rankLt wm 5 100, ← select true wm 3 2,
      ← select true wm 3 3)) = .ok (7, (3, 1), 3, 4, 5, SucVector.NotFound) := by decide +kernel

#print axioms C127_get_rank
#print axioms C127_select
#print axioms C127_same
#print axioms C127_throws
#print axioms C127_saved
#print axioms C127_finding_files_differ

end Verif.Props.WaveletDirect
