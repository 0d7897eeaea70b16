import Verif.Spec.Numeral
import Verif.Model.WmBench
import Verif.Props.Wavelet
import Verif.Props.Bench

set_option linter.unusedSimpArgs false

/-! # C120: the wavelet matrix benchmark -/
namespace Verif.Props.WmBench
open Verif.WmBench
open Verif.Random (Xs)
open Verif.Bench (Env)
open Verif.Spec.Wavelet

/-- The bytes as numbers. -/
def nums (v : List UInt8) : List Nat := v.map (·.toNat)

theorem nums_len (v : List UInt8) : (nums v).length = v.length := by simp [nums]

theorem nums_lt (v : List UInt8) : ∀ x ∈ nums v, x < 2 ^ 8 := by
  intro x hx
  obtain ⟨y, _, rfl⟩ := List.mem_map.mp hx
  exact y.toNat_lt

theorem take_succ_nums (v : List UInt8) (i : Nat) (h : i < v.length) :
    (nums v).take (i + 1) = (nums v).take i ++ [v[i].toNat] := by
  have h' : i < (nums v).length := by rw [nums_len]; exact h
  rw [List.take_succ_eq_append_getElem h']
  simp [nums]

theorem countOf_step (v : List UInt8) (val i : Nat) (h : i < v.length) :
    countOf (nums v) val (i + 1) = countOf (nums v) val i + if v[i].toNat = val then 1 else 0 := by
  rw [countOf, take_succ_nums v i h, List.count_append, countOf, List.count_singleton]
  by_cases e : v[i].toNat = val
  · rw [if_pos e, if_pos (by simp [e])]
  · rw [if_neg e, if_neg (by simp [e])]

theorem countLt_step (v : List UInt8) (val i : Nat) (h : i < v.length) :
    countLt (nums v) val (i + 1) = countLt (nums v) val i + if v[i].toNat < val then 1 else 0 := by
  rw [countLt, take_succ_nums v i h, List.countP_append, countLt]
  by_cases e : v[i].toNat < val <;> simp [e]

theorem countLoop_eq (v : List UInt8) (val : Nat) : ∀ cnt i, i + cnt ≤ v.length →
    countLoop v val cnt i (countOf (nums v) val i) = .ok (countOf (nums v) val (i + cnt)) := by
  intro cnt
  induction cnt with
  | zero => intro i _; rfl
  | succ cnt ih =>
    intro i h
    have hi : i < v.length := by omega
    rw [countLoop, at?_eq_ok hi, Res.ok_bind]
    have := countOf_step v val i hi
    have e : (if v[i].toNat = val then countOf (nums v) val i + 1 else countOf (nums v) val i) = countOf (nums v) val (i + 1) := by
      rw [this]; split <;> rfl
    rw [e, ih (i + 1) (by omega), show i + 1 + cnt = i + (cnt + 1) by omega]

theorem ltLoop_eq (v : List UInt8) (val : Nat) : ∀ cnt i, i + cnt ≤ v.length →
    ltLoop v val cnt i (countLt (nums v) val i) = .ok (countLt (nums v) val (i + cnt)) := by
  intro cnt
  induction cnt with
  | zero => intro i _; rfl
  | succ cnt ih =>
    intro i h
    have hi : i < v.length := by omega
    rw [ltLoop, at?_eq_ok hi, Res.ok_bind]
    have := countLt_step v val i hi
    have e : (if v[i].toNat < val then countLt (nums v) val i + 1 else countLt (nums v) val i) = countLt (nums v) val (i + 1) := by
      rw [this]; split <;> rfl
    rw [e, ih (i + 1) (by omega), show i + 1 + cnt = i + (cnt + 1) by omega]

theorem countOf_zero (l : List Nat) (val : Nat) : countOf l val 0 = 0 := by simp [countOf]
theorem countLt_zero (l : List Nat) (val : Nat) : countLt l val 0 = 0 := by simp [countLt]

theorem selLoop_eq (v : List UInt8) (val r : Nat) (hr : r + 1 < 2 ^ 64) : ∀ cnt i, i + cnt = v.length →
    countOf (nums v) val i ≤ r →
    (r < countOf (nums v) val v.length → ∃ p, selLoop v val cnt i (r + 1 - countOf (nums v) val i) = .ok p ∧ IsNth (nums v) val r p) ∧
    (countOf (nums v) val v.length ≤ r → selLoop v val cnt i (r + 1 - countOf (nums v) val i) = .ok SucVector.NotFound) := by
  intro cnt
  induction cnt with
  | zero =>
    intro i hi hle
    have : i = v.length := by omega
    subst this
    exact ⟨fun h => by omega, fun _ => rfl⟩
  | succ cnt ih =>
    intro i hi hle
    have hv : i < v.length := by omega
    have hs := countOf_step v val i hv
    rw [selLoop, at?_eq_ok hv, Res.ok_bind]
    have e : (if v[i].toNat = val then (r + 1 - countOf (nums v) val i + (2 ^ 64 - 1)) % 2 ^ 64 else r + 1 - countOf (nums v) val i) =
        r + 1 - countOf (nums v) val (i + 1) := by
      rw [hs]; split <;> omega
    simp only [e]
    by_cases h0 : r + 1 - countOf (nums v) val (i + 1) = 0
    · rw [if_pos h0]
      have hone : v[i].toNat = val := by
        by_cases h : v[i].toNat = val
        · exact h
        · rw [if_neg h] at hs; omega
      have hc : countOf (nums v) val i = r := by
        rw [if_pos hone] at hs; omega
      have hle' : countOf (nums v) val (i + 1) ≤ countOf (nums v) val v.length := by
        have : ∀ k, i + 1 + k ≤ v.length → countOf (nums v) val (i + 1) ≤ countOf (nums v) val (i + 1 + k) := by
          intro k
          induction k with
          | zero => intro _; exact Nat.le_refl _
          | succ k ihk =>
            intro hk
            have a := ihk (by omega)
            have b := countOf_step v val (i + 1 + k) (by omega)
            rw [← Nat.add_assoc]; omega
        have a := this cnt (by omega)
        rwa [show i + 1 + cnt = v.length by omega] at a
      refine ⟨fun _ => ⟨i, rfl, ?_, hc⟩, fun h => by omega⟩
      simp [nums, hv, hone]
    · rw [if_neg h0]
      exact ih (i + 1) (by omega) (by omega)

/-- C120.  The plain implementation the benchmark compares with: `get` reads the element, `rank` and `rankLt` count among the first `pos`
bytes, `select` finds occurrence `r` or says there is none; for every sequence of bytes. -/
theorem C120_naive (v : List UInt8) (val pos r : Nat) :
    (∀ h : pos < v.length, nvGet v pos = .ok v[pos].toNat) ∧
    (pos ≤ v.length → nvRank v val pos = .ok (countOf (nums v) val pos) ∧ nvRankLt v val pos = .ok (countLt (nums v) val pos)) ∧
    (r + 1 < 2 ^ 64 → (r < (nums v).count val → ∃ p, nvSelect v val r = .ok p ∧ IsNth (nums v) val r p) ∧
      ((nums v).count val ≤ r → nvSelect v val r = .ok SucVector.NotFound)) := by
  refine ⟨fun h => by simp [nvGet, h], fun h => ⟨?_, ?_⟩, fun hr => ?_⟩
  · have := countLoop_eq v val pos 0 (by omega)
    rwa [countOf_zero, Nat.zero_add] at this
  · have := ltLoop_eq v val pos 0 (by omega)
    rwa [countLt_zero, Nat.zero_add] at this
  · have hall : countOf (nums v) val v.length = (nums v).count val := by
      rw [countOf, ← nums_len v, List.take_length]
    have := selLoop_eq v val r hr v.length 0 (by omega) (by rw [countOf_zero]; omega)
    rw [hall, countOf_zero] at this
    rw [nvSelect, Nat.mod_eq_of_lt hr]
    exact this

theorem isNth_unique (l : List Nat) (c r p q : Nat) (hp : IsNth l c r p) (hq : IsNth l c r q) : p = q := by
  have mono : ∀ a b, a < b → l[a]? = some c → countOf l c a < countOf l c b := by
    intro a b hab ha
    obtain ⟨hl, he⟩ := List.getElem?_eq_some_iff.mp ha
    have h1 : countOf l c (a + 1) = countOf l c a + 1 := by
      rw [countOf, List.take_succ_eq_append_getElem hl, List.count_append, he, countOf]; simp
    have h2 : countOf l c (a + 1) ≤ countOf l c b := by
      rw [countOf, countOf]
      exact (List.take_prefix_take_left (l := l) (show a + 1 ≤ b by omega)).sublist.count_le c
    omega
  rcases Nat.lt_trichotomy p q with h | h | h
  · have := mono p q h hp.1
    rw [hp.2, hq.2] at this; omega
  · exact h
  · have := mono q p h hq.1
    rw [hp.2, hq.2] at this; omega

/-- The matrix built from `v` answers as `Naive` on every question the benchmark can ask, and its `size(c)` is the number of `c`. -/
structure Agree (v : List UInt8) (wm : Wavelet.WM) : Prop where
  get : ∀ p, p < v.length → Wavelet.get wm p = nvGet v p
  rank : ∀ c p, c < 256 → p ≤ v.length → Wavelet.rank wm c p = nvRank v c p
  rankLt : ∀ c p, c < 256 → p ≤ v.length → Wavelet.rankLt wm c p = nvRankLt v c p
  select : ∀ c r, c < 256 → r + 1 < 2 ^ 64 → Wavelet.select true wm c r = nvSelect v c r
  size : ∀ c, c < 256 → Wavelet.sizeVal wm c = .ok ((nums v).count c)

/-- C120.  For every sequence of bytes of which there are few enough for `rankLt` (less than 2^32 / 7), the matrix and `Naive` give the
same answers, to every question in range. -/
theorem C120_agree (v : List UInt8) (hn : 7 * v.length < 2 ^ 32) :
    ∃ wm, Wavelet.init true Wavelet.empty (nums v) 8 = .ok wm ∧ Agree v wm := by
  have hre : Wavelet.Reusable Wavelet.empty := by intro t ht; simp [Wavelet.empty] at ht
  have hl := nums_lt v
  have hlen : (nums v).length < 2 ^ 32 := by rw [nums_len]; omega
  obtain ⟨wm, e1, _, _, g1, _, _, g4, g5⟩ := Wavelet.C14_get_rank true Wavelet.empty hre (nums v) 8 (by omega) hlen hl
  obtain ⟨wm2, e2, h2⟩ := Wavelet.C14_rankLt_partial true Wavelet.empty hre (nums v) 8 (by omega) hlen hl (by rw [nums_len]; omega)
  obtain ⟨wm3, e3, h3⟩ := Wavelet.C15_select_partial Wavelet.empty hre (nums v) 8 (by omega) hlen hl
  have : wm2 = wm := by rw [e1] at e2; cases e2; rfl
  subst this
  have : wm3 = wm2 := by rw [e1] at e3; cases e3; rfl
  subst this
  refine ⟨wm3, e1, ⟨fun p hp => ?_, fun c p hc hp => ?_, fun c p hc hp => ?_, fun c r hc hr => ?_, g5⟩⟩
  · rw [g1 (by omega) p (by rw [nums_len]; exact hp), (C120_naive v 0 p 0).1 hp]
    simp [nums]
  · rw [g4 c hc p, ((C120_naive v c p 0).2.1 hp).1]
  · rw [h2 c hc p, ((C120_naive v c p 0).2.1 hp).2]
  · obtain ⟨a1, a2⟩ := h3 c hc r (by omega)
    obtain ⟨b1, b2⟩ := (C120_naive v c 0 r).2.2 hr
    by_cases h : r < (nums v).count c
    · obtain ⟨p, p1, p2⟩ := a1 h
      obtain ⟨q, q1, q2⟩ := b1 h
      rw [p1, q1, isNth_unique _ _ _ _ _ p2 q2]
    · rw [a2 (by omega), b2 (by omega)]

theorem and_pred_lt (x N : Nat) (hN : 0 < N) : x &&& (N - 1) < N := by
  have := Nat.and_le_right (n := x) (m := N - 1)
  omega

theorem draws (ord : Bool) (N : Nat) (hN : 0 < N) (g : Xs) : (twoDraws ord N g).1 < 256 ∧ (twoDraws ord N g).2.1 < N := by
  unfold twoDraws
  cases ord <;> exact ⟨Nat.mod_lt _ (by decide), and_pred_lt _ _ hN⟩

/-- `maxTbl`: one more than how often each byte occurs. -/
def MaxOf (v : List UInt8) (m : List Int) : Prop :=
  m.length = 256 ∧ ∀ c (h : c < m.length), m[c] = ((nums v).count c : Int) + 1

theorem intSucc_ok (k : Nat) (h : k + 1 < 2 ^ 31) : intSucc k = .ok ((k : Int) + 1) := by
  have e : Int.bmod k (2 ^ 32) = (k : Int) := by rw [Int.bmod_eq_of_le] <;> omega
  have hk : (k : Int) + 1 < 2 ^ 31 := by omega
  unfold intSucc
  dsimp only
  rw [e, if_pos hk]

theorem mkMaxTbl_ok (v : List UInt8) (hn : 7 * v.length < 2 ^ 32) (size : Nat → Res Nat)
    (hs : ∀ c, c < 256 → size c = .ok ((nums v).count c)) : ∀ cnt i, i + cnt = 256 →
    ∃ m, mkMaxTbl size cnt i = .ok m ∧ m.length = cnt ∧ ∀ c (h : c < m.length), m[c] = ((nums v).count (i + c) : Int) + 1 := by
  intro cnt
  induction cnt with
  | zero => intro i _; exact ⟨[], rfl, rfl, fun c h => by simp at h⟩
  | succ cnt ih =>
    intro i hi
    obtain ⟨m, h1, h2, h3⟩ := ih (i + 1) (by omega)
    have hc : (nums v).count i ≤ v.length := by
      have := List.count_le_length (a := i) (l := nums v)
      rwa [nums_len] at this
    have hb : intSucc ((nums v).count i) = .ok (((nums v).count i : Int) + 1) := by
      exact intSucc_ok _ (by omega)
    refine ⟨(((nums v).count i : Int) + 1) :: m, ?_, by simp [h2], ?_⟩
    · rw [mkMaxTbl, hs i (by omega), Res.ok_bind, hb, Res.ok_bind, h1, Res.ok_bind, Res.pure_eq]
    intro c h
    cases c with
    | zero => rfl
    | succ c =>
      rw [List.getElem_cons_succ, h3 c (by simpa using h), show i + 1 + c = i + (c + 1) by omega]

/-- The four measured calls are the same for the matrix and for `Naive`, in every state. -/
theorem same_calls {τ : Type} (v : List UInt8) (wm : Wavelet.WM) (h : Agree v wm) (hn : 7 * v.length < 2 ^ 32)
    (h0 : 0 < v.length) (ord : Bool) (m : List Int) (hm : MaxOf v m) :
    (oneGet (τ := τ) (ofWm wm) v.length = oneGet (ofNaive v) v.length) ∧
    (oneRank (τ := τ) (ofWm wm) ord v.length = oneRank (ofNaive v) ord v.length) ∧
    (oneRankLt (τ := τ) (ofWm wm) ord v.length = oneRankLt (ofNaive v) ord v.length) ∧
    (oneSelect (τ := τ) (ofWm wm) m = oneSelect (ofNaive v) m) := by
  refine ⟨?_, ?_, ?_, ?_⟩ <;> funext s
  · simp only [oneGet, ofWm, ofNaive, h.get _ (and_pred_lt _ _ h0)]
  · obtain ⟨d1, d2⟩ := draws ord v.length h0 s.rg
    simp only [oneRank, ofWm, ofNaive, h.rank _ _ d1 (Nat.le_of_lt d2)]
  · obtain ⟨d1, d2⟩ := draws ord v.length h0 s.rg
    simp only [oneRankLt, ofWm, ofNaive, h.rankLt _ _ d1 (Nat.le_of_lt d2)]
  · have hc : s.rg.get32.1.toNat % 256 < m.length := by rw [hm.1]; exact Nat.mod_lt _ (by decide)
    simp only [oneSelect, at?_eq_ok hc, Res.ok_bind]
    have hx := s.rg.get32.2.get32.1.isLt
    generalize s.rg.get32.2.get32.1.toNat = x at hx ⊢
    cases hp : modInt x m[s.rg.get32.1.toNat % 256] with
    | throw => rfl
    | ub => rfl
    | ok p =>
      have : p ≤ x := by
        unfold modInt at hp
        split at hp
        · cases hp
        · cases hp; exact Nat.mod_le _ _
      simp only [Res.ok_bind, ofWm, ofNaive]
      rw [h.select _ _ (Nat.mod_lt _ (by decide)) (by omega)]

theorem nvSelect_ok (v : List UInt8) (c r : Nat) (hr : r + 1 < 2 ^ 64) : ∃ p, nvSelect v c r = .ok p := by
  obtain ⟨b1, b2⟩ := (C120_naive v c 0 r).2.2 hr
  by_cases h : r < (nums v).count c
  · obtain ⟨p, hp, _⟩ := b1 h; exact ⟨p, hp⟩
  · exact ⟨_, b2 (by omega)⟩

/-- None of the measured calls fails on `Naive`. -/
theorem calls_ok {τ : Type} (v : List UInt8) (hn : 7 * v.length < 2 ^ 32)
    (h0 : 0 < v.length) (ord : Bool) (m : List Int) (hm : MaxOf v m) (s : St τ) :
    (∃ t, oneGet (ofNaive v) v.length s = .ok t) ∧ (∃ t, oneRank (ofNaive v) ord v.length s = .ok t) ∧
    (∃ t, oneRankLt (ofNaive v) ord v.length s = .ok t) ∧ (∃ t, oneSelect (ofNaive v) m s = .ok t) := by
  obtain ⟨d1, d2⟩ := draws ord v.length h0 s.rg
  refine ⟨?_, ?_, ?_, ?_⟩
  · rw [oneGet]
    simp only [ofNaive]
    rw [(C120_naive v 0 _ 0).1 (and_pred_lt _ _ h0)]
    exact ⟨_, rfl⟩
  · rw [oneRank]
    simp only [ofNaive]
    rw [((C120_naive v _ _ 0).2.1 (Nat.le_of_lt d2)).1]
    exact ⟨_, rfl⟩
  · rw [oneRankLt]
    simp only [ofNaive]
    rw [((C120_naive v _ _ 0).2.1 (Nat.le_of_lt d2)).2]
    exact ⟨_, rfl⟩
  · have hc : s.rg.get32.1.toNat % 256 < m.length := by rw [hm.1]; exact Nat.mod_lt _ (by decide)
    simp only [oneSelect, at?_eq_ok hc, Res.ok_bind, hm.2 _ hc]
    have hx := s.rg.get32.2.get32.1.isLt
    generalize s.rg.get32.2.get32.1.toNat = x at hx ⊢
    have hk : (nums v).count (s.rg.get32.1.toNat % 256) ≤ v.length := by
      have := List.count_le_length (a := s.rg.get32.1.toNat % 256) (l := nums v)
      rwa [nums_len] at this
    generalize (nums v).count (s.rg.get32.1.toNat % 256) = k at hk ⊢
    have hz : ¬ (((k : Int) + 1) % 2 ^ 32).toNat = 0 := by omega
    rw [modInt, if_neg hz, Res.ok_bind]
    have hle : x % (((k : Int) + 1) % 2 ^ 32).toNat ≤ x := Nat.mod_le _ _
    obtain ⟨p, hp⟩ := nvSelect_ok v (s.rg.get32.1.toNat % 256) (x % (((k : Int) + 1) % 2 ^ 32).toNat) (by omega)
    simp only [ofNaive, hp]
    exact ⟨_, rfl⟩

theorem measure_ok {τ : Type} (e : Env τ) (cpuTimer cb : Bool) (label : String) (func : St τ → Res (St τ))
    (h : ∀ s, ∃ t, func s = .ok t) (t : τ) (g : Xs) :
    ∃ n t' g', measure e cpuTimer cb label func t g = .ok ([.text label, .ret n], t', g') := by
  rw [Verif.WmBench.measure]
  rcases (Verif.Props.Bench.C107_only_func_fails (env e) cpuTimer cb [] 0 func ⟨t, 0, g⟩).1 with ⟨d, hd⟩ | ⟨u, hu, _⟩ | ⟨u, hu, _⟩
  · rw [hd]; exact ⟨_, _, _, rfl⟩
  · obtain ⟨w, hw⟩ := h u; rw [hu] at hw; cases hw
  · obtain ⟨w, hw⟩ := h u; rw [hu] at hw; cases hw

theorem check_ok (nv wm : Nat → Nat → Res Nat) : ∀ l : List (Nat × Nat),
    (∀ x ∈ l, ∃ p, nv x.1 x.2 = .ok p ∧ wm x.1 x.2 = .ok p) → check nv wm l = .ok ([.text "select ok\n"], false) := by
  intro l
  induction l with
  | nil => intro _; rfl
  | cons x l ih =>
    intro h
    obtain ⟨p, h1, h2⟩ := h x List.mem_cons_self
    obtain ⟨c, pos⟩ := x
    rw [check, h1, Res.ok_bind, h2, Res.ok_bind, if_neg (by simp)]
    exact ih fun y hy => h y (List.mem_cons_of_mem _ hy)

/-- C120.  The check at the end compares correctly: it says `select ok` exactly if both give the same position for both questions. -/
theorem C120_check (nv wm : Nat → Nat → Res Nat) (a1 a2 b1 b2 : Nat) (h1 : nv 58 1024 = .ok a1) (h2 : nv 35 1026 = .ok a2)
    (h3 : wm 58 1024 = .ok b1) (h4 : wm 35 1026 = .ok b2) :
    check nv wm tbl = .ok (if a1 ≠ b1 then ([.err 58 1024 a1 b1], true) else if a2 ≠ b2 then ([.err 35 1026 a2 b2], true)
      else ([.text "select ok\n"], false)) := by
  simp only [tbl, check, h1, h2, h3, h4, Res.ok_bind]
  split
  · rfl
  · split <;> rfl

/-- C120.  A measurement prints the sum as an `unsigned int`: the number below 2^32 that differs from the sum by a multiple of 2^32. -/
theorem C120_printed {τ : Type} (e : Env τ) (cpuTimer cb : Bool) (label : String) (func : St τ → Res (St τ)) (t : τ) (g : Xs)
    (out : List Ev) (t' : τ) (g' : Xs) (h : measure e cpuTimer cb label func t g = .ok (out, t', g')) :
    ∃ d n k, Bench.bench (env e) cpuTimer cb [] func ⟨t, 0, g⟩ = .ok d ∧ out = [.text label, .ret n] ∧ n < 4294967296 ∧ d.s.ret = n + 4294967296 * k := by
  rw [Verif.WmBench.measure, Res.bind_eq_ok] at h
  obtain ⟨d, h1, h2⟩ := h
  injection h2 with h2
  injection h2 with h2 _
  exact ⟨d, d.s.ret % 4294967296, d.s.ret / 4294967296, h1, h2.symm, Nat.mod_lt _ (by decide), (Nat.mod_add_div _ _).symm⟩

/-- C120.  Each measured call asks one question about drawn numbers and adds the answer to the sum, which counts modulo 2^64. -/
theorem C120_adds {τ : Type} (T : Impl) (ord : Bool) (N : Nat) (maxTbl : List Int) (s s' : St τ)
    (h : oneGet T N s = .ok s' ∨ oneRank T ord N s = .ok s' ∨ oneRankLt T ord N s = .ok s' ∨ oneSelect T maxTbl s = .ok s') :
    s'.t = s.t ∧ s'.ret < 18446744073709551616 ∧ ∃ x k, s.ret + x = s'.ret + 18446744073709551616 * k ∧
      ((∃ i, T.get i = .ok x) ∨ (∃ c i, c < 256 ∧ (T.rank c i = .ok x ∨ T.rankLt c i = .ok x ∨ T.select c i = .ok x))) := by
  have key : ∀ (g : Xs) (x : Nat), (add { s with rg := g } x).t = s.t ∧ (add { s with rg := g } x).ret < 18446744073709551616 ∧
      ∃ k, s.ret + x = (add { s with rg := g } x).ret + 18446744073709551616 * k := fun g x =>
    ⟨rfl, Nat.mod_lt _ (by decide), (s.ret + x) / 18446744073709551616, (Nat.mod_add_div _ _).symm⟩
  have hd : (twoDraws ord N s.rg).1 < 256 := by
    unfold twoDraws; dsimp only; split <;> exact Nat.mod_lt _ (by decide)
  rcases h with h | h | h | h
  · rw [oneGet, Res.bind_eq_ok] at h
    obtain ⟨x, h1, h2⟩ := h
    injection h2 with h2; subst h2
    obtain ⟨a, b, k, c⟩ := key s.rg.get32.2 x
    exact ⟨a, b, x, k, c, .inl ⟨_, h1⟩⟩
  · rw [oneRank, Res.bind_eq_ok] at h
    obtain ⟨x, h1, h2⟩ := h
    injection h2 with h2; subst h2
    obtain ⟨a, b, k, c⟩ := key _ x
    exact ⟨a, b, x, k, c, .inr ⟨_, _, hd, .inl h1⟩⟩
  · rw [oneRankLt, Res.bind_eq_ok] at h
    obtain ⟨x, h1, h2⟩ := h
    injection h2 with h2; subst h2
    obtain ⟨a, b, k, c⟩ := key _ x
    exact ⟨a, b, x, k, c, .inr ⟨_, _, hd, .inr (.inl h1)⟩⟩
  · unfold oneSelect at h
    dsimp only at h
    rw [Res.bind_eq_ok] at h
    obtain ⟨m, _, h⟩ := h
    rw [Res.bind_eq_ok] at h
    obtain ⟨q, _, h⟩ := h
    rw [Res.bind_eq_ok] at h
    obtain ⟨x, h1, h2⟩ := h
    injection h2 with h2; subst h2
    obtain ⟨a, b, k, c⟩ := key _ x
    exact ⟨a, b, x, k, c, .inr ⟨_, _, Nat.mod_lt _ (by decide), .inr (.inr h1)⟩⟩

example : ∃ s', oneGet (ofNaive [3, 1, 4, 1]) 4 (⟨0, 18446744073709551615, ⟨1, 2, 3, 4⟩⟩ : St Nat) = .ok s' := by
  have : ∀ i, i < 4 → ∃ x, (ofNaive [3, 1, 4, 1]).get i = .ok x := by
    intro i hi
    obtain rfl | rfl | rfl | rfl : i = 0 ∨ i = 1 ∨ i = 2 ∨ i = 3 := by omega
    all_goals exact ⟨_, rfl⟩
  obtain ⟨x, hx⟩ := this ((⟨1, 2, 3, 4⟩ : Xs).get32.1.toNat &&& (4 - 1)) (Nat.lt_of_le_of_lt Nat.and_le_right (by decide))
  exact ⟨_, by rw [oneGet]; dsimp only; rw [hx]; rfl⟩

theorem bench_same {τ : Type} (e : Env τ) (cpuTimer cb ord : Bool) (v : List UInt8) (hn : 7 * v.length < 2 ^ 32) (h0 : 0 < v.length)
    (wm : Wavelet.WM) (h : Agree v wm) (t : τ) :
    bench e cpuTimer cb ord (ofWm wm) (Wavelet.sizeVal wm) v v.length t =
      bench e cpuTimer cb ord (ofNaive v) (fun c => .ok ((nums v).count c)) v v.length t ∧
    ∃ n1 n2 n3 n4, bench e cpuTimer cb ord (ofNaive v) (fun c => .ok ((nums v).count c)) v v.length t = .ok
      ([.text "wm\n", .text "get   ", .ret n1, .text "rank  ", .ret n2, .text "rank  ", .ret n3, .text "select", .ret n4,
        .text "select ok\n"], false) := by
  obtain ⟨m, m1, m2, m3⟩ := mkMaxTbl_ok v hn (Wavelet.sizeVal wm) h.size 256 0 rfl
  obtain ⟨m', m1', m2', m3'⟩ := mkMaxTbl_ok v hn (fun c => .ok ((nums v).count c)) (fun _ _ => rfl) 256 0 rfl
  have hmm : m' = m := by
    apply List.ext_getElem (by omega)
    intro i h1 h2
    rw [m3 i h2, m3' i h1]
  subst hmm
  have hm : MaxOf v m' := ⟨m2, fun c hc => by rw [m3 c hc, Nat.zero_add]⟩
  obtain ⟨s1, s2, s3, s4⟩ := same_calls (τ := τ) v wm h hn h0 ord m' hm
  have hck : ∀ x ∈ tbl, x.1 < 256 ∧ x.2 + 1 < 2 ^ 64 := by decide
  have c1 : check (nvSelect v) (ofWm wm).select tbl = .ok ([.text "select ok\n"], false) := by
    apply check_ok
    intro x hx
    obtain ⟨p, hp⟩ := nvSelect_ok v x.1 x.2 (hck x hx).2
    exact ⟨p, hp, by rw [← hp]; exact h.select _ _ (hck x hx).1 (hck x hx).2⟩
  have c2 : check (nvSelect v) (ofNaive v).select tbl = .ok ([.text "select ok\n"], false) := by
    apply check_ok
    intro x hx
    obtain ⟨p, hp⟩ := nvSelect_ok v x.1 x.2 (hck x hx).2
    exact ⟨p, hp, hp⟩
  constructor
  · unfold bench benchSelect
    rw [s1, s2, s3, m1, m1', c1, c2]
    simp only [Res.ok_bind, s4]
  · obtain ⟨n1, t1, g1, e1⟩ := measure_ok e cpuTimer cb "get   " (oneGet (ofNaive v) v.length)
      (fun s => (calls_ok v hn h0 ord m' hm s).1) t (Xs.init 0 0 0 0)
    obtain ⟨n2, t2, g2, e2⟩ := measure_ok e cpuTimer cb "rank  " (oneRank (ofNaive v) ord v.length)
      (fun s => (calls_ok v hn h0 ord m' hm s).2.1) t1 g1
    obtain ⟨n3, t3, g3, e3⟩ := measure_ok e cpuTimer cb "rank  " (oneRankLt (ofNaive v) ord v.length)
      (fun s => (calls_ok v hn h0 ord m' hm s).2.2.1) t2 g2
    obtain ⟨n4, t4, g4, e4⟩ := measure_ok e cpuTimer cb "select" (oneSelect (ofNaive v) m')
      (fun s => (calls_ok v hn h0 ord m' hm s).2.2.2) t3 g3
    refine ⟨n1, n2, n3, n4, ?_⟩
    unfold bench benchSelect
    simp only [e1, e2, e3, e4, m1', c2, Res.ok_bind, Res.pure_eq, List.cons_append, List.nil_append]

/-- C120.  On every sequence of bytes (not empty, less than 2^32 / 7) the benchmark ends normally, reports `select ok`, and prints the
same sums as it would if every question went to `Naive`; whatever the clock, the timer and the order of evaluation. -/
theorem C120_run_on {τ : Type} (e : Env τ) (cpuTimer cb ord : Bool) (v : List UInt8) (hn : 7 * v.length < 2 ^ 32) (h0 : 0 < v.length)
    (t : τ) :
    ∃ n1 n2 n3 n4, runOn e cpuTimer cb ord v v.length t = .ok
      ([.text "start\n", .text "wm\n", .text "get   ", .ret n1, .text "rank  ", .ret n2, .text "rank  ", .ret n3, .text "select", .ret n4,
        .text "select ok\n"], false) ∧
      bench e cpuTimer cb ord (ofNaive v) (fun c => .ok ((nums v).count c)) v v.length t = .ok
      ([.text "wm\n", .text "get   ", .ret n1, .text "rank  ", .ret n2, .text "rank  ", .ret n3, .text "select", .ret n4,
        .text "select ok\n"], false) := by
  obtain ⟨wm, e1, h⟩ := C120_agree v hn
  obtain ⟨b1, n1, n2, n3, n4, b2⟩ := bench_same e cpuTimer cb ord v hn h0 wm h t
  refine ⟨n1, n2, n3, n4, ?_, b2⟩
  rw [runOn]
  rw [nums] at e1
  rw [e1, Res.ok_bind, b1, b2]
  rfl

theorem fill_length : ∀ n g, (fill n g).length = n := by
  intro n
  induction n with
  | zero => intro g; rfl
  | succ n ih => intro g; rw [fill, List.length_cons, ih]

/-- C120.  With at most 29 bits the program ends with status 0 and the last line it prints is `select ok`; the default is 26 bits. -/
theorem C120_main {τ : Type} (e : Env τ) (cpuTimer cb ord : Bool) (argv : List (List UInt8)) (t : τ) (b : Nat)
    (ha : args argv 26 = .ok (some b)) (hb : b ≤ 29) :
    ∃ n1 n2 n3 n4, main e cpuTimer cb ord argv t = .ok
      ([.hex (2 ^ b), .text "init\n", .text "start\n", .text "wm\n", .text "get   ", .ret n1, .text "rank  ", .ret n2, .text "rank  ",
        .ret n3, .text "select", .ret n4, .text "select ok\n"], 0) := by
  have hp : 2 ^ b ≤ 2 ^ 29 := Nat.pow_le_pow_right (by decide) hb
  have h0 : 0 < 2 ^ b := Nat.two_pow_pos b
  have hl : (fill (2 ^ b) (Xs.init 0 0 0 0)).length = 2 ^ b := fill_length _ _
  obtain ⟨n1, n2, n3, n4, h, _⟩ := C120_run_on e cpuTimer cb ord (fill (2 ^ b) (Xs.init 0 0 0 0)) (by rw [hl]; omega) (by rw [hl]; omega) t
  rw [hl] at h
  refine ⟨n1, n2, n3, n4, ?_⟩
  rw [main, ha, Res.ok_bind]
  simp only [run, if_neg (show ¬ 64 ≤ b by omega), h, Res.ok_bind, Res.pure_eq]
  rfl

/-- C120.  What the arguments mean: pairs `-b` and a number, of which the last counts; anything else, also `-b` alone, gives the usage
and status 1. -/
theorem C120_args {τ : Type} (e : Env τ) (cpuTimer cb ord : Bool) (t : τ) (a b : List UInt8) (rest : List (List UInt8)) (k i : Nat) :
    args [] 26 = .ok (some 26) ∧
    (cAtoi b = .ok (i : Int) → i < 2 ^ 31 → args ([45, 98] :: b :: rest) k = args rest i) ∧
    (a ≠ [45, 98] → main e cpuTimer cb ord (a :: rest) t = .ok ([.text "usage wm_bench_smpl.exe [-b bitLen]\n"], 1)) ∧
    main e cpuTimer cb ord [a] t = .ok ([.text "usage wm_bench_smpl.exe [-b bitLen]\n"], 1) := by
  refine ⟨rfl, fun h hi => ?_, fun h => ?_, rfl⟩
  · rw [args, if_pos rfl, h, Res.ok_bind]
    congr 1; omega
  · cases rest with
    | nil => rfl
    | cons c rest => rw [main, args, if_neg h]; rfl

theorem value_none (b : Nat) (s : List UInt8) :
    s.foldl (fun acc c => match acc, Spec.Numeral.digit? c with
      | some v, some d => if d < b then some (v * b + d) else none
      | _, _ => none) (none : Option Nat) = none := by
  induction s with
  | nil => rfl
  | cons c s ih => exact ih

theorem digits_value (ds rest : List UInt8) (hr : ∀ c, rest.head? = some c → ¬ (48 ≤ c ∧ c ≤ 57)) : ∀ (n v : Nat),
    ds.foldl (fun acc c => match acc, Spec.Numeral.digit? c with
      | some v, some d => if d < 10 then some (v * 10 + d) else none
      | _, _ => none) (some n) = some v → digits (ds ++ rest) n = v := by
  induction ds with
  | nil =>
    intro n v h
    cases h
    cases rest with
    | nil => rfl
    | cons c rest =>
      have := hr c rfl
      rw [List.nil_append, digits, if_neg (by simpa using this)]
  | cons c ds ih =>
    intro n v h
    rw [List.foldl_cons] at h
    cases hd : Spec.Numeral.digit? c with
    | none => rw [hd] at h; simp only at h; rw [value_none] at h; cases h
    | some d =>
      rw [hd] at h
      simp only at h
      by_cases h10 : d < 10
      · rw [if_pos h10] at h
        have hc : (48 ≤ c ∧ c ≤ 57) ∧ d = c.toNat - 48 := by
          unfold Spec.Numeral.digit? at hd
          simp only [UInt8.le_iff_toNat_le, UInt8.toNat_ofNat] at hd ⊢
          split at hd
          · cases hd; exact ⟨by omega, rfl⟩
          · split at hd
            · cases hd; omega
            · split at hd
              · cases hd; omega
              · cases hd
        rw [List.cons_append, digits, if_pos (by simpa using hc.1), ← hc.2]
        exact ih _ _ (by rw [Nat.mul_comm 10]; exact h)
      · rw [if_neg h10, value_none] at h; cases h

/-- C120.  The number of `-b`: white space, an optional sign, digits, then anything that is no digit.  With a minus sign the number becomes
huge, a number beyond `int` is undefined. -/
theorem C120_number (ws ds tail : List UInt8) (rest : List (List UInt8)) (k v : Nat)
    (hw : ∀ c ∈ ws, c = 32 ∨ c = 9 ∨ c = 10 ∨ c = 11 ∨ c = 12 ∨ c = 13) (hne : ds ≠ []) (hv : Spec.Numeral.value? 10 ds = some v)
    (ht : ∀ c, tail.head? = some c → ¬ (48 ≤ c ∧ c ≤ 57)) :
    (v < 2 ^ 31 → args ([45, 98] :: (ws ++ ds ++ tail) :: rest) k = args rest v ∧
      args ([45, 98] :: (ws ++ 43 :: ds ++ tail) :: rest) k = args rest v) ∧
    (0 < v → v ≤ 2 ^ 31 → args ([45, 98] :: (ws ++ 45 :: ds ++ tail) :: rest) k = args rest (2 ^ 64 - v)) ∧
    (2 ^ 31 ≤ v → args ([45, 98] :: (ws ++ ds ++ tail) :: rest) k = .ub ∧ args ([45, 98] :: (ws ++ 43 :: ds ++ tail) :: rest) k = .ub) ∧
    (2 ^ 31 < v → args ([45, 98] :: (ws ++ 45 :: ds ++ tail) :: rest) k = .ub) := by
  have hd : digits (ds ++ tail) 0 = v := digits_value ds tail ht 0 v hv
  have drop : ∀ (c : UInt8) (t : List UInt8), isSpace c = false → (ws ++ c :: t).dropWhile isSpace = c :: t := by
    intro c t hc
    have hall : ∀ x ∈ ws, isSpace x = true := by
      intro x hx
      rcases hw x hx with rfl | rfl | rfl | rfl | rfl | rfl <;> rfl
    clear hw
    induction ws with
    | nil => rw [List.nil_append, List.dropWhile_cons, hc]; rfl
    | cons x ws ih =>
      rw [List.cons_append, List.dropWhile_cons, hall x (by simp), if_pos rfl]
      exact ih fun y hy => hall y (by simp [hy])
  have first : ∃ c t, ds = c :: t ∧ 48 ≤ c.toNat ∧ c.toNat ≤ 57 := by
    cases ds with
    | nil => exact absurd rfl hne
    | cons c t =>
      refine ⟨c, t, rfl, ?_⟩
      rw [Spec.Numeral.value?, List.foldl_cons] at hv
      cases hd : Spec.Numeral.digit? c with
      | none => rw [hd] at hv; cases hv.symm.trans (value_none 10 t)
      | some d =>
        rw [hd] at hv
        simp only at hv
        by_cases h10 : d < 10
        · unfold Spec.Numeral.digit? at hd
          simp only [UInt8.le_iff_toNat_le, UInt8.toNat_ofNat] at hd
          split at hd
          · omega
          · split at hd
            · cases hd; omega
            · split at hd
              · cases hd; omega
              · cases hd
        · rw [if_neg h10] at hv; cases hv.symm.trans (value_none 10 t)
  obtain ⟨c, t, rfl, h48, h57⟩ := first
  have hsp : isSpace c = false := by
    simp only [isSpace, UInt8.le_iff_toNat_le, UInt8.toNat_ofNat, Bool.or_eq_false_iff, Bool.and_eq_false_iff, decide_eq_false_iff_not,
      ← UInt8.toNat_inj]
    omega
  have h45 : c ≠ 45 := by rintro rfl; simp at h48
  have h43 : c ≠ 43 := by rintro rfl; simp at h48
  have e1 : cAtoi (ws ++ (c :: t) ++ tail) = if v < 2 ^ 31 then .ok (v : Int) else .ub := by
    rw [cAtoi, List.append_assoc, List.cons_append, drop c _ hsp]
    rw [List.cons_append] at hd
    split
    · rename_i h; simp only [List.cons.injEq] at h; exact absurd h.1 h45
    · rename_i h; simp only [List.cons.injEq] at h; exact absurd h.1 h43
    · rw [hd]
      by_cases hv : v < 2 ^ 31
      · rw [if_pos hv, if_pos (by omega)]
      · rw [if_neg hv, if_neg (by omega)]
  have e2 : cAtoi (ws ++ 43 :: (c :: t) ++ tail) = if v < 2 ^ 31 then .ok (v : Int) else .ub := by
    rw [cAtoi, List.append_assoc, List.cons_append, drop 43 _ rfl]
    show (if (-2 ^ 31 : Int) ≤ (digits (c :: t ++ tail) 0 : Int) ∧ (digits (c :: t ++ tail) 0 : Int) < 2 ^ 31 then Res.ok (digits (c :: t ++ tail) 0 : Int) else Res.ub) = _
    rw [hd]
    by_cases hv : v < 2 ^ 31
    · rw [if_pos hv, if_pos (by omega)]
    · rw [if_neg hv, if_neg (by omega)]
  have e3 : cAtoi (ws ++ 45 :: (c :: t) ++ tail) = if v ≤ 2 ^ 31 then .ok (-(v : Int)) else .ub := by
    rw [cAtoi, List.append_assoc, List.cons_append, drop 45 _ rfl]
    show (if (-2 ^ 31 : Int) ≤ -(digits (c :: t ++ tail) 0 : Int) ∧ -(digits (c :: t ++ tail) 0 : Int) < 2 ^ 31 then Res.ok (-(digits (c :: t ++ tail) 0 : Int)) else Res.ub) = _
    rw [hd]
    by_cases hv : v ≤ 2 ^ 31
    · rw [if_pos hv, if_pos (by omega)]
    · rw [if_neg hv, if_neg (by omega)]
  refine ⟨fun h => ?_, fun h0 h => ?_, fun h => ?_, fun h => ?_⟩
  · rw [args, if_pos rfl, e1, if_pos h, Res.ok_bind, args, if_pos rfl, e2, if_pos h, Res.ok_bind]
    have : ((v : Int) % 2 ^ 64).toNat = v := by omega
    rw [this]
    exact ⟨rfl, rfl⟩
  · rw [args, if_pos rfl, e3, if_pos h, Res.ok_bind]
    congr 1; omega
  · rw [args, if_pos rfl, e1, if_neg (by omega), args, if_pos rfl, e2, if_neg (by omega)]
    exact ⟨rfl, rfl⟩
  · rw [args, if_pos rfl, e3, if_neg (by omega)]
    rfl

/-- C120.  From 33 bits up to 63 the matrix refuses the data: the program reports an error and ends with status 0. -/
theorem C120_too_long {τ : Type} (e : Env τ) (cpuTimer cb ord : Bool) (argv : List (List UInt8)) (t : τ) (b : Nat)
    (ha : args argv 26 = .ok (some b)) (h1 : 33 ≤ b) (h2 : b ≤ 63) :
    main e cpuTimer cb ord argv t = .ok ([.text "err\n"], 0) := by
  have hp : 2 ^ 33 ≤ 2 ^ b := Nat.pow_le_pow_right (by decide) h1
  have hl : ((fill (2 ^ b) (Xs.init 0 0 0 0)).map (·.toNat)).length = 2 ^ b := by rw [List.length_map]; exact fill_length _ _
  have hi := Wavelet.C14_init_throws true Wavelet.empty ((fill (2 ^ b) (Xs.init 0 0 0 0)).map (·.toNat)) 8 (.inl (by rw [hl]; omega))
  rw [main, ha, Res.ok_bind]
  simp only [run, if_neg (show ¬ 64 ≤ b by omega), runOn, hi, Res.throw_bind]
  rfl

/-- C120 (finding).  A shift by 64 or more, or by a negative number, is undefined: `-b 64`, `-b -1`. -/
theorem C120_finding_shift {τ : Type} (e : Env τ) (cpuTimer cb ord : Bool) (t : τ) :
    main e cpuTimer cb ord ["-b".toUTF8.toList, "64".toUTF8.toList] t = .ub ∧
    main e cpuTimer cb ord ["-b".toUTF8.toList, "-1".toUTF8.toList] t = .ub := by
  have h1 : args ["-b".toUTF8.toList, "64".toUTF8.toList] 26 = .ok (some 64) := by decide +kernel
  have h2 : args ["-b".toUTF8.toList, "-1".toUTF8.toList] 26 = .ok (some (2 ^ 64 - 1)) := by decide +kernel
  rw [main, main, h1, h2]
  exact ⟨rfl, rfl⟩

/-! Non-trivial cases. -/

example : nvSelect [7, 3, 7, 7, 0] 7 2 = .ok 3 ∧ nvSelect [7, 3, 7, 7, 0] 7 3 = .ok SucVector.NotFound ∧
    nvRankLt [7, 3, 7, 7, 0] 7 5 = .ok 2 := by decide +kernel

example : args ["-b".toUTF8.toList, "5".toUTF8.toList, "-b".toUTF8.toList, " +10x".toUTF8.toList] 26 = .ok (some 10) := by decide +kernel

example : 0 < (fill 4 (Xs.init 0 0 0 0)).length ∧ 7 * (fill 4 (Xs.init 0 0 0 0)).length < 2 ^ 32 ∧
    fill 4 (Xs.init 0 0 0 0) = [234, 230, 170, 176] := by decide +kernel

#print axioms C120_naive
#print axioms C120_agree
#print axioms C120_check
#print axioms C120_printed
#print axioms C120_adds
#print axioms C120_run_on
#print axioms C120_main
#print axioms C120_args
#print axioms C120_number
#print axioms C120_too_long
#print axioms C120_finding_shift

end Verif.Props.WmBench
