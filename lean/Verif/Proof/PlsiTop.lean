import Verif.Proof.Plsi
import Verif.Proof.NlpRandom
import Verif.Props.TopScore
set_option linter.unusedSimpArgs false

namespace Verif.Plsi

open Verif.Random Verif.NlpRandom Verif.Spec.Plsi Finset

/-! ## The data -/

/-- The keys are numbered in the order of their first use, and the rows have known users. -/
structure DataOk (s : Plsi) : Prop where
  users : s.users = s.userlist.zipIdx
  items : s.items = s.itemlist.zipIdx
  rows : s.matrix.length = s.items.length
  ids : ∀ row ∈ s.matrix, ∀ u ∈ row, u < s.users.length

theorem obsFrom_mem {d : Nat × Nat} : ∀ {rows : List (List Nat)} {y : Nat}, d ∈ obsFrom y rows →
    (∃ row ∈ rows, d.1 ∈ row) ∧ y ≤ d.2 ∧ d.2 < y + rows.length := by
  intro rows
  induction rows with
  | nil => intro y h; simp [obsFrom] at h
  | cons row rows ih =>
    intro y h
    rw [obsFrom, List.mem_append] at h
    rcases h with h | h
    · obtain ⟨u, hu, rfl⟩ := List.mem_map.1 h
      exact ⟨⟨row, by simp, hu⟩, Nat.le_refl _, by simp⟩
    · obtain ⟨⟨r, hr, hd⟩, h1, h2⟩ := ih h
      exact ⟨⟨r, by simp [hr], hd⟩, by omega, by simp; omega⟩

theorem DataOk.inU {s : Plsi} (h : DataOk s) : ∀ d ∈ obs s, d.1 < s.users.length := by
  intro d hd
  obtain ⟨⟨row, hr, hu⟩, _⟩ := obsFrom_mem hd
  exact h.ids row hr _ hu

theorem DataOk.inV {s : Plsi} (h : DataOk s) : ∀ d ∈ obs s, d.2 < s.items.length := by
  intro d hd
  obtain ⟨_, _, h2⟩ := obsFrom_mem hd
  rw [h.rows] at h2
  omega

/-! ## `startLearning` -/

theorem fillRand_ok : ∀ (n : Nat) (g : Uniform) (iv : List ℝ) (s : ℝ), g.a = 1 / 4 → g.b = 3 / 4 →
    ∃ r : Nat → ℝ, ∃ g', fillRand n g iv s = (iv ++ tab n r, s + ∑ i ∈ range n, r i, g') ∧
      g'.a = 1 / 4 ∧ g'.b = 3 / 4 ∧ ∀ i, i < n → 0 < r i := by
  intro n
  induction n with
  | zero => intro g iv s ha hb; exact ⟨fun _ => 0, g, by simp [fillRand, tab], ha, hb, by simp⟩
  | succ n ih =>
    intro g iv s ha hb
    obtain ⟨r, g', e, h1, h2, h3⟩ := ih g.getDouble.2 (iv ++ [g.getDouble.1]) (s + g.getDouble.1) ha hb
    have hp : 0 < g.getDouble.1 := by
      have := (getDouble_range g (by rw [ha, hb]; norm_num)).1
      rw [ha] at this
      linarith
    refine ⟨fun i => if i = 0 then g.getDouble.1 else r (i - 1), g', ?_, h1, h2, ?_⟩
    · rw [fillRand]
      show fillRand n g.getDouble.2 (iv ++ [g.getDouble.1]) (s + g.getDouble.1) = _
      rw [e, tab_cons, Finset.sum_range_succ']
      simp only [if_true, Nat.add_sub_cancel, Nat.add_one_ne_zero, if_false, List.append_assoc,
        List.singleton_append]
      congr 2
      ring
    · intro i hi
      dsimp only
      split
      · exact hp
      · exact h3 _ (by omega)

theorem startLoop_ok {K M N : Nat} (hK : 0 < K) (hM : 0 < M) (hN : 0 < N) : ∀ (n k : Nat) (g : Uniform) (s : Plsi)
    (vf : Nat → Nat → ℝ), k + n = K → g.a = 1 / 4 → g.b = 3 / 4 →
    s.z = tab k (fun _ => (1 : ℝ) / K) →
    s.userZ = tab K (fun j => if j < k then tab M (fun _ => (1 : ℝ) / M) else []) →
    s.itemZ = tab K (fun j => if j < k then tab N (vf j) else []) →
    (∀ j, j < k → (∀ i, i < N → 0 < vf j i) ∧ ∑ i ∈ range N, vf j i = 1) →
    ∃ s' vf', startLoop K M N n k g s = .ok s' ∧ s'.users = s.users ∧ s'.userlist = s.userlist ∧
      s'.items = s.items ∧ s'.itemlist = s.itemlist ∧ s'.matrix = s.matrix ∧
      Sh s' K M N (fun _ => 1 / K) (fun _ _ => 1 / M) vf' ∧
      ∀ j, j < K → (∀ i, i < N → 0 < vf' j i) ∧ ∑ i ∈ range N, vf' j i = 1 := by
  intro n
  induction n with
  | zero =>
    intro k g s vf h _ _ hz hu hv hr
    have : k = K := by omega
    subst this
    refine ⟨s, vf, rfl, rfl, rfl, rfl, rfl, rfl, ⟨hz, ?_, ?_⟩, hr⟩
    · rw [hu]; apply tab_congr; intro j hj; rw [if_pos hj]
    · rw [hv]; apply tab_congr; intro j hj; rw [if_pos hj]
  | succ n ih =>
    intro k g s vf h ha hb hz hu hv hr
    have hk : k < K := by omega
    have hK' : (K : ℝ) ≠ 0 := by exact_mod_cast hK.ne'
    have hM' : (M : ℝ) ≠ 0 := by exact_mod_cast hM.ne'
    obtain ⟨r, g', er, ha', hb', hrp⟩ := fillRand_ok N g [] 0 ha hb
    have hs : 0 < ∑ i ∈ range N, r i :=
      Finset.sum_pos (fun i hi => hrp i (Finset.mem_range.1 hi)) ⟨0, Finset.mem_range.2 hN⟩
    rw [startLoop, fdiv_ok hK', Res.ok_bind, hu, at_tab hk, Res.ok_bind, fillUser, if_neg hM.ne', fdiv_ok hM']
    simp only [Res.ok_bind, Res.pure_eq]
    rw [if_neg (Nat.lt_irrefl k), List.nil_append, rep_tab, put_tab _ hk, Res.ok_bind, hv, at_tab hk, Res.ok_bind,
      if_neg (Nat.lt_irrefl k), er]
    simp only [List.nil_append, zero_add]
    rw [normRow_ok _ hs.ne' N N 0 r (by omega), Res.ok_bind]
    simp only [Nat.zero_le, if_true]
    rw [put_tab _ hk, Res.ok_bind, hz]
    obtain ⟨s', vf', e, h1, h2, h3, h4, h5, H, hr'⟩ := ih (k + 1) g'
      { s with z := tab k (fun _ => (1 : ℝ) / K) ++ [1 / (K : ℝ)],
               userZ := tab K fun j => if j = k then tab M fun _ => (1 : ℝ) / M else
                 if j < k then tab M (fun _ => (1 : ℝ) / M) else [],
               itemZ := tab K fun j => if j = k then tab N fun i => r i / ∑ i ∈ range N, r i else
                 if j < k then tab N (vf j) else [] }
      (fun j => if j = k then fun i => r i / ∑ i ∈ range N, r i else vf j) (by omega) ha' hb'
      (by simp [tab, List.range_succ])
      (by
        apply tab_congr
        intro j hj
        by_cases e : j = k
        · simp [e]
        · by_cases e2 : j < k
          · simp [e, e2, show j < k + 1 by omega]
          · simp [e, e2, show ¬ j < k + 1 by omega])
      (by
        apply tab_congr
        intro j hj
        by_cases e : j = k
        · simp [e]
        · by_cases e2 : j < k
          · simp [e, e2, show j < k + 1 by omega]
          · simp [e, e2, show ¬ j < k + 1 by omega])
      (by
        intro j hj
        by_cases e : j = k
        · subst e
          simp only [if_true]
          refine ⟨fun i hi => div_pos (hrp i hi) hs, ?_⟩
          rw [← Finset.sum_div, div_self hs.ne']
        · simp only [e, if_false]
          exact hr j (by omega))
    exact ⟨s', vf', e, h1, h2, h3, h4, h5, H, hr'⟩

theorem start_ok {s : Plsi} {K : Nat} (hK : 0 < K) (hz : s.z = []) (hu : s.userZ = []) (hv : s.itemZ = [])
    (hM : 0 < s.users.length) (hN : 0 < s.items.length) :
    ∃ s' vf', startLearning s K = .ok s' ∧ s'.users = s.users ∧ s'.userlist = s.userlist ∧
      s'.items = s.items ∧ s'.itemlist = s.itemlist ∧ s'.matrix = s.matrix ∧
      Sh s' K s.users.length s.items.length (fun _ => 1 / K) (fun _ _ => 1 / s.users.length) vf' ∧
      ∀ j, j < K → (∀ i, i < s.items.length → 0 < vf' j i) ∧ ∑ i ∈ range s.items.length, vf' j i = 1 := by
  unfold startLearning
  refine startLoop_ok hK hM hN K 0 (Uniform.make (1 / 4) (3 / 4) 0)
    { s with userZ := vresize [] K s.userZ, itemZ := vresize [] K s.itemZ } (fun _ _ => 0) (by omega) rfl rfl
    (by rw [hz]; rfl) ?_ ?_ (by intro j hj; omega)
  · simp [hu, vresize, rep_tab]
  · simp [hv, vresize, rep_tab]

/-! ## The queries -/

theorem rank_ok (score : Nat → Res ℝ) (f : Nat → ℝ) : ∀ (n i : Nat) (t : TopScore.Top ℝ Nat),
    (∀ j, j < n → score (i + j) = .ok (f (i + j))) →
    rank score n i t = TopScore.addAll t (tab n fun j => (f (i + j), i + j)) := by
  intro n
  induction n with
  | zero => intro i t _; simp [rank, tab, TopScore.addAll]
  | succ n ih =>
    intro i t h
    have h0 := h 0 (by omega)
    rw [Nat.add_zero] at h0
    rw [rank, h0, Res.ok_bind, tab_cons, TopScore.addAll]
    simp only [Nat.add_zero]
    congr 1
    funext t'
    rw [ih (i + 1) t' (fun j hj => by
      have := h (j + 1) (by omega)
      rw [show i + (j + 1) = i + 1 + j by omega] at this
      exact this)]
    congr 1
    apply tab_congr
    intro j _
    rw [show i + 1 + j = i + (j + 1) by omega]

/-- The table made by `rank`. -/
theorem rank_top {score : Nat → Res ℝ} {f : Nat → ℝ} {n top : Nat} (h : ∀ j, j < n → score j = .ok (f j))
    (h2 : 2 ≤ top) (h3 : top < 2 ^ 31) :
    ∃ t, rank score n 0 (TopScore.make (0, 0) top) = .ok t ∧
      Spec.TopScore.IsTop top (tab n fun j => (f j, j)) (TopScore.getTable (0, 0) t).2 := by
  rw [rank_ok score f n 0 _ (by simpa using h)]
  simp only [Nat.zero_add]
  obtain ⟨t, e, H, _⟩ := Props.TopScore.C50_best_partial ((0 : ℝ), 0) top h2 h3 (tab n fun j => (f j, j))
  exact ⟨t, e, H⟩

section

variable {s : Plsi} {K M N : Nat} {zf : Nat → ℝ} {uf vf : Nat → Nat → ℝ}

theorem pzx_ok (H : Sh s K M N zf uf vf) {u k : Nat} (hk : k < K) (hu : u < M) : pzx s u k = .ok (zf k * uf k u) := by
  rw [pzx, H.z, at_tab hk, Res.ok_bind, H.u, at2_tab hk hu, Res.ok_bind]
  rfl

theorem pzy_ok (H : Sh s K M N zf uf vf) {y k : Nat} (hk : k < K) (hy : y < N) : pzy s y k = .ok (zf k * vf k y) := by
  rw [pzy, H.z, at_tab hk, Res.ok_bind, H.v, at2_tab hk hy, Res.ok_bind]
  rfl

theorem Sh.len (H : Sh s K M N zf uf vf) : s.z.length = K := by rw [H.z]; simp

theorem itemScore_ok (H : Sh s K M N zf uf vf) {g : Nat → ℝ} {p : ℝ} (hp : p ≠ 0) {i : Nat} (hi : i < N) :
    itemScore s (tab K g) p i = .ok ((∑ k ∈ range K, vf k i * g k) / p) := by
  rw [itemScore, H.len, accum0 (g := fun k => vf k i * g k) (fun k hk => by
    rw [H.v, at2_tab hk hi, Res.ok_bind, at_tab hk]; rfl), Res.ok_bind]
  exact fdiv_ok hp

theorem posteriorScore_ok (H : Sh s K M N zf uf vf) {t i : Nat} (ht : t < N) (hi : i < N)
    (hp : ∑ k ∈ range K, zf k * vf k i ≠ 0) :
    posteriorScore s t i = .ok ((∑ k ∈ range K, vf k t * (zf k * vf k i)) / ∑ k ∈ range K, zf k * vf k i) := by
  rw [posteriorScore, H.len, accum0 (g := fun k => zf k * vf k i) (fun k hk => pzy_ok H hk hi), Res.ok_bind]
  show (accum _ K 0 [] 0 >>= fun p => fdiv p.2 (∑ k ∈ range K, zf k * vf k i)) = _
  rw [accum0 (g := fun k => vf k t * (zf k * vf k i)) (fun k hk => by
    rw [H.v, at2_tab hk ht, Res.ok_bind, at_tab hk]; rfl), Res.ok_bind]
  exact fdiv_ok hp

theorem jointScore_ok (H : Sh s K M N zf uf vf) {t i : Nat} (ht : t < N) (hi : i < N) :
    jointScore s t i = .ok (∑ k ∈ range K, vf k i * vf k t * zf k) := by
  rw [jointScore, H.len, accum0 (g := fun k => vf k i * vf k t * zf k) (fun k hk => by
    rw [H.v, at2_tab hk hi, Res.ok_bind, at2_tab hk ht, Res.ok_bind, H.z, at_tab hk]; rfl), Res.ok_bind]
  rfl

/-- The observations seen by `perplexity`. -/
noncomputable def perpObs (s : Plsi) (px : List ℝ) : List (Nat × Nat) → Nat × ℝ → Res (Nat × ℝ)
  | [], acc => .ok acc
  | d :: ds, acc => do
    let acc ← perpRow s px d.2 [d.1] acc
    perpObs s px ds acc

theorem perpObs_append (px : List ℝ) (D E : List (Nat × Nat)) (a : Nat × ℝ) :
    perpObs s px (D ++ E) a = (perpObs s px D a >>= perpObs s px E) := by
  induction D generalizing a with
  | nil => rfl
  | cons d D ih =>
    simp only [List.cons_append, perpObs, bind_assoc]
    congr 1
    funext b
    exact ih b

theorem perpRow_eq (px : List ℝ) (y : Nat) (row : List Nat) (a : Nat × ℝ) :
    perpRow s px y row a = perpObs s px (row.map fun u => (u, y)) a := by
  induction row generalizing a with
  | nil => rfl
  | cons u row ih =>
    obtain ⟨c, l⟩ := a
    rw [List.map_cons, perpObs, perpRow, perpRow]
    split
    · rfl
    · simp only [bind_assoc, perpRow, Res.ok_bind]
      congr 1; funext p
      congr 1; funext q
      congr 1; funext q
      congr 1; funext q
      exact ih _

theorem perpRows_eq (px : List ℝ) (rows : List (List Nat)) (y : Nat) (a : Nat × ℝ) :
    perpRows s px rows y a = perpObs s px (obsFrom y rows) a := by
  induction rows generalizing y a with
  | nil => rfl
  | cons row rows ih =>
    simp only [perpRows, obsFrom, perpObs_append, perpRow_eq]
    congr 1
    funext b
    exact ih (y + 1) b

theorem perpObs_ok (H : Sh s K M N zf uf vf) (hK : 0 < K) (px : Nat → ℝ) : ∀ (D : List (Nat × Nat)),
    Pos K M N zf uf vf D → (∀ d ∈ D, 0 < px d.1) → ∀ (c : Nat) (l : ℝ), c + D.length < 2 ^ 31 →
    perpObs s (tab M px) D (c, l) = .ok (c + D.length,
      l + (D.map fun d => Real.log ((∑ k ∈ range K, zf k * uf k d.1 * vf k d.2) / px d.1)).sum) := by
  intro D
  induction D with
  | nil => intro _ _ c l _; simp [perpObs]
  | cons d D ih =>
    intro P hx c l hc
    rw [List.length_cons] at hc
    have hd : d ∈ d :: D := List.mem_cons_self ..
    have hpd := hx d hd
    have hj : 0 < ∑ k ∈ range K, zf k * uf k d.1 * vf k d.2 :=
      Finset.sum_pos (fun k hk => P.base (Finset.mem_range.1 hk) hd) ⟨0, Finset.mem_range.2 hK⟩
    rw [perpObs, perpRow, if_neg (by omega), H.len,
      accum0 (fun k hk => pzxy_ok H hk (P.inU d hd) (P.inV d hd)), Res.ok_bind]
    dsimp only
    rw [at_tab (P.inU d hd), Res.ok_bind, fdiv_ok hpd.ne', Res.ok_bind, flog_ok (div_pos hj hpd), Res.ok_bind,
      perpRow, Res.ok_bind, ih (P.mono fun x hx => List.mem_cons_of_mem _ hx) (fun e he => hx e (by simp [he])) _ _
      (by omega)]
    simp only [List.map_cons, List.sum_cons, List.length_cons, add_assoc, Nat.add_comm 1]

end

/-! ## Accesses outside -/

theorem accum_ub (f : Nat → Res ℝ) (hf : ∀ i, f i ≠ .throw) : ∀ (n k : Nat) (ps : List ℝ) (sum : ℝ) (i : Nat),
    i < n → f (k + i) = .ub → accum f n k ps sum = .ub := by
  intro n
  induction n with
  | zero => intro k ps sum i h; omega
  | succ n ih =>
    intro k ps sum i hi hu
    rw [accum]
    cases e : f k with
    | throw => exact absurd e (hf k)
    | ub => rfl
    | ok p =>
      rw [Res.ok_bind]
      cases i with
      | zero => rw [Nat.add_zero, e] at hu; cases hu
      | succ i => exact ih (k + 1) _ _ i (by omega) (by rw [show k + 1 + i = k + (i + 1) by omega]; exact hu)

theorem at_nt {α : Type} (l : List α) (i : Nat) : at? l i ≠ .throw := by
  unfold at?; split <;> simp

theorem at_ub {α : Type} {l : List α} {i : Nat} (h : l.length ≤ i) : at? l i = .ub := by
  unfold at?; rw [List.getElem?_eq_none h]

theorem at2_nt (v : List (List ℝ)) (k i : Nat) : at2? v k i ≠ .throw := by
  unfold at2?
  cases e : at? v k with
  | throw => exact absurd e (at_nt _ _)
  | ub => simp
  | ok r => rw [Res.ok_bind]; exact at_nt _ _

theorem bind_nt {α β : Type} {r : Res α} {f : α → Res β} (h : r ≠ .throw) (hf : ∀ a, f a ≠ .throw) :
    (r >>= f) ≠ .throw := by
  cases r with
  | throw => exact absurd rfl h
  | ub => simp
  | ok a => exact hf a

theorem fdiv_nt (x y : ℝ) : fdiv x y ≠ .throw := by unfold fdiv; split <;> simp
theorem flog_nt (x : ℝ) : flog x ≠ .throw := by unfold flog; split <;> simp
theorem fpow_nt (x y : ℝ) : fpow x y ≠ .throw := by unfold fpow; split <;> simp
theorem put_nt {α : Type} (l : List α) (i : Nat) (x : α) : putAt l i x ≠ .throw := by unfold putAt; split <;> simp

theorem pzxy_nt (s : Plsi) (u y k : Nat) : pzxy s u y k ≠ .throw :=
  bind_nt (at_nt _ _) fun _ => bind_nt (at2_nt _ _ _) fun _ => bind_nt (at2_nt _ _ _) fun _ => by simp

theorem pzx_nt (s : Plsi) (u k : Nat) : pzx s u k ≠ .throw :=
  bind_nt (at_nt _ _) fun _ => bind_nt (at2_nt _ _ _) fun _ => by simp

theorem pzy_nt (s : Plsi) (u k : Nat) : pzy s u k ≠ .throw :=
  bind_nt (at_nt _ _) fun _ => bind_nt (at2_nt _ _ _) fun _ => by simp

theorem normRow_nt (s : ℝ) : ∀ (n j : Nat) (iv : List ℝ), normRow s n j iv ≠ .throw
  | 0, _, _ => by simp [normRow]
  | n + 1, j, iv => bind_nt (at_nt _ _) fun _ => bind_nt (fdiv_nt _ _) fun _ => bind_nt (put_nt _ _ _) fun _ =>
      normRow_nt s n _ _

theorem fillUser_nt (M : Nat) (l : List ℝ) : fillUser M l ≠ .throw := by
  unfold fillUser
  split
  · simp
  · exact bind_nt (fdiv_nt _ _) fun _ => by simp

theorem put_len {α : Type} {l l' : List α} {i : Nat} {x : α} (h : putAt l i x = .ok l') : l'.length = l.length := by
  unfold putAt at h
  split at h
  · injection h with h; rw [← h]; simp
  · cases h

theorem startLoop_len (K M N : Nat) : ∀ (n k : Nat) (g : Uniform) (s : Plsi),
    startLoop K M N n k g s ≠ .throw ∧ ∀ s', startLoop K M N n k g s = .ok s' →
      s'.z.length = s.z.length + n ∧ s'.userZ.length = s.userZ.length ∧ s'.matrix = s.matrix := by
  intro n
  induction n with
  | zero => intro k g s; refine ⟨by simp [startLoop], ?_⟩; intro s' h; injection h with h; subst h; simp
  | succ n ih =>
    intro k g s
    rw [startLoop]
    constructor
    · exact bind_nt (fdiv_nt _ _) fun _ => bind_nt (at_nt _ _) fun _ => bind_nt (fillUser_nt _ _) fun _ =>
        bind_nt (put_nt _ _ _) fun _ => bind_nt (at_nt _ _) fun _ => bind_nt (normRow_nt _ _ _ _) fun _ =>
        bind_nt (put_nt _ _ _) fun _ => (ih _ _ _).1
    · intro s' h
      obtain ⟨_, _, h⟩ := Res.bind_eq_ok.1 h
      obtain ⟨_, _, h⟩ := Res.bind_eq_ok.1 h
      obtain ⟨_, _, h⟩ := Res.bind_eq_ok.1 h
      obtain ⟨uz, hu, h⟩ := Res.bind_eq_ok.1 h
      obtain ⟨_, _, h⟩ := Res.bind_eq_ok.1 h
      obtain ⟨_, _, h⟩ := Res.bind_eq_ok.1 h
      obtain ⟨_, _, h⟩ := Res.bind_eq_ok.1 h
      obtain ⟨h1, h2, h3⟩ := (ih _ _ _).2 s' h
      refine ⟨?_, ?_, h3⟩
      · rw [h1]; simp; omega
      · rw [h2]; exact put_len hu

theorem step_ub {s : Plsi} (hl : s.userZ.length < s.z.length) (hD : obs s ≠ []) (beta : ℝ) : step s beta = .ub := by
  rw [step, rowsLoop_eq]
  show (obsLoop s beta (obs s) _ >>= _) = _
  cases e : obs s with
  | nil => exact absurd e hD
  | cons d ds =>
    rw [obsLoop, observe]
    dsimp only
    rw [if_neg (by decide)]
    rw [accum_ub _ (fun i => bind_nt (pzxy_nt _ _ _ _) fun _ => fpow_nt _ _) _ 0 [] 0 s.userZ.length hl (by
      rw [Nat.zero_add]
      have : pzxy s d.1 d.2 s.userZ.length = .ub := by
        rw [pzxy]
        have ha : at2? s.userZ s.userZ.length d.1 = .ub := by rw [at2?, at_ub (Nat.le_refl _)]; rfl
        rw [ha]
        cases e : at? s.z s.userZ.length with
        | throw => exact absurd e (at_nt _ _)
        | ub => rfl
        | ok a => rfl
      rw [this]
      rfl)]
    rfl

end Verif.Plsi
