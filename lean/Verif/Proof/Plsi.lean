import Verif.Model.Plsi
import Verif.Spec.Plsi
import Verif.Proof.Em
import Mathlib.Algebra.BigOperators.Fin
set_option linter.unusedSimpArgs false

namespace Verif.Plsi

open Verif.Random Verif.Spec.Plsi Finset

/-! ## Lists as functions -/

def tab {α : Type} (n : Nat) (f : Nat → α) : List α := (List.range n).map f

@[simp] theorem tab_length {α : Type} (n : Nat) (f : Nat → α) : (tab n f).length = n := by simp [tab]

theorem tab_get {α : Type} (n : Nat) (f : Nat → α) (i : Nat) (h : i < n) : (tab n f)[i]? = some (f i) := by
  simp [tab, h]

theorem tab_congr {α : Type} {n : Nat} {f g : Nat → α} (h : ∀ i, i < n → f i = g i) : tab n f = tab n g := by
  unfold tab
  apply List.map_congr_left
  intro i hi
  exact h i (List.mem_range.1 hi)

theorem at_tab {α : Type} {n : Nat} {f : Nat → α} {i : Nat} (h : i < n) : at? (tab n f) i = .ok (f i) := by
  simp [at?, tab_get n f i h]

theorem set_tab {α : Type} {n : Nat} {f : Nat → α} {i : Nat} (x : α) :
    (tab n f).set i x = tab n (fun j => if j = i then x else f j) := by
  apply List.ext_getElem?
  intro j
  rw [List.getElem?_set]
  by_cases hj : j < n
  · rw [tab_get n _ j hj, tab_get n _ j hj]
    by_cases e : i = j
    · subst e; simp [hj]
    · simp [e, show ¬ j = i from fun h => e h.symm]
  · have h1 : ∀ g : Nat → α, (tab n g)[j]? = none := fun g => by simp; omega
    rw [h1, h1]
    simp only [tab_length]
    split <;> simp_all

theorem put_tab {α : Type} {n : Nat} {f : Nat → α} {i : Nat} (x : α) (h : i < n) :
    putAt (tab n f) i x = .ok (tab n (fun j => if j = i then x else f j)) := by
  simp [putAt, h, set_tab]

theorem rep_tab {α : Type} (n : Nat) (x : α) : List.replicate n x = tab n (fun _ => x) := by
  apply List.ext_getElem?
  intro j
  by_cases hj : j < n
  · rw [tab_get n _ j hj]; simp [hj]
  · simp [tab, hj]

theorem eq_tab {α : Type} (l : List α) (d : α) : l = tab l.length (fun i => l.getD i d) := by
  apply List.ext_getElem?
  intro j
  by_cases hj : j < l.length
  · rw [tab_get _ _ j hj]; simp [hj]
  · simp [tab, hj]

theorem tab_cons {α : Type} (n : Nat) (f : Nat → α) : tab (n + 1) f = f 0 :: tab n (fun i => f (i + 1)) := by
  simp [tab, List.range_succ_eq_map, Function.comp_def]

theorem tab_sum (n : Nat) (f : Nat → ℝ) : (tab n f).sum = ∑ i ∈ range n, f i := by
  induction n generalizing f with
  | zero => simp [tab]
  | succ n ih => rw [tab_cons, List.sum_cons, ih, Finset.sum_range_succ']; ring

theorem tab_getD {α : Type} (n : Nat) (f : Nat → α) (i : Nat) (d : α) (h : i < n) : (tab n f).getD i d = f i := by
  simp [List.getD, tab_get n f i h]

theorem mem_tab {α : Type} {n : Nat} {f : Nat → α} {x : α} : x ∈ tab n f ↔ ∃ i, i < n ∧ f i = x := by
  simp [tab]

/-! ## The simple loops -/

theorem accum_ok (f : Nat → Res ℝ) (g : Nat → ℝ) : ∀ (n k : Nat) (ps : List ℝ) (sum : ℝ),
    (∀ i, i < n → f (k + i) = .ok (g (k + i))) →
    accum f n k ps sum = .ok (ps ++ tab n (fun i => g (k + i)), sum + ∑ i ∈ range n, g (k + i)) := by
  intro n
  induction n with
  | zero => intro k ps sum _; simp [accum, tab]
  | succ n ih =>
    intro k ps sum h
    have h0 := h 0 (by omega)
    rw [Nat.add_zero] at h0
    rw [accum, h0, Res.ok_bind, ih (k + 1) _ _ (fun i hi => by
      have := h (i + 1) (by omega)
      rw [show k + (i + 1) = k + 1 + i by omega] at this
      exact this)]
    rw [tab_cons, Finset.sum_range_succ']
    simp only [Nat.add_zero, List.append_assoc, List.singleton_append, List.cons_append, List.nil_append]
    have e : ∀ i, k + 1 + i = k + (i + 1) := fun i => by omega
    simp only [e]
    congr 2
    ring

theorem accum0 {f : Nat → Res ℝ} {g : Nat → ℝ} {n : Nat} (h : ∀ i, i < n → f i = .ok (g i)) :
    accum f n 0 [] 0 = .ok (tab n g, ∑ i ∈ range n, g i) := by
  rw [accum_ok f g n 0 [] 0 (by simpa using h)]
  simp

theorem fdiv_ok {x y : ℝ} (h : y ≠ 0) : fdiv x y = .ok (x / y) := by simp [fdiv, h]
theorem flog_ok {x : ℝ} (h : 0 < x) : flog x = .ok (Real.log x) := by simp [flog, h]
theorem fpow_ok {x y : ℝ} (h : 0 < x) : fpow x y = .ok (x ^ y) := by simp [fpow, h]

theorem at2_tab {K M : Nat} {F : Nat → Nat → ℝ} {k u : Nat} (hk : k < K) (hu : u < M) :
    at2? (tab K fun k => tab M (F k)) k u = .ok (F k u) := by
  rw [at2?, at_tab hk, Res.ok_bind, at_tab hu]

theorem bump_tab {K M : Nat} {F : Nat → Nat → ℝ} {k u : Nat} (p : ℝ) (hk : k < K) (hu : u < M) :
    bump (tab K fun k => tab M (F k)) k u p =
      .ok (tab K fun j => tab M fun a => F j a + if j = k ∧ a = u then p else 0) := by
  rw [bump, at_tab hk, Res.ok_bind, at_tab hu, Res.ok_bind, put_tab _ hk, set_tab]
  congr 1
  apply tab_congr
  intro j _
  by_cases e : j = k
  · subst e
    simp only [if_pos, true_and]
    apply tab_congr
    intro a _
    by_cases e2 : a = u
    · subst e2; simp
    · simp [e2]
  · simp [e]

theorem updRow_ok (f : Nat → ℝ) (d : ℝ) (hd : d ≠ 0) (M : Nat) : ∀ (n i : Nat) (r : Nat → ℝ), i + n = M →
    updRow (tab M f) d n i (tab M r) = .ok (tab M fun j => if i ≤ j then f j / d else r j) := by
  intro n
  induction n with
  | zero =>
    intro i r h
    rw [updRow]
    congr 1
    apply tab_congr
    intro j hj
    rw [if_neg (by omega)]
  | succ n ih =>
    intro i r h
    rw [updRow, at_tab (by omega), Res.ok_bind, fdiv_ok hd, Res.ok_bind, put_tab _ (by omega), Res.ok_bind,
      ih (i + 1) _ (by omega)]
    congr 1
    apply tab_congr
    intro j hj
    by_cases e : j = i
    · subst e; rw [if_neg (by omega), if_pos rfl, if_pos (Nat.le_refl _)]
    · by_cases e2 : i + 1 ≤ j
      · rw [if_pos e2, if_pos (by omega)]
      · rw [if_neg e2, if_neg e, if_neg (by omega)]

theorem updRow0 {f r : Nat → ℝ} {d : ℝ} (hd : d ≠ 0) {M : Nat} :
    updRow (tab M f) d M 0 (tab M r) = .ok (tab M fun j => f j / d) := by
  rw [updRow_ok f d hd M M 0 r (by omega)]
  simp

theorem normRow_ok (s : ℝ) (hs : s ≠ 0) (N : Nat) : ∀ (n j : Nat) (f : Nat → ℝ), j + n = N →
    normRow s n j (tab N f) = .ok (tab N fun i => if j ≤ i then f i / s else f i) := by
  intro n
  induction n with
  | zero =>
    intro i r h
    rw [normRow]
    congr 1
    apply tab_congr
    intro j hj
    rw [if_neg (by omega)]
  | succ n ih =>
    intro i r h
    rw [normRow, at_tab (by omega), Res.ok_bind, fdiv_ok hs, Res.ok_bind, put_tab _ (by omega), Res.ok_bind,
      ih (i + 1) _ (by omega)]
    congr 1
    apply tab_congr
    intro j hj
    by_cases e : j = i
    · subst e; rw [if_neg (by omega), if_pos rfl, if_pos (Nat.le_refl _)]
    · by_cases e2 : i + 1 ≤ j
      · rw [if_pos e2, if_neg e, if_pos (by omega)]
      · rw [if_neg e2, if_neg e, if_neg (by omega)]

/-! ## `step` in closed form -/

/-- The local variables of `step` given by functions. -/
noncomputable def accOf (K M N : Nat) (Z : Nat → ℝ) (A B : Nat → Nat → ℝ) (d : Nat) (l : ℝ) : Acc :=
  ⟨tab K Z, tab K fun k => tab M (A k), tab K fun k => tab N (B k), d, l⟩

theorem mLoop_ok (K M N : Nat) (g : Nat → ℝ) (sum : ℝ) (hs : sum ≠ 0) (u y : Nat) (hu : u < M) (hy : y < N)
    (d : Nat) (l : ℝ) : ∀ (n k : Nat) (Z : Nat → ℝ) (A B : Nat → Nat → ℝ), k + n = K →
    mLoop (tab K g) sum u y n k (accOf K M N Z A B d l) = .ok (accOf K M N
      (fun j => Z j + if k ≤ j then g j / sum else 0)
      (fun j a => A j a + if k ≤ j ∧ a = u then g j / sum else 0)
      (fun j a => B j a + if k ≤ j ∧ a = y then g j / sum else 0) d l) := by
  intro n
  induction n with
  | zero =>
    intro k Z A B h
    rw [mLoop]
    congr 1
    unfold accOf
    congr 1
    · apply tab_congr; intro j hj; rw [if_neg (by omega), add_zero]
    · apply tab_congr; intro j hj; apply tab_congr; intro a _; dsimp only; rw [if_neg (by omega), add_zero]
    · apply tab_congr; intro j hj; apply tab_congr; intro a _; dsimp only; rw [if_neg (by omega), add_zero]
  | succ n ih =>
    intro k Z A B h
    have hk : k < K := by omega
    rw [mLoop, at_tab hk, Res.ok_bind, fdiv_ok hs, Res.ok_bind]
    simp only [accOf]
    rw [bump_tab _ hk hu, Res.ok_bind, bump_tab _ hk hy, Res.ok_bind, at_tab hk, Res.ok_bind, put_tab _ hk,
      Res.ok_bind]
    have := ih (k + 1) (fun j => if j = k then Z k + g k / sum else Z j)
      (fun j a => A j a + if j = k ∧ a = u then g k / sum else 0)
      (fun j a => B j a + if j = k ∧ a = y then g k / sum else 0) (by omega)
    unfold accOf at this
    rw [this]
    congr 1
    congr 1
    · apply tab_congr
      intro j hj
      by_cases e : j = k
      · subst e; rw [if_pos rfl, if_neg (by omega), if_pos (Nat.le_refl _), add_zero]
      · rw [if_neg e]
        by_cases e2 : k + 1 ≤ j
        · rw [if_pos e2, if_pos (by omega)]
        · rw [if_neg e2, if_neg (by omega)]
    · apply tab_congr
      intro j hj
      apply tab_congr
      intro a _
      by_cases e : j = k
      · subst e
        by_cases e3 : a = u
        · simp [e3]
        · simp [e3]
      · by_cases e2 : k + 1 ≤ j
        · simp [e, e2, show k ≤ j by omega]
        · simp [e, e2, show ¬ k ≤ j by omega]
    · apply tab_congr
      intro j hj
      apply tab_congr
      intro a _
      by_cases e : j = k
      · subst e
        by_cases e3 : a = y
        · simp [e3]
        · simp [e3]
      · by_cases e2 : k + 1 ≤ j
        · simp [e, e2, show k ≤ j by omega]
        · simp [e, e2, show ¬ k ≤ j by omega]

/-- The parameters of the state as functions. -/
structure Sh (s : Plsi) (K M N : Nat) (zf : Nat → ℝ) (uf vf : Nat → Nat → ℝ) : Prop where
  z : s.z = tab K zf
  u : s.userZ = tab K fun k => tab M (uf k)
  v : s.itemZ = tab K fun k => tab N (vf k)

theorem pzxy_ok {s : Plsi} {K M N : Nat} {zf : Nat → ℝ} {uf vf : Nat → Nat → ℝ} (H : Sh s K M N zf uf vf)
    {u y k : Nat} (hk : k < K) (hu : u < M) (hy : y < N) :
    pzxy s u y k = .ok (zf k * uf k u * vf k y) := by
  rw [pzxy, H.z, at_tab hk, Res.ok_bind, H.u, at2_tab hk hu, Res.ok_bind, H.v, at2_tab hk hy, Res.ok_bind]
  rfl

/-- The (tempered) weight of class `k` for an observation. -/
noncomputable def wt (zf : Nat → ℝ) (uf vf : Nat → Nat → ℝ) (beta : ℝ) (d : Nat × Nat) (k : Nat) : ℝ :=
  (zf k * uf k d.1 * vf k d.2) ^ beta

noncomputable def tot (K : Nat) (zf : Nat → ℝ) (uf vf : Nat → Nat → ℝ) (beta : ℝ) (d : Nat × Nat) : ℝ :=
  ∑ k ∈ range K, wt zf uf vf beta d k

noncomputable def post (K : Nat) (zf : Nat → ℝ) (uf vf : Nat → Nat → ℝ) (beta : ℝ) (k : Nat) (d : Nat × Nat) : ℝ :=
  wt zf uf vf beta d k / tot K zf uf vf beta d

/-- All observations are inside and have positive weights. -/
structure Pos (K M N : Nat) (zf : Nat → ℝ) (uf vf : Nat → Nat → ℝ) (D : List (Nat × Nat)) : Prop where
  inU : ∀ d ∈ D, d.1 < M
  inV : ∀ d ∈ D, d.2 < N
  z : ∀ k, k < K → 0 < zf k
  u : ∀ k, k < K → ∀ d ∈ D, 0 < uf k d.1
  v : ∀ k, k < K → ∀ d ∈ D, 0 < vf k d.2

theorem Pos.mono {K M N : Nat} {zf : Nat → ℝ} {uf vf : Nat → Nat → ℝ} {D D' : List (Nat × Nat)}
    (H : Pos K M N zf uf vf D) (h : ∀ d ∈ D', d ∈ D) : Pos K M N zf uf vf D' :=
  ⟨fun d hd => H.inU d (h d hd), fun d hd => H.inV d (h d hd), H.z, fun k hk d hd => H.u k hk d (h d hd),
    fun k hk d hd => H.v k hk d (h d hd)⟩

theorem Pos.base {K M N : Nat} {zf : Nat → ℝ} {uf vf : Nat → Nat → ℝ} {D : List (Nat × Nat)}
    (H : Pos K M N zf uf vf D) {k : Nat} (hk : k < K) {d : Nat × Nat} (hd : d ∈ D) :
    0 < zf k * uf k d.1 * vf k d.2 := mul_pos (mul_pos (H.z k hk) (H.u k hk d hd)) (H.v k hk d hd)

theorem Pos.wt {K M N : Nat} {zf : Nat → ℝ} {uf vf : Nat → Nat → ℝ} {D : List (Nat × Nat)}
    (H : Pos K M N zf uf vf D) (beta : ℝ) {k : Nat} (hk : k < K) {d : Nat × Nat} (hd : d ∈ D) :
    0 < wt zf uf vf beta d k := Real.rpow_pos_of_pos (H.base hk hd) _

theorem Pos.tot {K M N : Nat} {zf : Nat → ℝ} {uf vf : Nat → Nat → ℝ} {D : List (Nat × Nat)}
    (H : Pos K M N zf uf vf D) (beta : ℝ) (hK : 0 < K) {d : Nat × Nat} (hd : d ∈ D) :
    0 < tot K zf uf vf beta d :=
  Finset.sum_pos (fun k hk => H.wt beta (Finset.mem_range.1 hk) hd) ⟨0, Finset.mem_range.2 hK⟩

theorem Pos.post {K M N : Nat} {zf : Nat → ℝ} {uf vf : Nat → Nat → ℝ} {D : List (Nat × Nat)}
    (H : Pos K M N zf uf vf D) (beta : ℝ) {k : Nat} (hk : k < K) {d : Nat × Nat} (hd : d ∈ D) :
    0 < post K zf uf vf beta k d := div_pos (H.wt beta hk hd) (H.tot beta (by omega) hd)

theorem observe_ok {s : Plsi} {K M N : Nat} {zf : Nat → ℝ} {uf vf : Nat → Nat → ℝ} (H : Sh s K M N zf uf vf)
    (beta : ℝ) (d : Nat × Nat) (P : Pos K M N zf uf vf [d]) (hK : 0 < K) (Z : Nat → ℝ) (A B : Nat → Nat → ℝ)
    (c : Nat) (l : ℝ) (hc : c + 1 < 2 ^ 31) :
    observe s beta d.2 d.1 (accOf K M N Z A B c l) = .ok (accOf K M N
      (fun j => Z j + post K zf uf vf beta j d)
      (fun j a => A j a + if d.1 = a then post K zf uf vf beta j d else 0)
      (fun j a => B j a + if d.2 = a then post K zf uf vf beta j d else 0)
      (c + 1) (l + Real.log (tot K zf uf vf beta d))) := by
  have hd : d ∈ [d] := List.mem_singleton.2 rfl
  have hlen : s.z.length = K := by rw [H.z]; simp
  rw [observe, if_neg (show ¬ (accOf K M N Z A B c l).denom + 1 ≥ 2 ^ 31 by simp [accOf]; omega)]
  rw [hlen, accum0 (g := fun k => wt zf uf vf beta d k) (fun k hk => by
    rw [pzxy_ok H hk (P.inU d hd) (P.inV d hd), Res.ok_bind, fpow_ok (P.base hk hd)]; rfl), Res.ok_bind]
  have hm := mLoop_ok K M N (fun k => wt zf uf vf beta d k) (tot K zf uf vf beta d) (P.tot beta hK hd).ne'
    d.1 d.2 (P.inU d hd) (P.inV d hd) (c + 1) l K 0 Z A B (by omega)
  have e1 : ({ accOf K M N Z A B c l with denom := (accOf K M N Z A B c l).denom + 1 } : Acc) =
      accOf K M N Z A B (c + 1) l := rfl
  rw [e1]
  show (mLoop (tab K fun k => wt zf uf vf beta d k) (tot K zf uf vf beta d) d.1 d.2 K 0
    (accOf K M N Z A B (c + 1) l) >>= fun a => flog (tot K zf uf vf beta d) >>= fun l =>
      Res.ok { a with lik := a.lik + l }) = _
  rw [hm, Res.ok_bind, flog_ok (P.tot beta hK hd), Res.ok_bind]
  congr 1
  unfold accOf post
  simp only [Nat.zero_le, if_true, true_and, eq_comm (a := d.1), eq_comm (a := d.2)]

/-- The loop over all observations. -/
noncomputable def obsLoop (s : Plsi) (beta : ℝ) : List (Nat × Nat) → Acc → Res Acc
  | [], a => .ok a
  | d :: ds, a => do
    let a ← observe s beta d.2 d.1 a
    obsLoop s beta ds a

theorem obsLoop_append (s : Plsi) (beta : ℝ) (D E : List (Nat × Nat)) (a : Acc) :
    obsLoop s beta (D ++ E) a = (obsLoop s beta D a >>= obsLoop s beta E) := by
  induction D generalizing a with
  | nil => rfl
  | cons d D ih =>
    simp only [List.cons_append, obsLoop, bind_assoc]
    congr 1
    funext b
    exact ih b

theorem rowLoop_eq (s : Plsi) (beta : ℝ) (y : Nat) (row : List Nat) (a : Acc) :
    rowLoop s beta y row a = obsLoop s beta (row.map fun u => (u, y)) a := by
  induction row generalizing a with
  | nil => rfl
  | cons u row ih =>
    simp only [rowLoop, List.map_cons, obsLoop]
    congr 1
    funext b
    exact ih b

theorem rowsLoop_eq (s : Plsi) (beta : ℝ) (rows : List (List Nat)) (y : Nat) (a : Acc) :
    rowsLoop s beta rows y a = obsLoop s beta (obsFrom y rows) a := by
  induction rows generalizing y a with
  | nil => rfl
  | cons row rows ih =>
    simp only [rowsLoop, obsFrom, obsLoop_append, rowLoop_eq]
    congr 1
    funext b
    exact ih (y + 1) b

theorem obsLoop_ok {s : Plsi} {K M N : Nat} {zf : Nat → ℝ} {uf vf : Nat → Nat → ℝ} (H : Sh s K M N zf uf vf)
    (beta : ℝ) (hK : 0 < K) : ∀ (D : List (Nat × Nat)), Pos K M N zf uf vf D →
    ∀ (Z : Nat → ℝ) (A B : Nat → Nat → ℝ) (c : Nat) (l : ℝ), c + D.length < 2 ^ 31 →
    obsLoop s beta D (accOf K M N Z A B c l) = .ok (accOf K M N
      (fun j => Z j + (D.map fun d => post K zf uf vf beta j d).sum)
      (fun j a => A j a + (D.map fun d => if d.1 = a then post K zf uf vf beta j d else 0).sum)
      (fun j a => B j a + (D.map fun d => if d.2 = a then post K zf uf vf beta j d else 0).sum)
      (c + D.length) (l + (D.map fun d => Real.log (tot K zf uf vf beta d)).sum)) := by
  intro D
  induction D with
  | nil => intro _ Z A B c l _; simp [obsLoop, accOf]
  | cons d D ih =>
    intro P Z A B c l hc
    rw [List.length_cons] at hc
    rw [obsLoop, observe_ok H beta d (P.mono (by simp)) hK _ _ _ _ _ (by omega), Res.ok_bind,
      ih (P.mono (fun x hx => List.mem_cons_of_mem _ hx)) _ _ _ _ _ (by omega)]
    simp only [List.map_cons, List.sum_cons, List.length_cons, add_assoc, Nat.add_comm 1]

theorem updLoop_ok {K M N : Nat} {Z : Nat → ℝ} {A B : Nat → Nat → ℝ} {c : Nat} {l : ℝ} (hc : (c : ℝ) ≠ 0)
    (hZ : ∀ k, k < K → Z k ≠ 0) : ∀ (n k : Nat) (s : Plsi) (zf : Nat → ℝ) (uf vf : Nat → Nat → ℝ), k + n = K →
    Sh s K M N zf uf vf → s.users.length = M → s.items.length = N →
    ∃ s', updLoop (accOf K M N Z A B c l) n k s = .ok s' ∧ s'.users = s.users ∧ s'.userlist = s.userlist ∧
      s'.items = s.items ∧ s'.itemlist = s.itemlist ∧ s'.matrix = s.matrix ∧
      Sh s' K M N (fun j => if k ≤ j then Z j / c else zf j) (fun j a => if k ≤ j then A j a / Z j else uf j a)
        (fun j a => if k ≤ j then B j a / Z j else vf j a) := by
  intro n
  induction n with
  | zero =>
    intro k s zf uf vf h H _ _
    refine ⟨s, rfl, rfl, rfl, rfl, rfl, rfl, ?_, ?_, ?_⟩
    · rw [H.z]; apply tab_congr; intro j hj; rw [if_neg (by omega)]
    · rw [H.u]; apply tab_congr; intro j hj; apply tab_congr; intro a _; rw [if_neg (by omega)]
    · rw [H.v]; apply tab_congr; intro j hj; apply tab_congr; intro a _; rw [if_neg (by omega)]
  | succ n ih =>
    intro k s zf uf vf h H hM hN
    have hk : k < K := by omega
    rw [updLoop]
    simp only [accOf]
    rw [at_tab hk, Res.ok_bind, fdiv_ok hc, Res.ok_bind, H.z, put_tab _ hk, Res.ok_bind, at_tab hk, Res.ok_bind,
      H.v, at_tab hk, Res.ok_bind, hN, updRow0 (hZ k hk), Res.ok_bind, put_tab _ hk, Res.ok_bind, at_tab hk,
      Res.ok_bind, H.u, at_tab hk, Res.ok_bind, hM, updRow0 (hZ k hk), Res.ok_bind, put_tab _ hk, Res.ok_bind]
    obtain ⟨s', e, h1, h2, h3, h4, h5, H'⟩ := ih (k + 1)
      { s with z := tab K fun j => if j = k then Z k / c else zf j,
               itemZ := tab K fun j => if j = k then tab N fun a => B k a / Z k else tab N (vf j),
               userZ := tab K fun j => if j = k then tab M fun a => A k a / Z k else tab M (uf j) }
      (fun j => if j = k then Z k / c else zf j) (fun j a => if j = k then A k a / Z k else uf j a)
      (fun j a => if j = k then B k a / Z k else vf j a) (by omega)
      ⟨rfl, by apply tab_congr; intro j _; by_cases e : j = k <;> simp [e],
        by apply tab_congr; intro j _; by_cases e : j = k <;> simp [e]⟩ hM hN
    refine ⟨s', e, h1, h2, h3, h4, h5, ?_, ?_, ?_⟩
    · rw [H'.z]
      apply tab_congr
      intro j hj
      by_cases e : j = k
      · subst e; simp
      · by_cases e2 : k + 1 ≤ j
        · simp [e2, show k ≤ j by omega]
        · simp [e, e2, show ¬ k ≤ j by omega]
    · rw [H'.u]
      apply tab_congr
      intro j hj
      apply tab_congr
      intro a _
      by_cases e : j = k
      · subst e; simp
      · by_cases e2 : k + 1 ≤ j
        · simp [e2, show k ≤ j by omega]
        · simp [e, e2, show ¬ k ≤ j by omega]
    · rw [H'.v]
      apply tab_congr
      intro j hj
      apply tab_congr
      intro a _
      by_cases e : j = k
      · subst e; simp
      · by_cases e2 : k + 1 ≤ j
        · simp [e2, show k ≤ j by omega]
        · simp [e, e2, show ¬ k ≤ j by omega]

/-! ## `step` as a whole -/

/-- The observations of the object. -/
def obs (s : Plsi) : List (Nat × Nat) := obsFrom 0 s.matrix

noncomputable def T (K : Nat) (zf : Nat → ℝ) (uf vf : Nat → Nat → ℝ) (beta : ℝ) (D : List (Nat × Nat)) (k : Nat) : ℝ :=
  (D.map fun d => post K zf uf vf beta k d).sum

noncomputable def TU (K : Nat) (zf : Nat → ℝ) (uf vf : Nat → Nat → ℝ) (beta : ℝ) (D : List (Nat × Nat)) (k a : Nat) : ℝ :=
  (D.map fun d => if d.1 = a then post K zf uf vf beta k d else 0).sum

noncomputable def TV (K : Nat) (zf : Nat → ℝ) (uf vf : Nat → Nat → ℝ) (beta : ℝ) (D : List (Nat × Nat)) (k a : Nat) : ℝ :=
  (D.map fun d => if d.2 = a then post K zf uf vf beta k d else 0).sum

theorem sum_pos_of {D : List (Nat × Nat)} (hD : D ≠ []) {f : Nat × Nat → ℝ} (h : ∀ d ∈ D, 0 < f d) :
    0 < (D.map f).sum := by
  cases D with
  | nil => exact absurd rfl hD
  | cons d D =>
    rw [List.map_cons, List.sum_cons]
    have h1 := h d (by simp)
    have h2 : 0 ≤ (D.map f).sum := by
      apply List.sum_nonneg
      intro x hx
      obtain ⟨e, he, rfl⟩ := List.mem_map.1 hx
      exact (h e (by simp [he])).le
    linarith

theorem Pos.T {K M N : Nat} {zf : Nat → ℝ} {uf vf : Nat → Nat → ℝ} {D : List (Nat × Nat)}
    (H : Pos K M N zf uf vf D) (beta : ℝ) {k : Nat} (hk : k < K) (hD : D ≠ []) : 0 < T K zf uf vf beta D k :=
  sum_pos_of hD fun _ hd => H.post beta hk hd

theorem step_closed {s : Plsi} {K M N : Nat} {zf : Nat → ℝ} {uf vf : Nat → Nat → ℝ} (H : Sh s K M N zf uf vf)
    (beta : ℝ) (hK : 0 < K) (hD : obs s ≠ []) (hl : (obs s).length < 2 ^ 31) (P : Pos K M N zf uf vf (obs s))
    (hM : s.users.length = M) (hN : s.items.length = N) :
    ∃ s', step s beta = .ok (((obs s).map fun d => Real.log (tot K zf uf vf beta d)).sum, s') ∧
      s'.users = s.users ∧ s'.userlist = s.userlist ∧
      s'.items = s.items ∧ s'.itemlist = s.itemlist ∧ s'.matrix = s.matrix ∧
      Sh s' K M N (fun k => T K zf uf vf beta (obs s) k / (obs s).length)
        (fun k a => TU K zf uf vf beta (obs s) k a / T K zf uf vf beta (obs s) k)
        (fun k a => TV K zf uf vf beta (obs s) k a / T K zf uf vf beta (obs s) k) := by
  have hlen : s.z.length = K := by rw [H.z]; simp
  have h0 := obsLoop_ok H beta hK (obs s) P (fun _ => 0) (fun _ _ => 0) (fun _ _ => 0) 0 0 (by omega)
  simp only [zero_add] at h0
  have hc : (((obs s).length : Nat) : ℝ) ≠ 0 := by
    have : (obs s).length ≠ 0 := fun h => hD (List.length_eq_zero_iff.1 h)
    exact_mod_cast this
  obtain ⟨s', e, h1, h2, h3, h4, h5, H'⟩ := updLoop_ok (M := M) (N := N) (Z := T K zf uf vf beta (obs s))
    (A := TU K zf uf vf beta (obs s)) (B := TV K zf uf vf beta (obs s))
    (l := ((obs s).map fun d => Real.log (tot K zf uf vf beta d)).sum) hc
    (fun k hk => (P.T beta hk hD).ne') K 0 s zf uf vf (by omega) H hM hN
  refine ⟨s', ?_, h1, h2, h3, h4, h5, ?_⟩
  · rw [step, rowsLoop_eq, hlen, hM, hN]
    have e0 : (⟨List.replicate K 0, List.replicate K (List.replicate M 0), List.replicate K (List.replicate N 0),
        0, 0⟩ : Acc) = accOf K M N (fun _ => 0) (fun _ _ => 0) (fun _ _ => 0) 0 0 := by
      simp only [accOf, rep_tab]
    rw [e0]
    show (obsLoop s beta (obs s) _ >>= fun a => updLoop a K 0 s >>= fun s' => Res.ok (a.lik, s')) = _
    rw [h0, Res.ok_bind]
    exact (congrArg (· >>= fun s' => Res.ok (_, s')) e).trans rfl
  · simpa using H'

/-- The parameters of a state as functions. -/
theorem sh_of {M N : Nat} {D : List (Nat × Nat)} {s : Plsi} (G : IsParams M N D s.z s.userZ s.itemZ) :
    Sh s s.z.length M N (pz s.z) (pc s.userZ) (pc s.itemZ) := by
  refine ⟨eq_tab _ 0, ?_, ?_⟩
  · rw [← G.lenU]
    refine (eq_tab s.userZ []).trans (tab_congr ?_)
    intro i hi
    have hm : s.userZ.getD i [] ∈ s.userZ := by simp [hi]
    have := (G.rowU _ hm).1
    conv_lhs => rw [eq_tab (s.userZ.getD i []) 0, this]
    rfl
  · rw [← G.lenV]
    refine (eq_tab s.itemZ []).trans (tab_congr ?_)
    intro i hi
    have hm : s.itemZ.getD i [] ∈ s.itemZ := by simp [hi]
    have := (G.rowV _ hm).1
    conv_lhs => rw [eq_tab (s.itemZ.getD i []) 0, this]
    rfl

theorem isDist_tab {n : Nat} {f : Nat → ℝ} : IsDist (tab n f) ↔ (∀ i, i < n → 0 ≤ f i) ∧ ∑ i ∈ range n, f i = 1 := by
  unfold IsDist
  rw [tab_sum]
  constructor
  · rintro ⟨h1, h2⟩
    exact ⟨fun i hi => h1 _ (mem_tab.2 ⟨i, hi, rfl⟩), h2⟩
  · rintro ⟨h1, h2⟩
    refine ⟨?_, h2⟩
    intro x hx
    obtain ⟨i, hi, rfl⟩ := mem_tab.1 hx
    exact h1 i hi

theorem pz_tab {K : Nat} {f : Nat → ℝ} {k : Nat} (h : k < K) : pz (tab K f) k = f k := tab_getD _ _ _ _ h

theorem pc_tab {K M : Nat} {F : Nat → Nat → ℝ} {k u : Nat} (hk : k < K) (hu : u < M) :
    pc (tab K fun k => tab M (F k)) k u = F k u := by
  unfold pc
  rw [tab_getD _ _ _ _ hk, tab_getD _ _ _ _ hu]

/-- What is to be shown for a state given by functions. -/
theorem params_of {K M N : Nat} {zf : Nat → ℝ} {uf vf : Nat → Nat → ℝ} {s : Plsi} (H : Sh s K M N zf uf vf)
    {D : List (Nat × Nat)} (P : Pos K M N zf uf vf D) (hz : ∑ k ∈ range K, zf k = 1)
    (hu : ∀ k, k < K → ∀ a, a < M → 0 ≤ uf k a) (hu1 : ∀ k, k < K → ∑ a ∈ range M, uf k a = 1)
    (hv : ∀ k, k < K → ∀ a, a < N → 0 ≤ vf k a) (hv1 : ∀ k, k < K → ∑ a ∈ range N, vf k a = 1) :
    IsParams M N D s.z s.userZ s.itemZ := by
  rw [H.z, H.u, H.v]
  refine ⟨isDist_tab.2 ⟨fun i hi => (P.z i hi).le, hz⟩, by simp, by simp, ?_, ?_, ?_⟩
  · intro r hr
    obtain ⟨k, hk, rfl⟩ := mem_tab.1 hr
    exact ⟨by simp, isDist_tab.2 ⟨hu k hk, hu1 k hk⟩⟩
  · intro r hr
    obtain ⟨k, hk, rfl⟩ := mem_tab.1 hr
    exact ⟨by simp, isDist_tab.2 ⟨hv k hk, hv1 k hk⟩⟩
  · intro k hk
    rw [tab_length] at hk
    refine ⟨by rw [pz_tab hk]; exact P.z k hk, fun d hd => ⟨?_, ?_⟩⟩
    · rw [pc_tab hk (P.inU d hd)]; exact P.u k hk d hd
    · rw [pc_tab hk (P.inV d hd)]; exact P.v k hk d hd

/-- And what follows from it. -/
theorem facts_of {K M N : Nat} {zf : Nat → ℝ} {uf vf : Nat → Nat → ℝ} {s : Plsi} (H : Sh s K M N zf uf vf)
    {D : List (Nat × Nat)} (G : IsParams M N D s.z s.userZ s.itemZ) (hU : ∀ d ∈ D, d.1 < M) (hV : ∀ d ∈ D, d.2 < N) :
    Pos K M N zf uf vf D ∧ ∑ k ∈ range K, zf k = 1 ∧
    (∀ k, k < K → ∀ a, a < M → 0 ≤ uf k a) ∧ (∀ k, k < K → ∑ a ∈ range M, uf k a = 1) ∧
    (∀ k, k < K → ∀ a, a < N → 0 ≤ vf k a) ∧ (∀ k, k < K → ∑ a ∈ range N, vf k a = 1) := by
  rw [H.z, H.u, H.v] at G
  have hpos := G.pos
  rw [tab_length] at hpos
  refine ⟨⟨hU, hV, ?_, ?_, ?_⟩, (isDist_tab.1 G.dist).2, ?_, ?_, ?_, ?_⟩
  · intro k hk
    have := (hpos k hk).1
    rwa [pz_tab hk] at this
  · intro k hk d hd
    have := ((hpos k hk).2 d hd).1
    rwa [pc_tab hk (hU d hd)] at this
  · intro k hk d hd
    have := ((hpos k hk).2 d hd).2
    rwa [pc_tab hk (hV d hd)] at this
  · intro k hk
    exact (isDist_tab.1 (G.rowU _ (mem_tab.2 ⟨k, hk, rfl⟩)).2).1
  · intro k hk
    exact (isDist_tab.1 (G.rowU _ (mem_tab.2 ⟨k, hk, rfl⟩)).2).2
  · intro k hk
    exact (isDist_tab.1 (G.rowV _ (mem_tab.2 ⟨k, hk, rfl⟩)).2).1
  · intro k hk
    exact (isDist_tab.1 (G.rowV _ (mem_tab.2 ⟨k, hk, rfl⟩)).2).2

/-! ## Sums over the observations -/

theorem sum_fib (D : List (Nat × Nat)) (M : Nat) (c : Nat × Nat → Nat) (hc : ∀ d ∈ D, c d < M)
    (q : Nat × Nat → ℝ) : ∑ a ∈ range M, (D.map fun d => if c d = a then q d else 0).sum = (D.map q).sum := by
  induction D with
  | nil => simp
  | cons d D ih =>
    simp only [List.map_cons, List.sum_cons, Finset.sum_add_distrib]
    rw [ih (fun e he => hc e (by simp [he])), Finset.sum_ite_eq, if_pos (Finset.mem_range.2 (hc d (by simp)))]

theorem sum_swap (D : List (Nat × Nat)) (K : Nat) (q : Nat → Nat × Nat → ℝ) :
    ∑ k ∈ range K, (D.map (q k)).sum = (D.map fun d => ∑ k ∈ range K, q k d).sum := by
  induction D with
  | nil => simp
  | cons d D ih => simp only [List.map_cons, List.sum_cons, Finset.sum_add_distrib, ih]

theorem sum_one (D : List (Nat × Nat)) (f : Nat × Nat → ℝ) (h : ∀ d ∈ D, f d = 1) : (D.map f).sum = D.length := by
  induction D with
  | nil => simp
  | cons d D ih =>
    simp only [List.map_cons, List.sum_cons, List.length_cons]
    rw [ih (fun e he => h e (by simp [he])), h d (by simp)]
    push_cast
    ring

theorem sum_count (D : List (Nat × Nat)) (p : Nat × Nat → Prop) [DecidablePred p] (f : Nat × Nat → ℝ)
    (h : ∀ d ∈ D, f d = 1) :
    (D.map fun d => if p d then f d else 0).sum = ((D.filter p).length : ℝ) := by
  induction D with
  | nil => simp
  | cons d D ih =>
    simp only [List.map_cons, List.sum_cons]
    rw [ih (fun e he => h e (by simp [he])), List.filter_cons]
    by_cases e : p d
    · simp [e, h d (by simp)]; ring
    · simp [e]

theorem own_pos (D : List (Nat × Nat)) (c : Nat × Nat → Nat) (q : Nat × Nat → ℝ) (hq : ∀ d ∈ D, 0 < q d)
    (e : Nat × Nat) (he : e ∈ D) : 0 < (D.map fun d => if c d = c e then q d else 0).sum := by
  have hge : ∀ (E : List (Nat × Nat)), (∀ d ∈ E, 0 < q d) →
      0 ≤ (E.map fun d => if c d = c e then q d else 0).sum := by
    intro E hE
    apply List.sum_nonneg
    intro x hx
    obtain ⟨d, hd, rfl⟩ := List.mem_map.1 hx
    split
    · exact (hE d hd).le
    · exact le_refl _
  induction D with
  | nil => cases he
  | cons d D ih =>
    simp only [List.map_cons, List.sum_cons]
    have hD := hge D (fun x hx => hq x (by simp [hx]))
    rcases List.mem_cons.1 he with h | h
    · subst h
      rw [if_pos rfl]
      have := hq e (by simp)
      linarith
    · have := ih (fun x hx => hq x (by simp [hx])) h
      split
      · have := hq d (by simp)
        linarith
      · linarith

section

variable {K M N : Nat} {zf : Nat → ℝ} {uf vf : Nat → Nat → ℝ} {D : List (Nat × Nat)}

theorem post_sum (P : Pos K M N zf uf vf D) (beta : ℝ) (hK : 0 < K) (d : Nat × Nat) (hd : d ∈ D) :
    ∑ k ∈ range K, post K zf uf vf beta k d = 1 := by
  unfold post
  rw [← Finset.sum_div]
  exact div_self (P.tot beta hK hd).ne'

/-- The new parameters are distributions that give the observations positive probabilities. -/
theorem new_params (P : Pos K M N zf uf vf D) (beta : ℝ) (hK : 0 < K) (hD : D ≠ []) :
    let zf' := fun k => T K zf uf vf beta D k / D.length
    let uf' := fun k a => TU K zf uf vf beta D k a / T K zf uf vf beta D k
    let vf' := fun k a => TV K zf uf vf beta D k a / T K zf uf vf beta D k
    Pos K M N zf' uf' vf' D ∧ ∑ k ∈ range K, zf' k = 1 ∧
    (∀ k, k < K → ∀ a, a < M → 0 ≤ uf' k a) ∧ (∀ k, k < K → ∑ a ∈ range M, uf' k a = 1) ∧
    (∀ k, k < K → ∀ a, a < N → 0 ≤ vf' k a) ∧ (∀ k, k < K → ∑ a ∈ range N, vf' k a = 1) := by
  have hn : (0 : ℝ) < D.length := by
    have : 0 < D.length := List.length_pos_iff.2 hD
    exact_mod_cast this
  have nn : ∀ k, k < K → ∀ (c : Nat × Nat → Nat) a,
      0 ≤ (D.map fun d => if c d = a then post K zf uf vf beta k d else 0).sum := by
    intro k hk c a
    apply List.sum_nonneg
    intro x hx
    obtain ⟨d, hd, rfl⟩ := List.mem_map.1 hx
    split
    · exact (P.post beta hk hd).le
    · exact le_refl _
  refine ⟨⟨P.inU, P.inV, ?_, ?_, ?_⟩, ?_, ?_, ?_, ?_, ?_⟩
  · exact fun k hk => div_pos (P.T beta hk hD) hn
  · exact fun k hk d hd => div_pos (own_pos D (·.1) _ (fun e he => P.post beta hk he) d hd) (P.T beta hk hD)
  · exact fun k hk d hd => div_pos (own_pos D (·.2) _ (fun e he => P.post beta hk he) d hd) (P.T beta hk hD)
  · unfold T
    rw [← Finset.sum_div, sum_swap, sum_one D _ (post_sum P beta hK), div_self hn.ne']
  · exact fun k hk a _ => div_nonneg (nn k hk (·.1) a) (P.T beta hk hD).le
  · intro k hk
    dsimp only
    rw [← Finset.sum_div]
    unfold TU
    rw [sum_fib D M (·.1) P.inU]
    exact div_self (P.T beta hk hD).ne'
  · exact fun k hk a _ => div_nonneg (nn k hk (·.2) a) (P.T beta hk hD).le
  · intro k hk
    dsimp only
    rw [← Finset.sum_div]
    unfold TV
    rw [sum_fib D N (·.2) P.inV]
    exact div_self (P.T beta hk hD).ne'

/-- The new `p(x)` is the relative frequency. -/
theorem new_marginal (P : Pos K M N zf uf vf D) (beta : ℝ) (hK : 0 < K) (hD : D ≠ []) (c : Nat × Nat → Nat)
    (a : Nat) :
    ∑ k ∈ range K, T K zf uf vf beta D k / D.length *
      ((D.map fun d => if c d = a then post K zf uf vf beta k d else 0).sum / T K zf uf vf beta D k) =
      ((D.filter fun d => c d = a).length : ℝ) / D.length := by
  have hn : (0 : ℝ) < D.length := by
    have : 0 < D.length := List.length_pos_iff.2 hD
    exact_mod_cast this
  have e : ∀ k ∈ range K, T K zf uf vf beta D k / D.length *
      ((D.map fun d => if c d = a then post K zf uf vf beta k d else 0).sum / T K zf uf vf beta D k) =
      (D.map fun d => if c d = a then post K zf uf vf beta k d else 0).sum / D.length := by
    intro k hk
    have := (P.T beta (Finset.mem_range.1 hk) hD).ne'
    field_simp
  rw [Finset.sum_congr rfl e, ← Finset.sum_div, sum_swap]
  congr 1
  have e2 : (fun d => ∑ k ∈ range K, if c d = a then post K zf uf vf beta k d else 0) =
      fun d => if c d = a then ∑ k ∈ range K, post K zf uf vf beta k d else 0 := by
    funext d
    split
    · rfl
    · simp
  rw [e2]
  exact sum_count D (fun d => c d = a) _ (post_sum P beta hK)

/-- The likelihood does not go down. -/
theorem lik_mono (P : Pos K M N zf uf vf D) (hK : 0 < K) (hD : D ≠ []) (hz : ∑ k ∈ range K, zf k = 1)
    (hu : ∀ k, k < K → ∀ a, a < M → 0 ≤ uf k a) (hu1 : ∀ k, k < K → ∑ a ∈ range M, uf k a = 1)
    (hv : ∀ k, k < K → ∀ a, a < N → 0 ≤ vf k a) (hv1 : ∀ k, k < K → ∑ a ∈ range N, vf k a = 1) :
    (D.map fun d => Real.log (∑ k ∈ range K, zf k * uf k d.1 * vf k d.2)).sum ≤
      (D.map fun d => Real.log (∑ k ∈ range K, T K zf uf vf 1 D k / D.length *
        (TU K zf uf vf 1 D k d.1 / T K zf uf vf 1 D k) *
        (TV K zf uf vf 1 D k d.2 / T K zf uf vf 1 D k))).sum := by
  have hpos : 0 < D.length := List.length_pos_iff.2 hD
  have : Nonempty (Fin D.length) := ⟨⟨0, hpos⟩⟩
  have hm : ∀ i : Fin D.length, D[i] ∈ D := fun i => List.getElem_mem i.2
  have key := Em.em_mono (Finset.univ : Finset (Fin D.length)) (range K) (range M) (range N)
    (fun i => D[i].1) (fun i => D[i].2) Finset.univ_nonempty ⟨0, Finset.mem_range.2 hK⟩
    (fun i _ => Finset.mem_range.2 (P.inU _ (hm i))) (fun i _ => Finset.mem_range.2 (P.inV _ (hm i)))
    zf uf vf (fun k hk => P.z k (Finset.mem_range.1 hk)) hz.le
    (fun k hk a ha => hu k (Finset.mem_range.1 hk) a (Finset.mem_range.1 ha))
    (fun k hk => (hu1 k (Finset.mem_range.1 hk)).le)
    (fun k hk i _ => P.u k (Finset.mem_range.1 hk) _ (hm i))
    (fun k hk a ha => hv k (Finset.mem_range.1 hk) a (Finset.mem_range.1 ha))
    (fun k hk => (hv1 k (Finset.mem_range.1 hk)).le)
    (fun k hk i _ => P.v k (Finset.mem_range.1 hk) _ (hm i))
    (fun k i => post K zf uf vf 1 k D[i])
    (fun k _ i _ => by simp only [post, wt, tot, Real.rpow_one])
  rw [← Fin.sum_univ_fun_getElem D (fun d => Real.log (∑ k ∈ range K, zf k * uf k d.1 * vf k d.2)),
    ← Fin.sum_univ_fun_getElem D (fun d => Real.log (∑ k ∈ range K, T K zf uf vf 1 D k / D.length *
        (TU K zf uf vf 1 D k d.1 / T K zf uf vf 1 D k) *
        (TV K zf uf vf 1 D k d.2 / T K zf uf vf 1 D k)))]
  refine key.trans (le_of_eq ?_)
  apply Finset.sum_congr rfl
  intro i _
  congr 1
  apply Finset.sum_congr rfl
  intro k _
  unfold T TU TV
  rw [← Fin.sum_univ_fun_getElem D (fun d => post K zf uf vf 1 k d),
    ← Fin.sum_univ_fun_getElem D (fun d => if d.1 = D[(i : Nat)].1 then post K zf uf vf 1 k d else 0),
    ← Fin.sum_univ_fun_getElem D (fun d => if d.2 = D[(i : Nat)].2 then post K zf uf vf 1 k d else 0),
    Finset.card_univ, Fintype.card_fin]
  rfl

end

end Verif.Plsi
