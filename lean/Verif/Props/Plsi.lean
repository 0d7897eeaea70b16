import Verif.Proof.PlsiTop
set_option linter.unusedSimpArgs false

/-!
# C69: `Plsi` learns by expectation maximisation

`DataOk` and `obs` (the observations of the object) are defined in `Verif/Proof/PlsiTop.lean` and
`Verif/Proof/Plsi.lean`; `IsParams`, `IsDist`, `joint`, `marginal`, `logLik` in `Verif/Spec/Plsi.lean`.
All arithmetic is that of the real numbers.
-/
namespace Verif.Props.Plsi

open Verif.Plsi Verif.Spec.Plsi Verif.Random Finset

/-! ## Filling the object -/

theorem lookup_zipIdx (l : List Int) (x : Int) : ∀ n, match (l.zipIdx n).lookup x with
    | some i => n ≤ i ∧ l[i - n]? = some x
    | none => x ∉ l := by
  induction l with
  | nil => intro n; simp
  | cons a l ih =>
    intro n
    rw [List.zipIdx_cons, List.lookup_cons]
    by_cases e : x == a
    · rw [e]
      have : x = a := by simpa using e
      simp [this]
    · have e' : (x == a) = false := by simpa using e
      rw [e']
      have h := ih (n + 1)
      have hne : x ≠ a := by simpa using e
      dsimp only
      split
      · next i hi =>
        rw [hi] at h
        refine ⟨by omega, ?_⟩
        obtain ⟨h1, h2⟩ := h
        rw [show i - n = (i - (n + 1)) + 1 by omega]
        simpa using h2
      · next hi =>
        rw [hi] at h
        simp [hne, h]

theorem lookup_append (l : List Int) (x y : Int) (i : Nat) (h : l.zipIdx.lookup y = some i) :
    ((l ++ [x]).zipIdx).lookup y = some i := by
  rw [List.zipIdx_append, List.lookup_append, h]
  rfl

theorem empty_ok : DataOk Plsi.empty := ⟨rfl, rfl, rfl, by simp [Plsi.empty]⟩

/-- `get_user_id` gives a number whose entry in the list of users is the key, the number stays the same
afterwards, and an object with consistent data stays one. -/
theorem C69_user_id (s : Plsi) (H : DataOk s) (user : Int) :
    DataOk (getUserId s user).2 ∧ (getUserId s user).2.userlist[(getUserId s user).1]? = some user ∧
    getUserId (getUserId s user).2 user = getUserId s user ∧ obs (getUserId s user).2 = obs s ∧
    ∀ other i, s.users.lookup other = some i → (getUserId s user).2.users.lookup other = some i := by
  have hl := lookup_zipIdx s.userlist user 0
  rw [← H.users] at hl
  unfold getUserId
  cases e : s.users.lookup user with
  | some i =>
    rw [e] at hl
    simp only [Nat.sub_zero, Nat.zero_le, true_and] at hl
    dsimp only
    rw [e]
    exact ⟨H, hl, rfl, rfl, fun _ _ h => h⟩
  | none =>
    rw [e] at hl
    have hlen : s.users.length = s.userlist.length := by rw [H.users]; simp
    have hz : s.users ++ [(user, s.userlist.length)] = (s.userlist ++ [user]).zipIdx := by
      rw [List.zipIdx_append, H.users]; simp
    have hlk : (s.users ++ [(user, s.userlist.length)]).lookup user = some s.userlist.length := by
      rw [List.lookup_append, e]; simp
    dsimp only
    rw [hlk]
    refine ⟨⟨hz, H.items, H.rows, ?_⟩, by simp, rfl, rfl, ?_⟩
    · intro row hr u hu
      have := H.ids row hr u hu
      simp
      omega
    · intro other i h
      rw [List.lookup_append, h]
      rfl

theorem obsFrom_append (a b : List (List Nat)) : ∀ y, obsFrom y (a ++ b) = obsFrom y a ++ obsFrom (y + a.length) b := by
  induction a with
  | nil => intro y; simp [obsFrom]
  | cons r a ih =>
    intro y
    simp only [List.cons_append, obsFrom, ih, List.append_assoc, List.length_cons]
    rw [show y + 1 + a.length = y + (a.length + 1) by omega]

/-- The same for `get_item_id`; a new item has no observations; `get_item_key` is the inverse. -/
theorem C69_item_id (s : Plsi) (H : DataOk s) (item : Int) :
    DataOk (getItemId s item).2 ∧ getItemKey (getItemId s item).2 (getItemId s item).1 = .ok item ∧
    getItemId (getItemId s item).2 item = getItemId s item ∧ obs (getItemId s item).2 = obs s ∧
    ∀ other i, s.items.lookup other = some i → (getItemId s item).2.items.lookup other = some i := by
  have hl := lookup_zipIdx s.itemlist item 0
  rw [← H.items] at hl
  unfold getItemId getItemKey
  cases e : s.items.lookup item with
  | some i =>
    rw [e] at hl
    simp only [Nat.sub_zero, Nat.zero_le, true_and] at hl
    dsimp only
    rw [e]
    exact ⟨H, by simp [at?, hl], rfl, rfl, fun _ _ h => h⟩
  | none =>
    rw [e] at hl
    have hz : s.items ++ [(item, s.itemlist.length)] = (s.itemlist ++ [item]).zipIdx := by
      rw [List.zipIdx_append, H.items]; simp
    have hlk : (s.items ++ [(item, s.itemlist.length)]).lookup item = some s.itemlist.length := by
      rw [List.lookup_append, e]; simp
    dsimp only
    rw [hlk]
    refine ⟨⟨H.users, hz, by simp [H.rows], ?_⟩, by simp [at?], rfl, ?_, ?_⟩
    · intro row hr u hu
      rw [List.mem_append] at hr
      rcases hr with hr | hr
      · exact H.ids row hr u hu
      · simp at hr; subst hr; simp at hu
    · unfold obs
      rw [obsFrom_append]
      simp [obsFrom]
    · intro other i h
      rw [List.lookup_append, h]
      rfl

/-- The row may follow the entries that are there. -/
def Follows (old row : List Nat) : Prop := ∀ a ∈ old.getLast?, ∀ b ∈ row.head?, a < b

theorem appendRow_ok : ∀ (row old : List Nat), row.Pairwise (· < ·) → (∀ u ∈ row, u < 2 ^ 32) → Follows old row →
    appendRow old row = .ok (old ++ row) := by
  intro row
  induction row with
  | nil => intro old _ _ _; simp [appendRow]
  | cons u us ih =>
    intro old hp hb hf
    have hr : refused old u = false := by
      have h32 := hb u List.mem_cons_self
      unfold refused
      cases e : old.getLast? with
      | none => simp only [decide_eq_false_iff_not]; omega
      | some l =>
        have := hf l (by rw [e]; rfl) u rfl
        simp only [Bool.or_eq_false_iff, decide_eq_false_iff_not]
        omega
    rw [appendRow, hr, if_neg (by simp), ih (old ++ [u]) (List.pairwise_cons.1 hp).2 (fun v hv => hb v (List.mem_cons_of_mem _ hv))]
    · simp
    · intro a ha b hb'
      simp only [List.getLast?_append, List.getLast?_singleton, Option.some_or, Option.mem_def, Option.some.injEq] at ha
      subst ha
      exact (List.pairwise_cons.1 hp).1 b (List.mem_of_mem_head? hb')

theorem appendRow_throws (row old : List Nat) (h : ¬ Follows old row) : appendRow old row = .throw := by
  unfold Follows at h
  cases row with
  | nil => exact absurd (fun a _ b hb => by cases hb) h
  | cons u us =>
    cases e : old.getLast? with
    | none => exact absurd (fun a ha => by rw [e] at ha; cases ha) h
    | some l =>
      have hul : u ≤ l := by
        by_contra hc
        apply h
        intro a ha b hb
        rw [e] at ha
        cases ha
        cases hb
        omega
      rw [appendRow, if_pos]
      unfold refused
      rw [e]
      simp [hul]

/-- `getItem(item).set(map)` for a map of known users: their numbers are put behind those the item has, and the data stay consistent;
the other items are as before.  If the first number does not come after the last one of the item, an exception is thrown.  A new item
has no numbers yet. -/
theorem C69_set_item (s : Plsi) (H : DataOk s) (item : Int) (row : List Nat) (hr : ∀ u ∈ row, u < s.users.length)
    (hasc : row.Pairwise (· < ·)) (h32 : s.users.length ≤ 2 ^ 32) :
    ∃ old, (getItemId s item).2.matrix[(getItemId s item).1]? = some old ∧ (s.items.lookup item = none → old = []) ∧
      (Follows old row → ∃ s', setItem s item row = .ok s' ∧ DataOk s' ∧ s'.users = s.users ∧ s'.userlist = s.userlist ∧
        s'.items = (getItemId s item).2.items ∧ s'.itemlist = (getItemId s item).2.itemlist ∧
        s'.z = s.z ∧ s'.userZ = s.userZ ∧ s'.itemZ = s.itemZ ∧
        s'.matrix[(getItemId s item).1]? = some (old ++ row) ∧
        ∀ j, j ≠ (getItemId s item).1 → s'.matrix[j]? = (getItemId s item).2.matrix[j]?) ∧
      (¬ Follows old row → setItem s item row = .throw) := by
  obtain ⟨H', hk, _, _, _⟩ := C69_item_id s H item
  have hlt : (getItemId s item).1 < (getItemId s item).2.matrix.length := by
    have h1 : (getItemId s item).1 < (getItemId s item).2.itemlist.length := by
      unfold getItemKey at hk
      unfold at? at hk
      split at hk
      · next h => exact (List.getElem?_eq_some_iff.1 h).1
      · cases hk
    rw [H'.rows, H'.items]
    simpa using h1
  have hu : (getItemId s item).2.users = s.users ∧ (getItemId s item).2.userlist = s.userlist ∧ (getItemId s item).2.z = s.z ∧
      (getItemId s item).2.userZ = s.userZ ∧ (getItemId s item).2.itemZ = s.itemZ := by
    unfold getItemId; split <;> exact ⟨rfl, rfl, rfl, rfl, rfl⟩
  have hset : setItem s item row = (do
      let r ← appendRow (getItemId s item).2.matrix[(getItemId s item).1] row
      let m ← putAt (getItemId s item).2.matrix (getItemId s item).1 r
      return { (getItemId s item).2 with matrix := m }) := by
    simp only [setItem, at?_eq_ok hlt, Res.ok_bind]
  refine ⟨(getItemId s item).2.matrix[(getItemId s item).1], List.getElem?_eq_getElem hlt, ?_, ?_, ?_⟩
  · intro hn
    have hlen : s.itemlist.length = s.matrix.length := by rw [H.rows, H.items]; simp
    have e : (getItemId s item).2.matrix[(getItemId s item).1]? = some [] := by
      unfold getItemId
      rw [hn]
      simp [hlen]
    rw [List.getElem?_eq_getElem hlt] at e
    exact Option.some.inj e
  · intro hf
    let nm := (getItemId s item).2.matrix.set (getItemId s item).1 ((getItemId s item).2.matrix[(getItemId s item).1] ++ row)
    refine ⟨{ (getItemId s item).2 with matrix := nm }, ?_, ?_, hu.1, hu.2.1, rfl, rfl, hu.2.2.1, hu.2.2.2.1, hu.2.2.2.2, ?_, ?_⟩
    · rw [hset, appendRow_ok row _ hasc (fun u h => by have := hr u h; omega) hf, Res.ok_bind, putAt, if_pos hlt]
      rfl
    · refine ⟨H'.users, H'.items, by simp [nm, H'.rows], ?_⟩
      intro r hr' u hu'
      rcases List.mem_or_eq_of_mem_set hr' with h | h
      · exact H'.ids r h u hu'
      · subst h
        rcases List.mem_append.1 hu' with h | h
        · exact H'.ids _ (List.getElem_mem hlt) u h
        · show u < (getItemId s item).2.users.length
          rw [hu.1]
          exact hr u h
    · simp [nm, hlt]
    · intro j hj
      simp [nm, List.getElem?_set, hj.symm]
  · intro hf
    rw [hset, appendRow_throws row _ hf]
    rfl

/-- Finding: a second `set` for an item does not replace its users: it adds to them, and throws if one of them is there already. -/
theorem C69_finding_set_twice : (do
    let s := (getUserId Plsi.empty 7).2
    let s := (getUserId s 8).2
    let s ← setItem s 5 [0]
    let s ← setItem s 5 [1]
    return s.matrix) = Res.ok [[0, 1]] ∧ (do
    let s := (getUserId Plsi.empty 7).2
    let s ← setItem s 5 [0]
    setItem s 5 [0]) = Res.throw := ⟨rfl, rfl⟩

/-! ## Learning -/

/-- `startLearning(K)` on an object with users and items that has not learned yet: `p(z)` and `p(x|z)` are
uniform, every `p(y|z)` is a distribution, and all parameters are positive. -/
theorem C69_start (s : Plsi) (H : DataOk s) (K : Nat) (hK : 1 ≤ K) (hz : s.z = []) (hu : s.userZ = []) (hv : s.itemZ = [])
    (hM : s.users ≠ []) (hN : s.items ≠ []) :
    ∃ s', startLearning s K = .ok s' ∧ DataOk s' ∧ obs s' = obs s ∧ s'.users = s.users ∧ s'.items = s.items ∧
      s'.z = List.replicate K (1 / (K : ℝ)) ∧
      s'.userZ = List.replicate K (List.replicate s.users.length (1 / (s.users.length : ℝ))) ∧
      (∀ row ∈ s'.itemZ, ∀ x ∈ row, 0 < x) ∧
      IsParams s'.users.length s'.items.length (obs s') s'.z s'.userZ s'.itemZ := by
  have hM' := List.length_pos_iff.2 hM
  have hN' := List.length_pos_iff.2 hN
  obtain ⟨s', vf, e, h1, h2, h3, h4, h5, Hs, hp⟩ := start_ok (K := K) hK hz hu hv hM' hN'
  have HD : DataOk s' := ⟨by rw [h1, h2]; exact H.users, by rw [h3, h4]; exact H.items,
    by rw [h5, h3]; exact H.rows, by rw [h5, h1]; exact H.ids⟩
  have hobs : obs s' = obs s := by unfold obs; rw [h5]
  have hKr : (0 : ℝ) < K := by exact_mod_cast hK
  have hMr : (0 : ℝ) < s.users.length := by exact_mod_cast hM'
  refine ⟨s', e, HD, hobs, h1, h3, ?_, ?_, ?_, ?_⟩
  · rw [Hs.z, rep_tab]
  · rw [Hs.u, rep_tab]; simp only [rep_tab]
  · intro row hr x hx
    rw [Hs.v] at hr
    obtain ⟨k, hk, rfl⟩ := mem_tab.1 hr
    obtain ⟨i, hi, rfl⟩ := mem_tab.1 hx
    exact (hp k hk).1 i hi
  · rw [hobs, h1, h3]
    refine params_of Hs ⟨H.inU, H.inV, fun k _ => div_pos one_pos hKr, fun k _ d _ => div_pos one_pos hMr,
      fun k hk d hd => (hp k hk).1 _ (H.inV d hd)⟩ ?_ (fun k _ a _ => (div_pos one_pos hMr).le) ?_
      (fun k hk a ha => ((hp k hk).1 a ha).le) (fun k hk => (hp k hk).2)
    · simp [hKr.ne']
    · intro k _
      simp [hMr.ne']

/-- A state in which learning can go on. -/
structure Learning (s : Plsi) : Prop where
  data : DataOk s
  some : obs s ≠ []
  few : (obs s).length < 2 ^ 31
  params : IsParams s.users.length s.items.length (obs s) s.z s.userZ s.itemZ

theorem Learning.K {s : Plsi} (L : Learning s) : 0 < s.z.length := by
  rcases Nat.eq_zero_or_pos s.z.length with h | h
  · have := L.params.dist.2
    rw [List.length_eq_zero_iff.1 h] at this
    simp at this
  · exact h

/-- `step(beta)`, for every temperature `beta`: no division by zero and no logarithm of zero occurs, the
result is the sum of the logarithms of the (tempered) probabilities of the observations under the old
parameters, the users, items and observations stay as they are, and the new parameters are again
distributions (of the same sizes) under which all observations have positive probability. -/
theorem C69_step (s : Plsi) (L : Learning s) (beta : ℝ) :
    ∃ s', step s beta = .ok (((obs s).map fun d => Real.log (∑ k ∈ range s.z.length,
        (pz s.z k * pc s.userZ k d.1 * pc s.itemZ k d.2) ^ beta)).sum, s') ∧
      Learning s' ∧ obs s' = obs s ∧ s'.users = s.users ∧ s'.items = s.items ∧ s'.z.length = s.z.length := by
  have hsh := sh_of L.params
  obtain ⟨P, _⟩ := facts_of hsh L.params L.data.inU L.data.inV
  obtain ⟨s', e, h1, h2, h3, h4, h5, H'⟩ := step_closed hsh beta L.K L.some L.few P rfl rfl
  have hobs : obs s' = obs s := by unfold obs; rw [h5]
  have HD : DataOk s' := ⟨by rw [h1, h2]; exact L.data.users, by rw [h3, h4]; exact L.data.items,
    by rw [h5, h3]; exact L.data.rows, by rw [h5, h1]; exact L.data.ids⟩
  obtain ⟨P', a1, a2, a3, a4, a5⟩ := new_params P beta L.K L.some
  refine ⟨s', e, ⟨HD, by rw [hobs]; exact L.some, by rw [hobs]; exact L.few, ?_⟩, hobs, h1, h3, H'.len⟩
  rw [h1, h3, hobs]
  exact params_of H' P' a1 a2 a3 a4 a5

/-- What `step()` returns is the log-likelihood of the observations under the old parameters. -/
theorem C69_step_returns (s : Plsi) (L : Learning s) :
    ∃ s', step s 1 = .ok (logLik s.z s.userZ s.itemZ (obs s), s') := by
  obtain ⟨s', e, _⟩ := C69_step s L 1
  refine ⟨s', ?_⟩
  rw [e]
  simp only [Real.rpow_one, logLik, joint]

theorem joint_of {s : Plsi} {K M N : Nat} {zf : Nat → ℝ} {uf vf : Nat → Nat → ℝ} (H : Sh s K M N zf uf vf)
    {u y : Nat} (hu : u < M) (hy : y < N) :
    joint s.z s.userZ s.itemZ u y = ∑ k ∈ range K, zf k * uf k u * vf k y := by
  unfold joint
  rw [H.len]
  apply Finset.sum_congr rfl
  intro k hk
  have hk := Finset.mem_range.1 hk
  rw [H.z, H.u, H.v, pz_tab hk, pc_tab hk hu, pc_tab hk hy]

/-- A step of `step()` does not lower the likelihood of the observations. -/
theorem C69_monotone (s : Plsi) (L : Learning s) (l : ℝ) (s' : Plsi) (h : step s 1 = .ok (l, s')) :
    logLik s.z s.userZ s.itemZ (obs s) ≤ logLik s'.z s'.userZ s'.itemZ (obs s') := by
  have hsh := sh_of L.params
  obtain ⟨P, b1, b2, b3, b4, b5⟩ := facts_of hsh L.params L.data.inU L.data.inV
  obtain ⟨s'', e, h1, h2, h3, h4, h5, H'⟩ := step_closed hsh 1 L.K L.some L.few P rfl rfl
  rw [e] at h
  injection h with h
  injection h with _ h
  subst h
  have hobs : obs s'' = obs s := by unfold obs; rw [h5]
  rw [hobs]
  refine (le_of_eq ?_).trans ((lik_mono P L.K L.some b1 b2 b3 b4 b5).trans (le_of_eq ?_))
  · unfold logLik
    congr 1
  · unfold logLik
    congr 1
    apply List.map_congr_left
    intro d hd
    rw [joint_of H' (P.inU d hd) (P.inV d hd)]

/-- After a step (with any temperature) the probability of a user is the share of the observations that are
theirs, and the same holds for the items. -/
theorem C69_marginals (s : Plsi) (L : Learning s) (beta l : ℝ) (s' : Plsi) (h : step s beta = .ok (l, s')) :
    (∀ u, u < s.users.length → marginal s'.z s'.userZ u =
      (((obs s).filter fun d => d.1 = u).length : ℝ) / (obs s).length) ∧
    (∀ y, y < s.items.length → marginal s'.z s'.itemZ y =
      (((obs s).filter fun d => d.2 = y).length : ℝ) / (obs s).length) := by
  have hsh := sh_of L.params
  obtain ⟨P, _⟩ := facts_of hsh L.params L.data.inU L.data.inV
  obtain ⟨s'', e, h1, h2, h3, h4, h5, H'⟩ := step_closed hsh beta L.K L.some L.few P rfl rfl
  rw [e] at h
  injection h with h
  injection h with _ h
  subst h
  constructor
  · intro u hu
    rw [← new_marginal P beta L.K L.some (·.1) u]
    unfold marginal
    rw [H'.len]
    apply Finset.sum_congr rfl
    intro k hk
    have hk := Finset.mem_range.1 hk
    rw [H'.z, H'.u, pz_tab hk, pc_tab hk hu]
    rfl
  · intro y hy
    rw [← new_marginal P beta L.K L.some (·.2) y]
    unfold marginal
    rw [H'.len]
    apply Finset.sum_congr rfl
    intro k hk
    have hk := Finset.mem_range.1 hk
    rw [H'.z, H'.v, pz_tab hk, pc_tab hk hy]
    rfl

theorem sum_le_one {n : Nat} {f : Nat → ℝ} (h0 : ∀ i, i < n → 0 ≤ f i) (h : ∑ i ∈ range n, f i = 1) {i : Nat} (hi : i < n) :
    f i ≤ 1 := by
  rw [← h]
  exact Finset.single_le_sum (fun j hj => h0 j (Finset.mem_range.1 hj)) (Finset.mem_range.2 hi)

theorem sum_nonpos' : ∀ l : List ℝ, (∀ x ∈ l, x ≤ 0) → l.sum ≤ 0
  | [], _ => by simp
  | a :: l, h => by
    rw [List.sum_cons]
    have h1 := h a (by simp)
    have h2 := sum_nonpos' l (fun x hx => h x (by simp [hx]))
    linarith

/-- A log-likelihood is never positive. -/
theorem C69_bounded (s : Plsi) (L : Learning s) : logLik s.z s.userZ s.itemZ (obs s) ≤ 0 := by
  obtain ⟨P, b1, b2, b3, b4, b5⟩ := facts_of (sh_of L.params) L.params L.data.inU L.data.inV
  unfold logLik
  apply sum_nonpos'
  intro x hx
  obtain ⟨d, hd, rfl⟩ := List.mem_map.1 hx
  have hj : 0 ≤ joint s.z s.userZ s.itemZ d.1 d.2 :=
    Finset.sum_nonneg fun k hk => (P.base (Finset.mem_range.1 hk) hd).le
  apply Real.log_nonpos hj
  rw [← b1]
  apply Finset.sum_le_sum
  intro k hk
  have hk := Finset.mem_range.1 hk
  have h1 := sum_le_one (b2 k hk) (b3 k hk) (P.inU d hd)
  have h2 := sum_le_one (b4 k hk) (b5 k hk) (P.inV d hd)
  have hz := (P.z k hk).le
  have hu := (P.u k hk d hd).le
  have hv := (P.v k hk d hd).le
  calc _ ≤ pz s.z k * pc s.userZ k d.1 * 1 := mul_le_mul_of_nonneg_left h2 (mul_nonneg hz hu)
    _ = pz s.z k * pc s.userZ k d.1 := mul_one _
    _ ≤ pz s.z k * 1 := mul_le_mul_of_nonneg_left h1 hz
    _ = pz s.z k := mul_one _

/-- Any number of calls of `step()` succeed; the values they return do not go down and are not positive. -/
theorem C69_learning (n : Nat) : ∀ (i : Nat) (s : Plsi), Learning s →
    ∃ ls s', steps (fun _ => 1) n i s = .ok (ls, s') ∧ Learning s' ∧ obs s' = obs s ∧ ls.length = n ∧
      ls.Pairwise (· ≤ ·) ∧ (∀ l ∈ ls, logLik s.z s.userZ s.itemZ (obs s) ≤ l ∧
        l ≤ logLik s'.z s'.userZ s'.itemZ (obs s') ∧ l ≤ 0) ∧
      logLik s.z s.userZ s.itemZ (obs s) ≤ logLik s'.z s'.userZ s'.itemZ (obs s') := by
  induction n with
  | zero => intro i s L; exact ⟨[], s, rfl, L, rfl, rfl, List.Pairwise.nil, by simp, le_refl _⟩
  | succ n ih =>
    intro i s L
    obtain ⟨s1, e, L1, ho, _⟩ := C69_step s L 1
    obtain ⟨s1', e'⟩ := C69_step_returns s L
    have hs : s1' = s1 := by rw [e] at e'; injection e' with e'; injection e' with _ e'; exact e'.symm
    subst hs
    have hm := C69_monotone s L _ _ e'
    obtain ⟨ls, s2, e2, L2, ho2, hlen, hp, hb, hle⟩ := ih (i + 1) s1' L1
    refine ⟨logLik s.z s.userZ s.itemZ (obs s) :: ls, s2, ?_, L2, ho2.trans ho, by simp [hlen], ?_, ?_, hm.trans hle⟩
    · rw [steps, e', Res.ok_bind]
      dsimp only
      rw [e2]
      rfl
    · refine List.Pairwise.cons ?_ hp
      intro l hl
      exact hm.trans (hb l hl).1
    · intro l hl
      rcases List.mem_cons.1 hl with rfl | hl
      · exact ⟨le_refl _, hm.trans hle, C69_bounded s L⟩
      · exact ⟨hm.trans (hb l hl).1, (hb l hl).2⟩

/-- A loop that calls `step()` until it gains less than `eps` comes to an end (the sample uses `eps = 1`):
there is a number of steps after which the next one raises the likelihood by less than `eps`. -/
theorem C69_loop_ends (s : Plsi) (L : Learning s) (eps : ℝ) (he : 0 < eps) :
    ∃ n ls s' l s'', steps (fun _ => 1) n 0 s = .ok (ls, s') ∧ Learning s' ∧ step s' 1 = .ok (l, s'') ∧ Learning s'' ∧
      logLik s''.z s''.userZ s''.itemZ (obs s'') - logLik s'.z s'.userZ s'.itemZ (obs s') < eps := by
  classical
  -- the state after `n` steps
  have hrun : ∀ n, ∃ ls s', steps (fun _ => 1) n 0 s = .ok (ls, s') ∧ Learning s' := fun n => by
    obtain ⟨ls, s', e, L', _⟩ := C69_learning n 0 s L
    exact ⟨ls, s', e, L'⟩
  have hsucc : ∀ n i (s : Plsi) ls s', steps (fun _ => 1) n i s = .ok (ls, s') → ∀ l s'', step s' 1 = .ok (l, s'') →
      steps (fun _ => 1) (n + 1) i s = .ok (ls ++ [l], s'') := by
    intro n
    induction n with
    | zero =>
      intro i s ls s' h l s'' h2
      injection h with h
      injection h with h1 h3
      subst h1 h3
      rw [steps, h2]
      rfl
    | succ n ih =>
      intro i s ls s' h l s'' h2
      rw [steps] at h
      obtain ⟨⟨l1, s1⟩, e1, h⟩ := Res.bind_eq_ok.1 h
      obtain ⟨⟨ls1, s2⟩, e2, h⟩ := Res.bind_eq_ok.1 h
      injection h with h
      injection h with ha hb
      subst ha hb
      rw [steps, e1, Res.ok_bind]
      dsimp only
      rw [ih _ _ _ _ e2 _ _ h2]
      rfl
  by_contra hc
  -- every step gains at least `eps`
  have hgain : ∀ n ls s', steps (fun _ => 1) n 0 s = .ok (ls, s') →
      logLik s.z s.userZ s.itemZ (obs s) + n * eps ≤ logLik s'.z s'.userZ s'.itemZ (obs s') := by
    intro n
    induction n with
    | zero =>
      intro ls s' h
      injection h with h
      injection h with _ h
      subst h
      simp
    | succ n ih =>
      intro ls s' h
      obtain ⟨ls1, s1, e1, L1⟩ := hrun n
      obtain ⟨s2, e2, L2, _⟩ := C69_step s1 L1 1
      have := hsucc _ _ _ _ _ e1 _ _ e2
      rw [this] at h
      injection h with h
      injection h with _ h
      subst h
      have h1 := ih ls1 s1 e1
      have h2 : eps ≤ logLik s2.z s2.userZ s2.itemZ (obs s2) - logLik s1.z s1.userZ s1.itemZ (obs s1) := by
        by_contra hlt
        exact hc ⟨n, ls1, s1, _, s2, e1, L1, e2, L2, lt_of_not_ge hlt⟩
      push_cast
      linarith
  obtain ⟨n, hn⟩ := exists_nat_gt (-(logLik s.z s.userZ s.itemZ (obs s)) / eps)
  obtain ⟨ls, s', e, L'⟩ := hrun n
  have h1 := hgain n ls s' e
  have h2 := C69_bounded s' L'
  rw [div_lt_iff₀ he] at hn
  linarith

/-! ## Queries -/

/-- `search_items` for a known user of positive probability ranks the items by `p(y|x)`; these scores are
a probability distribution; the object does not change. -/
theorem C69_search_items (s : Plsi) (L : Learning s) (user : Int) (uid top : Nat)
    (hu : s.users.lookup user = some uid) (hp : 0 < marginal s.z s.userZ uid) (h2 : 2 ≤ top) (h3 : top < 2 ^ 31) :
    ∃ r, searchItems s user top = .ok (r, s) ∧
      Spec.TopScore.IsTop top ((List.range s.items.length).map fun i =>
        (joint s.z s.userZ s.itemZ uid i / marginal s.z s.userZ uid, i)) r ∧
      IsDist ((List.range s.items.length).map fun i =>
        joint s.z s.userZ s.itemZ uid i / marginal s.z s.userZ uid) := by
  have H := sh_of L.params
  obtain ⟨P, b1, b2, b3, b4, b5⟩ := facts_of H L.params L.data.inU L.data.inV
  have hlt : uid < s.users.length := by
    have := lookup_zipIdx s.userlist user 0
    rw [← L.data.users, hu] at this
    simp only [Nat.sub_zero, Nat.zero_le, true_and] at this
    rw [L.data.users]
    simpa using (List.getElem?_eq_some_iff.1 this).1
  have hm : ∑ k ∈ range s.z.length, pz s.z k * pc s.userZ k uid = marginal s.z s.userZ uid := rfl
  have hsc : ∀ i, i < s.items.length → itemScore s (tab s.z.length fun k => pz s.z k * pc s.userZ k uid)
      (marginal s.z s.userZ uid) i = .ok (joint s.z s.userZ s.itemZ uid i / marginal s.z s.userZ uid) := by
    intro i hi
    rw [itemScore_ok H hp.ne' hi]
    congr 2
    unfold joint
    apply Finset.sum_congr rfl
    intro k _
    ring
  obtain ⟨t, e, ht⟩ := rank_top hsc h2 h3
  refine ⟨(TopScore.getTable (0, 0) t).2, ?_, ht, ?_⟩
  · rw [searchItems]
    have : getUserId s user = (uid, s) := by unfold getUserId; rw [hu]
    rw [this]
    dsimp only
    rw [accum0 (fun k hk => pzx_ok H hk hlt), Res.ok_bind]
    dsimp only
    rw [hm, e]
    rfl
  · refine isDist_tab.2 ⟨fun i hi => div_nonneg (Finset.sum_nonneg fun k hk => ?_) hp.le, ?_⟩
    · have hk := Finset.mem_range.1 hk
      exact mul_nonneg (mul_nonneg (P.z k hk).le (b2 k hk _ hlt)) (b4 k hk _ hi)
    · rw [← Finset.sum_div]
      have : ∑ i ∈ range s.items.length, joint s.z s.userZ s.itemZ uid i = marginal s.z s.userZ uid := by
        unfold joint marginal
        rw [Finset.sum_comm]
        apply Finset.sum_congr rfl
        intro k hk
        rw [← Finset.mul_sum]
        have := b5 k (Finset.mem_range.1 hk)
        rw [this, mul_one]
      rw [this, div_self hp.ne']

/-- `similar_items` for a known item ranks the items by `p(y, target)`, `p(y | target)` or
`p(target | y)`.  For `p(y | target)` the target needs a positive probability, for `p(target | y)` every
item does. -/
theorem C69_similar_items (s : Plsi) (L : Learning s) (item : Int) (tid top : Nat) (ty : Search)
    (hu : s.items.lookup item = some tid) (h2 : 2 ≤ top) (h3 : top < 2 ^ 31)
    (hc : ty = .conditional → 0 < marginal s.z s.itemZ tid)
    (hq : ty = .posterior → ∀ i, i < s.items.length → 0 < marginal s.z s.itemZ i) :
    ∃ r, similarItems s item ty top = .ok (r, s) ∧
      Spec.TopScore.IsTop top ((List.range s.items.length).map fun i =>
        (match ty with
          | .joint => joint s.z s.itemZ s.itemZ i tid
          | .conditional => joint s.z s.itemZ s.itemZ i tid / marginal s.z s.itemZ tid
          | .posterior => joint s.z s.itemZ s.itemZ tid i / marginal s.z s.itemZ i, i)) r := by
  have H := sh_of L.params
  have hlt : tid < s.items.length := by
    have := lookup_zipIdx s.itemlist item 0
    rw [← L.data.items, hu] at this
    simp only [Nat.sub_zero, Nat.zero_le, true_and] at this
    rw [L.data.items]
    simpa using (List.getElem?_eq_some_iff.1 this).1
  have hid : getItemId s item = (tid, s) := by unfold getItemId; rw [hu]
  cases ty with
  | joint =>
    have hsc : ∀ i, i < s.items.length → jointScore s tid i = .ok (joint s.z s.itemZ s.itemZ i tid) := by
      intro i hi
      rw [jointScore_ok H hlt hi]
      congr 1
      unfold joint
      apply Finset.sum_congr rfl
      intro k _
      ring
    obtain ⟨t, e, ht⟩ := rank_top hsc h2 h3
    refine ⟨(TopScore.getTable (0, 0) t).2, ?_, ht⟩
    rw [similarItems, hid]
    dsimp only
    rw [e]
    rfl
  | conditional =>
    have hp := hc rfl
    have hm : ∑ k ∈ range s.z.length, pz s.z k * pc s.itemZ k tid = marginal s.z s.itemZ tid := rfl
    have hsc : ∀ i, i < s.items.length → itemScore s (tab s.z.length fun k => pz s.z k * pc s.itemZ k tid)
        (marginal s.z s.itemZ tid) i = .ok (joint s.z s.itemZ s.itemZ i tid / marginal s.z s.itemZ tid) := by
      intro i hi
      rw [itemScore_ok H hp.ne' hi]
      congr 2
      unfold joint
      apply Finset.sum_congr rfl
      intro k _
      ring
    obtain ⟨t, e, ht⟩ := rank_top hsc h2 h3
    refine ⟨(TopScore.getTable (0, 0) t).2, ?_, ht⟩
    rw [similarItems, hid]
    dsimp only
    rw [accum0 (fun k hk => pzy_ok H hk hlt), Res.ok_bind]
    dsimp only
    rw [hm, e]
    rfl
  | posterior =>
    have hp := hq rfl
    have hsc : ∀ i, i < s.items.length → posteriorScore s tid i =
        .ok (joint s.z s.itemZ s.itemZ tid i / marginal s.z s.itemZ i) := by
      intro i hi
      rw [posteriorScore_ok H hlt hi (hp i hi).ne']
      congr 2
      unfold joint
      apply Finset.sum_congr rfl
      intro k _
      ring
    obtain ⟨t, e, ht⟩ := rank_top hsc h2 h3
    refine ⟨(TopScore.getTable (0, 0) t).2, ?_, ht⟩
    rw [similarItems, hid]
    dsimp only
    rw [e]
    rfl

/-- `perplexity` is the exponential of minus the mean of `log p(y|x)` over the observations. -/
theorem C69_perplexity (s : Plsi) (L : Learning s) :
    perplexity s = .ok (Real.exp (-((obs s).map fun d =>
      Real.log (joint s.z s.userZ s.itemZ d.1 d.2 / marginal s.z s.userZ d.1)).sum / (obs s).length)) := by
  have H := sh_of L.params
  obtain ⟨P, b1, b2, b3, b4, b5⟩ := facts_of H L.params L.data.inU L.data.inV
  have hpx : ∀ d ∈ obs s, 0 < marginal s.z s.userZ d.1 := fun d hd =>
    Finset.sum_pos (fun k hk => mul_pos (P.z k (Finset.mem_range.1 hk)) (P.u k (Finset.mem_range.1 hk) d hd))
      ⟨0, Finset.mem_range.2 L.K⟩
  have hn : ((obs s).length : ℝ) ≠ 0 := by
    have : (obs s).length ≠ 0 := fun h => L.some (List.length_eq_zero_iff.1 h)
    exact_mod_cast this
  rw [perplexity, accum0 (g := fun u => marginal s.z s.userZ u) (fun u hu => by
    rw [accum0 (fun k hk => pzx_ok H hk hu), Res.ok_bind]; rfl), Res.ok_bind]
  dsimp only
  rw [perpRows_eq]
  have hp := perpObs_ok H L.K (fun u => marginal s.z s.userZ u) (obs s) P hpx 0 0 (by have := L.few; omega)
  rw [zero_add, zero_add] at hp
  show (perpObs s (tab s.users.length fun u => marginal s.z s.userZ u) (obs s) (0, 0) >>= fun p =>
    fdiv (-p.2) p.1 >>= fun e => Res.ok (Real.exp e)) = _
  rw [hp, Res.ok_bind, fdiv_ok hn, Res.ok_bind]
  rfl

/-! ## A concrete case -/

/-- Two users and two items, three observations. -/
def small : Plsi := ⟨[(7, 0), (9, 1)], [7, 9], [(5, 0), (6, 1)], [5, 6], [[0, 1], [1]], [], [], []⟩

theorem small_ok : DataOk small := ⟨rfl, rfl, rfl, by simp [small]⟩

example : ∃ s', startLearning small 2 = .ok s' ∧ Learning s' := by
  obtain ⟨s', e, HD, ho, h1, h2, _, _, _, hp⟩ := C69_start small small_ok 2 (by omega) rfl rfl rfl
    (by simp [small]) (by simp [small])
  exact ⟨s', e, HD, by rw [ho]; simp [small, obs, obsFrom], by rw [ho]; simp [small, obs, obsFrom], hp⟩

/-! ## Findings -/

/-- `search_items` for a user who is not known adds them to the map and then reads outside of the
learned rows (plsi.hpp:107, 112). -/
theorem C69_finding_unknown_user (s : Plsi) (L : Learning s) (user : Int) (top : Nat)
    (hu : s.users.lookup user = none) : searchItems s user top = .ub := by
  have H := sh_of L.params
  have hlen : s.users.length = s.userlist.length := by rw [L.data.users]; simp
  rw [searchItems]
  have : getUserId s user = (s.userlist.length, (getUserId s user).2) := by unfold getUserId; rw [hu]
  rw [this]
  have hz : (getUserId s user).2.z = s.z := by unfold getUserId; rw [hu]
  have huz : (getUserId s user).2.userZ = s.userZ := by unfold getUserId; rw [hu]
  dsimp only
  rw [accum_ub _ (pzx_nt _ _) _ 0 [] 0 0 (by rw [hz]; exact L.K) (by
    rw [Nat.add_zero, pzx, hz, huz, H.z, at_tab L.K, Res.ok_bind, H.u, at2?, at_tab L.K, Res.ok_bind,
      at_ub (by simp [hlen])]; rfl)]
  rfl

/-- The same happens in `similar_items` for an item that is not known (plsi.hpp:133, 143, 153, 172). -/
theorem C69_finding_unknown_item (s : Plsi) (L : Learning s) (item : Int) (ty : Search) (top : Nat)
    (hu : s.items.lookup item = none) : similarItems s item ty top = .ub := by
  have H := sh_of L.params
  have hN : 0 < s.items.length := by
    obtain ⟨d, hd⟩ := List.exists_mem_of_ne_nil _ L.some
    exact Nat.lt_of_le_of_lt (Nat.zero_le _) (L.data.inV d hd)
  have hlen : s.items.length = s.itemlist.length := by rw [L.data.items]; simp
  have hg : getItemId s item = (s.itemlist.length, (getItemId s item).2) := by unfold getItemId; rw [hu]
  have hz : (getItemId s item).2.z = s.z := by unfold getItemId; rw [hu]
  have huz : (getItemId s item).2.itemZ = s.itemZ := by unfold getItemId; rw [hu]
  have hi : (getItemId s item).2.items.length = s.items.length + 1 := by unfold getItemId; rw [hu]; simp
  have hat : at2? s.itemZ 0 s.itemlist.length = .ub := by
    rw [H.v, at2?, at_tab L.K, Res.ok_bind, at_ub (by simp [hlen])]
  generalize hG : (getItemId s item).2 = G at *
  have HG : ∀ y k, y < s.items.length → k < s.z.length → pzy G y k = .ok (pz s.z k * pc s.itemZ k y) := by
    intro y k hy hk
    rw [← pzy_ok H hk hy]
    unfold pzy
    rw [hz, huz]
  rw [similarItems, hg]
  cases ty with
  | joint =>
    dsimp only
    rw [hi, rank, jointScore, accum_ub _ (fun i => bind_nt (at2_nt _ _ _) fun _ => bind_nt (at2_nt _ _ _) fun _ =>
      bind_nt (at_nt _ _) fun _ => by simp) _ 0 [] 0 0 (by rw [hz]; exact L.K) (by
      rw [Nat.add_zero, huz, hat]
      rw [H.v, at2_tab L.K hN]
      rfl)]
    rfl
  | conditional =>
    dsimp only
    rw [accum_ub _ (pzy_nt _ _) _ 0 [] 0 0 (by rw [hz]; exact L.K) (by
      rw [Nat.add_zero, pzy, huz, hat, hz]
      rw [H.z, at_tab L.K]
      rfl)]
    rfl
  | posterior =>
    dsimp only
    rw [hi, rank, posteriorScore, hz, accum0 (fun k hk => HG 0 k hN hk), Res.ok_bind]
    dsimp only
    rw [accum_ub _ (fun i => bind_nt (at2_nt _ _ _) fun _ => bind_nt (at_nt _ _) fun _ => by simp) _ 0 [] 0 0 L.K (by
      rw [Nat.add_zero, huz, hat]
      rfl)]
    rfl

/-- Calling `startLearning` again appends to `z_` (plsi.hpp:228) while `user_z_` keeps `K` rows
(plsi.hpp:223), so the next `step` reads outside of it. -/
theorem C69_finding_start_twice (s : Plsi) (K : Nat) (hK : 1 ≤ K) (hD : obs s ≠ []) (beta : ℝ) :
    (do let s1 ← startLearning s K
        let s2 ← startLearning s1 K
        step s2 beta) = .ub := by
  have key : ∀ s : Plsi, startLearning s K ≠ .throw ∧ ∀ s', startLearning s K = .ok s' →
      s'.z.length = s.z.length + K ∧ s'.userZ.length = K ∧ s'.matrix = s.matrix := by
    intro s
    unfold startLearning
    refine ⟨(startLoop_len _ _ _ _ _ _ _).1, ?_⟩
    intro s' h
    obtain ⟨h1, h2, h3⟩ := (startLoop_len _ _ _ _ _ _ _).2 s' h
    refine ⟨h1, ?_, h3⟩
    rw [h2]
    simp only [vresize, List.length_append, List.length_take, List.length_replicate]
    omega
  cases e1 : startLearning s K with
  | throw => exact absurd e1 (key s).1
  | ub => rfl
  | ok s1 =>
    rw [Res.ok_bind]
    obtain ⟨a1, a2, a3⟩ := (key s).2 s1 e1
    cases e2 : startLearning s1 K with
    | throw => exact absurd e2 (key s1).1
    | ub => rfl
    | ok s2 =>
      rw [Res.ok_bind]
      obtain ⟨b1, b2, b3⟩ := (key s1).2 s2 e2
      apply step_ub
      · omega
      · unfold obs at *
        rw [b3, a3]
        exact hD

/-- With no observation `step` divides by zero: all parameters become NaN in the code
(plsi.hpp:301: `0.0 / 0`). -/
theorem C69_finding_no_data (s : Plsi) (hD : obs s = []) (hK : 0 < s.z.length) (beta : ℝ) : step s beta = .ub := by
  rw [step, rowsLoop_eq]
  show (obsLoop s beta (obs s) _ >>= _) = _
  rw [hD, obsLoop, Res.ok_bind]
  obtain ⟨n, hn⟩ := Nat.exists_eq_succ_of_ne_zero hK.ne'
  rw [hn, updLoop]
  dsimp only
  rw [rep_tab, at_tab (by omega), Res.ok_bind]
  simp [fdiv]

end Verif.Props.Plsi

#print axioms Verif.Props.Plsi.C69_start
#print axioms Verif.Props.Plsi.C69_step
#print axioms Verif.Props.Plsi.C69_monotone
#print axioms Verif.Props.Plsi.C69_marginals
#print axioms Verif.Props.Plsi.C69_learning
#print axioms Verif.Props.Plsi.C69_loop_ends
#print axioms Verif.Props.Plsi.C69_search_items
#print axioms Verif.Props.Plsi.C69_similar_items
#print axioms Verif.Props.Plsi.C69_perplexity
#print axioms Verif.Props.Plsi.C69_finding_set_twice
