import Verif.Proof.Parallel
set_option linter.unusedSimpArgs false

/-!
# C49: `parallel_for` visits each index exactly once
-/
namespace Verif.Props.Parallel
open Verif.Parallel Verif.Spec.Parallel

section
variable (w n T : Nat)

theorem ranges_get (hn : n ≠ 0) (hT : T ≠ 0) (hw : n < 2 ^ w) (k : Nat) (r : Nat × Nat) (h : (ranges w n T)[k]? = some r) :
    k < threads n T ∧ r = (bnd (n / threads n T) (n % threads n T) k, bnd (n / threads n T) (n % threads n T) (k + 1)) := by
  rw [ranges_eq w n T hn hT hw, List.getElem?_map, Option.map_eq_some_iff] at h
  obtain ⟨j, hj, rfl⟩ := h
  obtain ⟨hk, he⟩ := List.getElem?_eq_some_iff.1 hj
  simp only [List.length_range] at hk
  simp only [List.getElem_range] at he
  subst he
  exact ⟨hk, rfl⟩

theorem ranges_le (hn : n ≠ 0) (hT : T ≠ 0) (hw : n < 2 ^ w) (k : Nat) (r : Nat × Nat) (h : (ranges w n T)[k]? = some r) : r.1 ≤ r.2 := by
  obtain ⟨-, rfl⟩ := ranges_get w n T hn hT hw k r h
  exact bnd_le _ _ k

theorem ranges_length (hn : n ≠ 0) (hT : T ≠ 0) (hw : n < 2 ^ w) : (ranges w n T).length = threads n T := by
  rw [ranges_eq w n T hn hT hw]; simp

/-- C49: the ranges handed out are as many as there are threads, but not more than `n`; they follow each other, cover exactly
`0 .. n-1`, none is empty and their lengths differ by at most 1. -/
theorem C49_ranges (hn : n ≠ 0) (hT : T ≠ 0) (hw : n < 2 ^ w) :
    (ranges w n T).length = min T n ∧
    (ranges w n T).flatMap (fun r => List.range' r.1 (r.2 - r.1)) = List.range n ∧
    ∀ r ∈ ranges w n T, r.1 < r.2 ∧ r.2 ≤ n ∧ (r.2 - r.1 = n / min T n ∨ r.2 - r.1 = n / min T n + 1) := by
  have ht := threads_pos hn hT
  refine ⟨by rw [ranges_length w n T hn hT hw, threads_eq], ?_, ?_⟩
  · rw [ranges_eq w n T hn hT hw, List.flatMap_map, flatMap_bnd, bnd_total n _ ht]
  · intro r hr
    obtain ⟨k, hk⟩ := List.mem_iff_getElem?.1 hr
    obtain ⟨hkt, rfl⟩ := ranges_get w n T hn hT hw k r hk
    rw [← threads_eq]
    have hs := bnd_succ (n / threads n T) (n % threads n T) k
    have hle := bnd_mono (n / threads n T) (n % threads n T) (show k + 1 ≤ threads n T by omega)
    rw [bnd_total n _ ht] at hle
    have hq : 0 < n / threads n T := Nat.div_pos (by rw [threads_eq]; omega) ht
    simp only
    split at hs <;> omega

example : ranges 64 10 4 = [(0, 3), (3, 6), (6, 8), (8, 10)] ∧ ranges 32 3 100 = [(0, 1), (1, 2), (2, 3)] := by decide

/-! ### Every run -/

/-- The state in which `parallel_for` ended. -/
theorem run_state {l : List Ev} {e : End} (h : Run w n T l e) :
    (n = 0 ∧ l = [] ∧ e = .returned) ∨ (n ≠ 0 ∧ T = 0 ∧ l = [] ∧ e = .threadNumZero) ∨
    (n ≠ 0 ∧ T ≠ 0 ∧ ∃ m s, Steps (ranges w n T) St.init m s ∧ s.trace = l ∧
      (e = .returned ∧ s.main = .returned ∨ (∃ k what, e = .threw k what ∧ s.main = .threw k what) ∨ e = .cantBegin ∧ s.main = .cantBegin)) := by
  cases h with
  | zero h => exact .inl ⟨h, rfl, rfl⟩
  | noThread h h2 => exact .inr (.inl ⟨h, h2, rfl, rfl⟩)
  | returned h h2 hs hm => exact .inr (.inr ⟨h, h2, _, _, hs, rfl, .inl ⟨rfl, hm⟩⟩)
  | threw h h2 hs hm => exact .inr (.inr ⟨h, h2, _, _, hs, rfl, .inr (.inl ⟨_, _, rfl, hm⟩)⟩)
  | cantBegin h h2 hs hm => exact .inr (.inr ⟨h, h2, _, _, hs, rfl, .inr (.inr ⟨rfl, hm⟩)⟩)

/-- The events of thread `k`. -/
theorem calls_thread {rs : List (Nat × Nat)} {s : St} (h : Inv rs s) {k i : Nat} (hc : (k, i) ∈ calls s.trace) : k < rs.length := by
  apply Classical.byContradiction
  intro hk
  have := (h.out k (by omega)).2
  have hm : Ev.enter k i ∈ s.trace := by
    rw [calls, List.mem_filterMap] at hc
    obtain ⟨e, he, h2⟩ := hc
    cases e with
    | enter k' i' => simp at h2; obtain ⟨rfl, rfl⟩ := h2; exact he
    | leave => simp at h2
  rw [mem_tr] at hm
  simp [Ev.who, this] at hm

/-- The index calls of all threads, grouped. -/
theorem calls_grouped {rs : List (Nat × Nat)} {s : St} (h : Inv rs s) :
    ((calls s.trace).map Prod.snd).Perm ((List.range rs.length).flatMap (fun k => callsOf k s.trace)) := by
  have := (perm_groups (calls s.trace) rs.length (fun e he => calls_thread h he)).map Prod.snd
  rw [List.map_flatMap] at this
  exact this

/-- C49: whatever the calls do and however the threads are scheduled, even when a thread cannot be started: no index is visited
twice and none outside of `0 .. n-1`; thread `k` visits indices of its own range only, without gaps and in ascending order, and
there are no threads but the first `min threadNum n`. -/
theorem C49_at_most_once (hw : n < 2 ^ w) (l : List Ev) (e : End) (h : Run w n T l e) :
    ((calls l).map Prod.snd).Nodup ∧ (∀ c ∈ calls l, c.1 < min T n ∧ c.2 < n) ∧
    ∀ k r, (ranges w n T)[k]? = some r → callsOf k l <+: List.range' r.1 (r.2 - r.1) := by
  obtain ⟨rfl, rfl, -⟩ | ⟨hn, rfl, rfl, -⟩ | ⟨hn, hT, m, s, hs, rfl, -⟩ := run_state w n T h
  · exact ⟨by simp [calls], by simp [calls], by simp [callsOf, calls]⟩
  · exact ⟨by simp [calls], by simp [calls], by simp [callsOf, calls]⟩
  have hle := ranges_le w n T hn hT hw
  have hi := inv_steps hle hs (inv_init _)
  have hlen := ranges_length w n T hn hT hw
  have ht := threads_pos hn hT
  have hpre : ∀ k r, (ranges w n T)[k]? = some r → callsOf k s.trace <+: List.range' r.1 (r.2 - r.1) := by
    intro k r hr
    obtain ⟨m, hm, hc⟩ := shape_calls (hi.shape k r hr) (hle k r hr)
    rw [callsOf_tr, hc]
    refine ⟨List.range' (r.1 + m) (r.2 - r.1 - m), ?_⟩
    have := List.range'_append (s := r.1) (m := m) (n := r.2 - r.1 - m) (step := 1)
    rw [Nat.one_mul] at this
    rw [this]
    congr 1
    omega
  have hsub : ((List.range (ranges w n T).length).flatMap (fun k => callsOf k s.trace)).Sublist (List.range n) := by
    obtain ⟨-, h2, -⟩ := C49_ranges w n T hn hT hw
    rw [← h2]
    have hgen : ∀ (rs : List (Nat × Nat)) (f : Nat → List Nat),
        (∀ k r, rs[k]? = some r → (f k).Sublist (List.range' r.1 (r.2 - r.1))) →
        ((List.range rs.length).flatMap f).Sublist (rs.flatMap (fun r => List.range' r.1 (r.2 - r.1))) := by
      intro rs
      induction rs with
      | nil => intro f _; simp
      | cons a rs ih =>
        intro f hf
        rw [List.length_cons, List.range_succ_eq_map, List.flatMap_cons, List.flatMap_cons, List.flatMap_map]
        exact (hf 0 a rfl).append (ih (fun k => f (k + 1)) (fun k r hr => hf (k + 1) r (by simpa using hr)))
    exact hgen _ _ (fun k r hr => (hpre k r hr).sublist)
  have hperm := calls_grouped hi
  refine ⟨hperm.nodup_iff.2 (hsub.nodup List.nodup_range), fun c hc => ⟨?_, ?_⟩, hpre⟩
  · have := calls_thread hi (k := c.1) (i := c.2) hc
    rw [hlen, threads_eq] at this
    exact this
  · have h1 : c.2 ∈ (calls s.trace).map Prod.snd := List.mem_map.2 ⟨c, hc, rfl⟩
    have := hsub.subset (hperm.mem_iff.1 h1)
    simpa using this

/-- A thread that is done without an index left out, and the events of one that stopped early. -/
theorem shape_done {k : Nat} {r : Nat × Nat} {er : String} {l : List Ev} (h : Shape k r .done er l) :
    (er = "" ∧ l = full k r.1 (r.2 - r.1)) ∨
    (∃ m, r.1 + m < r.2 ∧ er = "" ∧ l = full k r.1 m ++ [.enter k (r.1 + m), .leave k (r.1 + m) .no]) ∨
    (∃ m, r.1 + m < r.2 ∧ l = full k r.1 m ++ [.enter k (r.1 + m), .leave k (r.1 + m) (.exn er)]) := by
  generalize hp : TPc.done = p at h
  cases h with
  | none => simp at hp
  | loop => simp at hp
  | call => simp at hp
  | done => exact .inl ⟨rfl, rfl⟩
  | no m hm => exact .inr (.inl ⟨m, hm, rfl, rfl⟩)
  | exn m _ hm => exact .inr (.inr ⟨m, hm, rfl⟩)

theorem run_done (hw : n < 2 ^ w) (l : List Ev) (e : End) (h : Run w n T l e) (h1 : e ≠ .cantBegin) (h2 : e ≠ .threadNumZero) :
    (n = 0 ∧ l = [] ∧ e = .returned) ∨ (n ≠ 0 ∧ T ≠ 0 ∧ ∃ s, Inv (ranges w n T) s ∧ s.trace = l ∧
      (∀ k, k < (ranges w n T).length → s.thr k = .done) ∧
      (e = .returned ∧ (∀ k, k < (ranges w n T).length → s.err k = "") ∨
        ∃ k what, e = .threw k what ∧ k < (ranges w n T).length ∧ s.err k = what ∧ what ≠ "" ∧ ∀ j, j < k → s.err j = "")) := by
  obtain h | ⟨-, -, -, rfl⟩ | ⟨hn, hT, m, s, hs, rfl, hend⟩ := run_state w n T h
  · exact .inl h
  · exact absurd rfl h2
  · have hi := inv_steps (ranges_le w n T hn hT hw) hs (inv_init _)
    have hm := hi.main
    obtain ⟨rfl, hm'⟩ | ⟨k, what, rfl, hm'⟩ | ⟨rfl, -⟩ := hend
    · rw [hm'] at hm
      exact .inr ⟨hn, hT, s, hi, rfl, hm.1, .inl ⟨rfl, hm.2⟩⟩
    · rw [hm'] at hm
      exact .inr ⟨hn, hT, s, hi, rfl, hm.2.1, .inr ⟨k, what, rfl, hm.1, hm.2.2.1, hm.2.2.2.1, hm.2.2.2.2⟩⟩
    · exact absurd rfl h1

theorem ends_tr (k i : Nat) (l : List Ev) : (k, i) ∈ ends l ↔ ∃ out, Ev.leave k i out ∈ tr k l := by
  rw [ends, List.mem_filterMap]
  constructor
  · rintro ⟨e, he, h⟩
    cases e with
    | enter => simp at h
    | leave k' i' out => simp at h; obtain ⟨rfl, rfl⟩ := h; exact ⟨out, mem_tr.1 he⟩
  · rintro ⟨out, h⟩
    have := (mem_tr (e := Ev.leave k i out) (l := l)).2 h
    exact ⟨_, this, rfl⟩

theorem mem_full {k b m : Nat} {e : Ev} : e ∈ full k b m ↔ ∃ i, b ≤ i ∧ i < b + m ∧ (e = .enter k i ∨ e = .leave k i .yes) := by
  rw [full, List.mem_flatMap]
  constructor
  · rintro ⟨i, hi, he⟩
    rw [List.mem_range'_1] at hi
    simp at he
    exact ⟨i, hi.1, hi.2, he⟩
  · rintro ⟨i, h1, h2, he⟩
    exact ⟨i, by rw [List.mem_range'_1]; omega, by simpa using he⟩

/-- C49: when every call returns `true` and every thread could be started, then `parallel_for` returns normally, the calls visit
every index `0 .. n-1` exactly once, thread `k` visits exactly its own range in ascending order, and every call has ended before
`parallel_for` returns; for every schedule. -/
theorem C49_exactly_once (hw : n < 2 ^ w) (l : List Ev) (e : End) (h : Run w n T l e) (h1 : e ≠ .cantBegin) (h2 : e ≠ .threadNumZero)
    (ha : AllTrue l) :
    e = .returned ∧ ((calls l).map Prod.snd).Perm (List.range n) ∧
    (∀ k r, n ≠ 0 → (ranges w n T)[k]? = some r → callsOf k l = List.range' r.1 (r.2 - r.1)) ∧
    ∀ c ∈ calls l, c ∈ ends l := by
  obtain ⟨rfl, rfl, rfl⟩ | ⟨hn, hT, s, hi, rfl, hd, he⟩ := run_done w n T hw l e h h1 h2
  · exact ⟨rfl, by simp [calls], by simp, by simp [calls]⟩
  have hfull : ∀ k r, (ranges w n T)[k]? = some r → s.err k = "" ∧ tr k s.trace = full k r.1 (r.2 - r.1) := by
    intro k r hr
    have hsh := hi.shape k r hr
    rw [hd k (lt_of_some hr)] at hsh
    have hall : ∀ i out, Ev.leave k i out ∈ tr k s.trace → out = .yes := fun i out hm =>
      ha k i out ((mem_tr (e := Ev.leave k i out) (l := s.trace)).2 hm)
    obtain h | ⟨m, hm, -, hl⟩ | ⟨m, hm, hl⟩ := shape_done hsh
    · exact h
    · have := hall (r.1 + m) .no (by rw [hl]; simp)
      simp at this
    · have := hall (r.1 + m) (.exn (s.err k)) (by rw [hl]; simp)
      simp at this
  have hcalls : ∀ k r, (ranges w n T)[k]? = some r → callsOf k s.trace = List.range' r.1 (r.2 - r.1) := fun k r hr => by
    rw [callsOf_tr, (hfull k r hr).2, callsOf_full]
  refine ⟨?_, ?_, fun k r _ hr => hcalls k r hr, ?_⟩
  · obtain ⟨he, -⟩ | ⟨k, what, -, hk, hek, hne, -⟩ := he
    · exact he
    · obtain ⟨r, hr⟩ := some_of_lt hk
      rw [(hfull k r hr).1] at hek
      exact absurd hek.symm hne
  · refine (calls_grouped hi).trans (.of_eq ?_)
    rw [← (C49_ranges w n T hn hT hw).2.1]
    have hgen : ∀ (rs : List (Nat × Nat)) (f : Nat → List Nat), (∀ k r, rs[k]? = some r → f k = List.range' r.1 (r.2 - r.1)) →
        (List.range rs.length).flatMap f = rs.flatMap (fun r => List.range' r.1 (r.2 - r.1)) := by
      intro rs
      induction rs with
      | nil => intro f _; simp
      | cons a rs ih =>
        intro f hf
        rw [List.length_cons, List.range_succ_eq_map, List.flatMap_cons, List.flatMap_cons, List.flatMap_map]
        rw [hf 0 a rfl, ← ih (fun k => f (k + 1)) (fun k r hr => hf (k + 1) r (by simpa using hr))]
    exact hgen _ _ hcalls
  · rintro ⟨k, i⟩ hc
    obtain ⟨r, hr⟩ := some_of_lt (calls_thread hi hc)
    rw [ends_tr, (hfull k r hr).2]
    have hm : i ∈ callsOf k s.trace := List.mem_map.2 ⟨(k, i), by simp [hc], rfl⟩
    rw [hcalls k r hr, List.mem_range'_1] at hm
    exact ⟨.yes, mem_full.2 ⟨i, hm.1, hm.2, .inr rfl⟩⟩

/-- C49: an exception of a call (with a text) is reported: `parallel_for` throws, with the thread number and the text of a call
that threw, the one of the lowest thread number. -/
theorem C49_exception (hw : n < 2 ^ w) (l : List Ev) (e : End) (h : Run w n T l e) (h1 : e ≠ .cantBegin)
    (k i : Nat) (what : String) (hm : Ev.leave k i (.exn what) ∈ l) (hne : what ≠ "") :
    ∃ k' what' i', e = .threw k' what' ∧ Ev.leave k' i' (.exn what') ∈ l ∧ what' ≠ "" ∧ k' ≤ k := by
  have h2 : e ≠ .threadNumZero := by
    rintro rfl
    obtain ⟨-, -, he⟩ | ⟨-, -, rfl, -⟩ | ⟨-, -, _, _, -, -, ⟨he, -⟩ | ⟨_, _, he, -⟩ | ⟨he, -⟩⟩ := run_state w n T h
    · simp at he
    · simp at hm
    · simp at he
    · simp at he
    · simp at he
  obtain ⟨-, rfl, -⟩ | ⟨hn, hT, s, hi, rfl, hd, he⟩ := run_done w n T hw l e h h1 h2
  · simp at hm
  have hk : k < (ranges w n T).length := by
    apply Classical.byContradiction
    intro hc
    rw [mem_tr] at hm
    rw [(hi.out _ (by simpa [Ev.who] using hc)).2] at hm
    simp at hm
  have herr : s.err k = what := by
    obtain ⟨r, hr⟩ := some_of_lt hk
    have hsh := hi.shape k r hr
    rw [hd k hk] at hsh
    have hm' : Ev.leave k i (.exn what) ∈ tr k s.trace := mem_tr.1 hm
    obtain ⟨-, hl⟩ | ⟨m, -, -, hl⟩ | ⟨m, -, hl⟩ := shape_done hsh
    · rw [hl, mem_full] at hm'; simp at hm'
    · rw [hl, List.mem_append, mem_full] at hm'; simp at hm'
    · rw [hl, List.mem_append, mem_full] at hm'; simp at hm'; exact hm'.2.symm
  obtain ⟨-, he⟩ | ⟨k', what', he, hk', he', hne', hlow⟩ := he
  · rw [he k hk] at herr; exact absurd herr.symm hne
  · obtain ⟨r, hr⟩ := some_of_lt hk'
    have hsh := hi.shape k' r hr
    rw [hd k' hk', he'] at hsh
    refine ⟨k', what', ?_⟩
    have hkk : k' ≤ k := by
      apply Classical.byContradiction
      intro hc
      rw [hlow k (by omega)] at herr
      exact hne herr.symm
    obtain ⟨hemp, -⟩ | ⟨m, -, hemp, -⟩ | ⟨m, -, hl⟩ := shape_done hsh
    · exact absurd hemp hne'
    · exact absurd hemp hne'
    · refine ⟨r.1 + m, he, ?_, hne', hkk⟩
      rw [mem_tr]
      show _ ∈ tr k' s.trace
      rw [hl]; simp

/-- C49: `parallel_for` reports an exception only when a call threw one with that text. -/
theorem C49_threw_reason (hw : n < 2 ^ w) (l : List Ev) (k : Nat) (what : String) (h : Run w n T l (.threw k what)) :
    what ≠ "" ∧ ∃ i, Ev.leave k i (.exn what) ∈ l := by
  obtain ⟨-, -, he⟩ | ⟨hn, hT, s, hi, rfl, hd, he⟩ := run_done w n T hw l _ h (by simp) (by simp)
  · simp at he
  obtain ⟨he, -⟩ | ⟨k', what', he, hk', he', hne', hlow⟩ := he
  · simp at he
  · simp only [End.threw.injEq] at he
    obtain ⟨rfl, rfl⟩ := he
    obtain ⟨r, hr⟩ := some_of_lt hk'
    have hsh := hi.shape k r hr
    rw [hd k hk', he'] at hsh
    refine ⟨hne', ?_⟩
    obtain ⟨hemp, -⟩ | ⟨m, -, hemp, -⟩ | ⟨m, -, hl⟩ := shape_done hsh
    · exact absurd hemp hne'
    · exact absurd hemp hne'
    · refine ⟨r.1 + m, ?_⟩
      rw [mem_tr]
      show _ ∈ tr k s.trace
      rw [hl]; simp

/-- C49: an index is left out only behind a call of the same range that returned `false` or threw. -/
theorem C49_left_out (hw : n < 2 ^ w) (l : List Ev) (e : End) (h : Run w n T l e) (h1 : e ≠ .cantBegin) (h2 : e ≠ .threadNumZero)
    (i : Nat) (hin : i < n) (hni : i ∉ (calls l).map Prod.snd) :
    ∃ k r j out, (ranges w n T)[k]? = some r ∧ r.1 ≤ j ∧ j < i ∧ i < r.2 ∧ Ev.leave k j out ∈ l ∧ out ≠ .yes := by
  obtain ⟨rfl, -, -⟩ | ⟨hn, hT, s, hi, rfl, hd, he⟩ := run_done w n T hw l e h h1 h2
  · omega
  have hcov := (C49_ranges w n T hn hT hw).2.1
  have hmem : i ∈ List.range n := by simpa using hin
  rw [← hcov, List.mem_flatMap] at hmem
  obtain ⟨r, hr, hir⟩ := hmem
  rw [List.mem_range'_1] at hir
  obtain ⟨k, hk⟩ := List.mem_iff_getElem?.1 hr
  have hsh := hi.shape k r hk
  rw [hd k (lt_of_some hk)] at hsh
  have hcall : ∀ j, j ∈ callsOf k s.trace → j ≠ i := by
    rintro j hj rfl
    apply hni
    obtain ⟨c, hc, hcj⟩ := List.mem_map.1 hj
    exact List.mem_map.2 ⟨c, (List.mem_filter.1 hc).1, hcj⟩
  rw [callsOf_tr] at hcall
  obtain ⟨-, hl⟩ | ⟨m, hm, -, hl⟩ | ⟨m, hm, hl⟩ := shape_done hsh
  · rw [hl, callsOf_full] at hcall
    exact absurd rfl (hcall i (by rw [List.mem_range'_1]; omega))
  · have hc : callsOf k (tr k s.trace) = List.range' r.1 (m + 1) := by
      rw [hl, callsOf_append, callsOf_full, List.range'_concat]; simp [callsOf, calls]
    rw [hc] at hcall
    have hlt : r.1 + m < i := by
      apply Classical.byContradiction
      intro hcc
      exact hcall i (by rw [List.mem_range'_1]; omega) rfl
    refine ⟨k, r, r.1 + m, .no, hk, by omega, hlt, by omega, ?_, by simp⟩
    rw [mem_tr]; show _ ∈ tr k s.trace; rw [hl]; simp
  · have hc : callsOf k (tr k s.trace) = List.range' r.1 (m + 1) := by
      rw [hl, callsOf_append, callsOf_full, List.range'_concat]; simp [callsOf, calls]
    rw [hc] at hcall
    have hlt : r.1 + m < i := by
      apply Classical.byContradiction
      intro hcc
      exact hcall i (by rw [List.mem_range'_1]; omega) rfl
    refine ⟨k, r, r.1 + m, .exn (s.err k), hk, by omega, hlt, by omega, ?_, by simp⟩
    rw [mem_tr]; show _ ∈ tr k s.trace; rw [hl]; simp
end

/-- C49: when every call ends, `parallel_for` ends: an execution has at most `2 n + 7 min(threadNum, n) + 8` steps, and as
long as the main thread has not ended some thread can take a step (no deadlock). -/
theorem C49_terminates (w n T : Nat) (hn : n ≠ 0) (hT : T ≠ 0) (hw : n < 2 ^ w) (m : Nat) (s : St)
    (h : Steps (ranges w n T) St.init m s) :
    m ≤ 2 * n + 7 * min T n + 8 ∧
    (s.main = .returned ∨ (∃ k what, s.main = .threw k what) ∨ s.main = .cantBegin ∨ ∃ s', Step (ranges w n T) s s') := by
  have hle := ranges_le w n T hn hT hw
  have hr := rank_steps hle h (inv_init _)
  obtain ⟨h1, h2, -⟩ := C49_ranges w n T hn hT hw
  constructor
  · simp only [rank, St.init, mrank] at hr
    rw [tsum_init, h2, h1, List.length_range] at hr
    omega
  · by_cases hf : s.main.final = false
    · exact .inr (.inr (.inr (progress (inv_steps hle h (inv_init _)) hf)))
    · cases hm : s.main <;> rw [hm] at hf <;> simp_all [MPc.final]

/-- C49: the same for a sequence of states: it cannot go on for ever. -/
theorem C49_no_endless_run (w n T : Nat) (hn : n ≠ 0) (hT : T ≠ 0) (hw : n < 2 ^ w) (f : Nat → St) (h0 : f 0 = St.init) (m : Nat)
    (h : ∀ i, i < m → Step (ranges w n T) (f i) (f (i + 1))) : m ≤ 2 * n + 7 * min T n + 8 := by
  have key : ∀ m, (∀ i, i < m → Step (ranges w n T) (f i) (f (i + 1))) → Steps (ranges w n T) St.init m (f m) := by
    intro m
    induction m with
    | zero =>
      intro _
      rw [h0]
      exact .nil
    | succ m ih =>
      intro h
      exact .snoc (ih fun i hi => h i (by omega)) (h m (by omega))
  exact (C49_terminates w n T hn hT hw m _ (key m h)).1

/-! ### Runs -/

/-- Two threads, three indices, the calls of both overlap: the hypotheses of the theorems are met. -/
theorem demo : Run 64 3 2 [.enter 0 0, .enter 1 2, .leave 0 0 .yes, .leave 1 2 .yes, .enter 0 1, .leave 0 1 .yes] .returned := by
  have h0 : Steps (ranges 64 3 2) St.init 0 _ := .nil
  have h1 := h0.snoc (.begin (k := 0) (r := (0, 2)) rfl (by decide))
  have h2 := h1.snoc (.enter (k := 0) (i := 0) (r := (0, 2)) rfl (by decide) (by decide))
  have h3 := h2.snoc (.begin (k := 1) (r := (2, 3)) rfl (by decide))
  have h4 := h3.snoc (.enter (k := 1) (i := 2) (r := (2, 3)) rfl (by decide) (by decide))
  have h5 := h4.snoc (.allBegun rfl)
  have h6 := h5.snoc (.yes (k := 0) (i := 0) rfl)
  have h7 := h6.snoc (.yes (k := 1) (i := 2) rfl)
  have h8 := h7.snoc (.enter (k := 0) (i := 1) (r := (0, 2)) rfl (by decide) (by decide))
  have h9 := h8.snoc (.loopEnd (k := 1) (i := 3) (r := (2, 3)) rfl (by decide) (by decide))
  have h10 := h9.snoc (.yes (k := 0) (i := 1) rfl)
  have h11 := h10.snoc (.loopEnd (k := 0) (i := 2) (r := (0, 2)) rfl (by decide) (by decide))
  have h12 := h11.snoc (.join (k := 0) rfl (by decide) rfl)
  have h13 := h12.snoc (.join (k := 1) rfl (by decide) rfl)
  have h14 := h13.snoc (.allJoined rfl)
  have h15 := h14.snoc (.checkNext (k := 0) rfl (by decide) rfl)
  have h16 := h15.snoc (.checkNext (k := 1) rfl (by decide) rfl)
  have h17 := h16.snoc (.return rfl)
  exact .returned (by decide) (by decide) h17 rfl

example : AllTrue [.enter 0 0, .enter 1 2, .leave 0 0 .yes, .leave 1 2 .yes, .enter 0 1, .leave 0 1 .yes] := by
  intro k i out h
  simp at h
  obtain ⟨-, -, rfl⟩ | ⟨-, -, rfl⟩ | ⟨-, -, rfl⟩ := h <;> rfl

/-- One index, one call that throws. -/
theorem demo_exn (what : String) (e : End)
    (he : what = "" ∧ e = .returned ∨ what ≠ "" ∧ e = .threw 0 what) : Run 64 1 1 [.enter 0 0, .leave 0 0 (.exn what)] e := by
  have h0 : Steps (ranges 64 1 1) St.init 0 _ := .nil
  have h1 := h0.snoc (.begin (k := 0) (r := (0, 1)) rfl (by decide))
  have h2 := h1.snoc (.allBegun rfl)
  have h3 := h2.snoc (.enter (k := 0) (i := 0) (r := (0, 1)) rfl (by decide) (by decide))
  have h4 := h3.snoc (.exn (k := 0) (i := 0) (what := what) rfl)
  have h5 := h4.snoc (.join (k := 0) rfl (by decide) rfl)
  have h6 := h5.snoc (.allJoined rfl)
  obtain ⟨rfl, rfl⟩ | ⟨hne, rfl⟩ := he
  · have h7 := h6.snoc (.checkNext (k := 0) rfl (by decide) rfl)
    have h8 := h7.snoc (.return rfl)
    exact .returned (by decide) (by decide) h8 rfl
  · have h7 := h6.snoc (.checkThrow (k := 0) rfl (by decide) hne)
    exact .threw (by decide) (by decide) h7 rfl

/-- The hypotheses of `C49_exception` are met. -/
example : Run 64 1 1 [.enter 0 0, .leave 0 0 (.exn "bad")] (.threw 0 "bad") := demo_exn "bad" _ (.inr ⟨by decide, rfl⟩)

/-- C49 finding: an exception with an empty text is swallowed. -/
theorem C49_finding_empty_what : Run 64 1 1 [.enter 0 0, .leave 0 0 (.exn "")] .returned := demo_exn "" _ (.inl ⟨rfl, rfl⟩)

/-- C49 finding: when a thread cannot be started, an earlier one runs on while its object is being destroyed: `dead` while the
thread is still before its first call (the virtual `threadEntry` is gone then) or inside a call. -/
theorem C49_finding_destroyed_while_running :
    (∃ m s, Steps (ranges 64 2 2) St.init m s ∧ s.dead 0 = true ∧ s.thr 0 = .loop 0) ∧
    (∃ m s, Steps (ranges 64 2 2) St.init m s ∧ s.dead 0 = true ∧ s.thr 0 = .call 0) := by
  have h0 : Steps (ranges 64 2 2) St.init 0 _ := .nil
  have h1 := h0.snoc (.begin (k := 0) (r := (0, 1)) rfl (by decide))
  have h2 := h1.snoc (.beginFails (k := 1) rfl (by decide))
  have h3 := h2.snoc (.destroy (k := 1) rfl)
  have h4 := h3.snoc (.destroyJoin (k := 1) rfl (.inl rfl))
  have h5 := h4.snoc (.destroy (k := 0) rfl)
  have h6 := h5.snoc (.enter (k := 0) (i := 0) (r := (0, 1)) rfl (by decide) (by decide))
  exact ⟨⟨_, _, h5, rfl, rfl⟩, ⟨_, _, h6, rfl, rfl⟩⟩

/-- C49: without such a failure no object is destroyed before its thread has ended. -/
theorem C49_no_use_after_destroy (w n T : Nat) (m : Nat) (s : St) (h : Steps (ranges w n T) St.init m s)
    (hm : s.main = .returned ∨ (∃ k what, s.main = .threw k what) ∨ (∃ k, s.main = .begin k ∨ s.main = .join k ∨ s.main = .check k)) :
    ∀ k, s.dead k = false := by
  have key : ∀ (s : St) (m : Nat), Steps (ranges w n T) St.init m s →
      (∀ k, s.dead k = false) ∨ (∃ k, s.main = .destroy k ∨ s.main = .destroyJoin k) ∨ s.main = .cantBegin := by
    intro s m h
    generalize hi : St.init = s0 at h
    induction h with
    | nil => subst hi; exact .inl (fun _ => rfl)
    | snoc _ hs ih =>
      rcases ih with h | ⟨k, h | h⟩ | h
      · cases hs with
        | destroy => exact .inr (.inl ⟨_, .inr rfl⟩)
        | _ => exact .inl h
      all_goals
        cases hs <;> simp_all
  rcases key s m h with h | ⟨k, h | h⟩ | h
  · exact h
  all_goals
    rcases hm with hm | ⟨_, _, hm⟩ | ⟨_, hm | hm | hm⟩ <;> rw [hm] at h <;> simp at h

#print axioms C49_ranges
#print axioms C49_at_most_once
#print axioms C49_exactly_once
#print axioms C49_exception
#print axioms C49_threw_reason
#print axioms C49_left_out
#print axioms C49_terminates
#print axioms C49_no_endless_run
#print axioms C49_finding_empty_what
#print axioms C49_finding_destroyed_while_running
#print axioms C49_no_use_after_destroy

end Verif.Props.Parallel
