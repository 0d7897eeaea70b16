import Verif.Spec.Array

set_option linter.unusedSimpArgs false

namespace Verif.Array

open Verif.Spec.Array

variable {α : Type}

/-- Array `a` holds the elements `l` in memory `h`. -/
def Has (h : Heap α) (a : Arr) (l : List α) : Prop :=
  l.length = a.size ∧
    match a.p with
    | none => a.alloc = 0 ∧ l = []
    | some q => ∃ rest, h[q]? = some (some (l ++ rest)) ∧ (l ++ rest).length = a.alloc

theorem Has.size_le {h : Heap α} {a : Arr} {l : List α} (H : Has h a l) : a.size ≤ a.alloc := by
  obtain ⟨h1, h2⟩ := H
  rcases hp : a.p with _ | q
  · rw [hp] at h2; simp only at h2; obtain ⟨h2, rfl⟩ := h2; simp at h1; omega
  · rw [hp] at h2
    obtain ⟨r, -, h3⟩ := h2
    simp at h3; omega

theorem Has.null (h : Heap α) : Has h Arr.null [] := by simp [Has, Arr.null]

/-- `h'` and `a'` come from `h` and `a` with only the memory of the array touched. -/
def Frame (h : Heap α) (a : Arr) (h' : Heap α) (a' : Arr) : Prop :=
  (a'.p = a.p ∨ ∃ q, a'.p = some q ∧ h.length ≤ q) ∧
  (∀ q, a.p ≠ some q → q < h.length → h'[q]? = h[q]?) ∧
  (∀ q b, h'[q]? = some (some b) → a'.p = some q ∨ (a.p ≠ some q ∧ h[q]? = some (some b)))

theorem store_eq {h : Heap α} {q : Nat} {d : List α} (hd : h[q]? = some (some d)) {i : Nat} (x : α)
    (hi : i < d.length) : store h (some q) i x = .ok (h.set q (some (d.set i x))) := by
  simp [store, hd, hi]

theorem load_eq {h : Heap α} {q : Nat} {d : List α} (hd : h[q]? = some (some d)) {i : Nat}
    (hi : i < d.length) : load h (some q) i = .ok d[i] := by
  simp [load, hd, hi]

theorem lt_of_get {h : Heap α} {q : Nat} {d : List α} (hd : h[q]? = some (some d)) : q < h.length := by
  rw [List.getElem?_eq_some_iff] at hd
  exact hd.1

theorem set_same {h : Heap α} {q : Nat} {d : List α} (hd : h[q]? = some (some d)) : h.set q (some d) = h := by
  obtain ⟨h1, h2⟩ := List.getElem?_eq_some_iff.mp hd
  rw [← h2]
  exact List.set_getElem_self h1

theorem copy_eq {q p : Nat} (hqp : p ≠ q) {s : List α} : ∀ (cnt i : Nat) (h : Heap α) (d : List α),
    h[q]? = some (some d) → h[p]? = some (some s) → i + cnt ≤ s.length → i + cnt ≤ d.length →
    copy (some q) (some p) cnt i h
      = .ok (h.set q (some (d.take i ++ (s.drop i).take cnt ++ d.drop (i + cnt)))) := by
  intro cnt
  induction cnt with
  | zero =>
    intro i h d hd hs h1 h2
    simp only [copy, List.take_zero, List.append_nil, Nat.add_zero, List.take_append_drop]
    rw [set_same hd]
  | succ cnt ih =>
    intro i h d hd hs h1 h2
    have hq := lt_of_get hd
    rw [copy, load_eq hs (by omega), Res.ok_bind, store_eq hd _ (by omega), Res.ok_bind,
      ih (i + 1) _ (d.set i (s[i]'(by omega))) (by simp [hq]) (by
        rw [List.getElem?_set_ne (by omega)]; exact hs) (by omega) (by simp; omega),
      List.set_set]
    congr 3
    rw [List.take_set, List.drop_set, if_pos (by omega)]
    rw [show i + 1 + cnt = i + (cnt + 1) by omega]
    congr 1
    apply List.ext_getElem?
    intro n
    simp only [List.getElem?_append, List.getElem?_take, List.getElem?_drop, List.length_set, List.length_take,
      List.getElem?_set]
    by_cases hn : n < i
    · simp [hn, Nat.min_eq_left (show i ≤ d.length by omega), Nat.min_eq_left (show i + 1 ≤ d.length by omega),
        show n < i + 1 by omega, show ¬ i = n by omega]
    · by_cases hn' : n = i
      · subst hn'
        simp [Nat.min_eq_left (show n ≤ d.length by omega), Nat.min_eq_left (show n + 1 ≤ d.length by omega)]
      · simp only [Nat.min_eq_left (show i ≤ d.length by omega), Nat.min_eq_left (show i + 1 ≤ d.length by omega),
          hn, show ¬ n < i + 1 by omega, if_false]
        rw [show i + 1 + (n - (i + 1)) = i + (n - i) by omega]
        by_cases h5 : n - i < cnt + 1
        · simp [h5, show n - (i + 1) < cnt by omega]
        · simp [h5, show ¬ n - (i + 1) < cnt by omega]

theorem copy_self {q : Nat} : ∀ (cnt i : Nat) (h : Heap α) (d : List α),
    h[q]? = some (some d) → i + cnt ≤ d.length → copy (some q) (some q) cnt i h = .ok h := by
  intro cnt
  induction cnt with
  | zero => intros; rfl
  | succ cnt ih =>
    intro i h d hd h2
    have : h.set q (some (d.set i (d[i]'(by omega)))) = h := by
      rw [List.set_getElem_self]
      exact set_same hd
    rw [copy, load_eq hd (by omega), Res.ok_bind, store_eq hd _ (by omega), Res.ok_bind, this]
    exact ih (i + 1) h d hd (by omega)

theorem setZero_eq {q : Nat} (z : α) : ∀ (cnt i : Nat) (h : Heap α) (d : List α),
    h[q]? = some (some d) → i + cnt ≤ d.length →
    setZero z (some q) cnt i h
      = .ok (h.set q (some (d.take i ++ List.replicate cnt z ++ d.drop (i + cnt)))) := by
  intro cnt
  induction cnt with
  | zero =>
    intro i h d hd h1
    simp only [setZero, List.replicate_zero, List.append_nil, Nat.add_zero, List.take_append_drop]
    rw [set_same hd]
  | succ cnt ih =>
    intro i h d hd h2
    have hq := lt_of_get hd
    rw [setZero, store_eq hd _ (by omega), Res.ok_bind,
      ih (i + 1) _ (d.set i z) (by simp [hq]) (by simp; omega), List.set_set]
    congr 3
    rw [List.drop_set, if_pos (by omega), show i + 1 + cnt = i + (cnt + 1) by omega]
    congr 1
    rw [List.take_succ, List.take_set, List.set_eq_of_length_le (by simp; omega)]
    simp [show i < d.length by omega, List.replicate_succ]

theorem alloc_cap {sz n : Nat} (h0 : 0 < sz) (hn : n * sz < 2 ^ 64) : n * sz % 2 ^ 64 / sz = n := by
  rw [Nat.mod_eq_of_lt hn, Nat.mul_div_cancel _ h0]

/-- `allocCopy` from the array itself or from another one. -/
theorem allocCopy_ok {sz : Nat} (h0 : 0 < sz) (junk : Nat → Nat → α) {h : Heap α} {a b : Arr} {l m : List α}
    (ha : Has h a l) (hb : Has h b m) {n : Nat} (hn : n * sz < 2 ^ 64) (hm : m.length ≤ n) :
    ∃ h' rest, allocCopy sz junk h a n b.p b.size = .ok (h', ⟨some h.length, a.size, n⟩) ∧
      h'[h.length]? = some (some (m ++ rest)) ∧ (m ++ rest).length = n ∧
      (∀ q, a.p ≠ some q → q < h.length → h'[q]? = h[q]?) ∧
      (∀ q c, h'[q]? = some (some c) → q = h.length ∨ (a.p ≠ some q ∧ h[q]? = some (some c))) := by
  let J := (List.range n).map (junk h.length)
  have hJ : J.length = n := by simp [J]
  let h1 : Heap α := h ++ [some J]
  have hal : alloc sz junk n h = (h1, some h.length) := by simp [alloc, alloc_cap h0 hn, h1, J]
  have h1l : h1[h.length]? = some (some J) := by simp [h1]
  have hcopy : copy (some h.length) b.p b.size 0 h1 = .ok (h1.set h.length (some (m ++ J.drop m.length))) := by
    obtain ⟨hb1, hb2⟩ := hb
    rcases hp : b.p with _ | p
    · rw [hp] at hb2
      obtain ⟨-, rfl⟩ := hb2
      rw [← hb1]
      simp only [List.length_nil, copy, List.nil_append, List.drop_zero]
      simp [h1]
    · rw [hp] at hb2
      obtain ⟨r, hr, hr2⟩ := hb2
      have hlt := lt_of_get hr
      rw [copy_eq (by omega) b.size 0 h1 J h1l (s := m ++ r) (by
        simp only [h1]; rw [List.getElem?_append_left hlt]; exact hr) (by simp; omega) (by omega)]
      simp [← hb1]
  let h2 : Heap α := h ++ [some (m ++ J.drop m.length)]
  have h2e : h1.set h.length (some (m ++ J.drop m.length)) = h2 := by simp [h1, h2]
  rw [h2e] at hcopy
  have hfree : ∃ h', free h2 a.p = .ok h' ∧ h'[h.length]? = some (some (m ++ J.drop m.length)) ∧
      (∀ q, a.p ≠ some q → q < h.length → h'[q]? = h[q]?) ∧
      (∀ q c, h'[q]? = some (some c) → q = h.length ∨ (a.p ≠ some q ∧ h[q]? = some (some c))) := by
    obtain ⟨ha1, ha2⟩ := ha
    rcases hp : a.p with _ | p
    · refine ⟨h2, rfl, by simp [h2], ?_, ?_⟩
      · intro q _ hq; simp only [h2]; exact List.getElem?_append_left hq
      · intro q c hc
        have hq := lt_of_get hc
        simp only [h2, List.length_append, List.length_singleton] at hq
        by_cases he : q = h.length
        · exact Or.inl he
        · right
          simp only [h2] at hc
          rw [List.getElem?_append_left (by omega)] at hc
          exact ⟨by simp, hc⟩
    · rw [hp] at ha2
      obtain ⟨r, hr, -⟩ := ha2
      have hlt := lt_of_get hr
      have : h2[p]? = some (some (l ++ r)) := by
        simp only [h2]; rw [List.getElem?_append_left hlt]; exact hr
      refine ⟨h2.set p none, by simp [free, this], ?_, ?_, ?_⟩
      · rw [List.getElem?_set_ne (by omega)]; simp [h2]
      · intro q h1 hq
        rw [List.getElem?_set_ne (by rintro rfl; exact h1 rfl)]
        simp only [h2]; exact List.getElem?_append_left hq
      · intro q c hc
        have hq := lt_of_get hc
        simp only [h2, List.length_append, List.length_singleton, List.length_set] at hq
        by_cases he : q = h.length
        · exact Or.inl he
        · right
          have hpq : p ≠ q := by
            rintro rfl
            rw [List.getElem?_set_self (by simp [h2]; omega)] at hc
            simp at hc
          rw [List.getElem?_set_ne hpq] at hc
          simp only [h2] at hc
          rw [List.getElem?_append_left (by omega)] at hc
          exact ⟨by simpa using hpq, hc⟩
  obtain ⟨h', hf, g1, g2, g3⟩ := hfree
  refine ⟨h', J.drop m.length, ?_, g1, by simp [hJ]; omega, g2, g3⟩
  rw [allocCopy, hal]
  simp only [hcopy, hf, Res.ok_bind, Res.pure_eq]

theorem frame_set {h : Heap α} {a a' : Arr} {q : Nat} (hq : q < h.length) (hp : a.p = some q) (hp' : a'.p = some q)
    (d : List α) : Frame h a (h.set q (some d)) a' := by
  refine ⟨Or.inl (hp'.trans hp.symm), ?_, ?_⟩
  · intro q' h1 h2
    rw [hp] at h1
    rw [List.getElem?_set_ne (by rintro rfl; exact h1 rfl)]
  · intro q' b hb
    rw [hp, hp']
    by_cases he : q = q'
    · left; rw [he]
    · rw [List.getElem?_set_ne he] at hb
      exact Or.inr ⟨by simpa using he, hb⟩

theorem Frame.refl (h : Heap α) (a a' : Arr) (hp : a'.p = a.p) : Frame h a h a' := by
  refine ⟨Or.inl hp, fun _ _ _ => rfl, ?_⟩
  intro q b hb
  by_cases he : a.p = some q
  · exact Or.inl (hp.trans he)
  · exact Or.inr ⟨he, hb⟩

/-- The memory after `resize`. -/
theorem resize_ok {sz : Nat} (h0 : 0 < sz) (junk : Nat → Nat → α) (z : α) {h : Heap α} {a : Arr} {l : List α}
    (ha : Has h a l) {n : Nat} (hn : n * sz < 2 ^ 64) (b : Bool) :
    ∃ h' a' ex, resize sz junk z h a n b = .ok (h', a') ∧ Has h' a' (l.take n ++ ex) ∧
      ex.length = n - l.length ∧ (b = true → ex = List.replicate (n - l.length) z) ∧ Frame h a h' a' := by
  by_cases hs : n ≤ a.size
  · refine ⟨h, { a with size := n }, [], by rw [resize, if_pos hs], ?_, ?_, ?_, Frame.refl _ _ _ rfl⟩
    · obtain ⟨h1, h2⟩ := ha
      refine ⟨by simp; omega, ?_⟩
      simp only
      rcases hp : a.p with _ | q
      · rw [hp] at h2; simp only at h2 ⊢; obtain ⟨h2, rfl⟩ := h2; simp [h2]
      · rw [hp] at h2
        obtain ⟨r, h3, h4⟩ := h2
        refine ⟨l.drop n ++ r, ?_, ?_⟩
        · rw [h3, List.append_nil, ← List.append_assoc, List.take_append_drop]
        · rw [← h4]; simp; omega
    · have := ha.1; simp; omega
    · intro _; have := ha.1; rw [show n - l.length = 0 by omega]; rfl
  · rw [resize, if_neg hs]
    have hl := ha.1
    have hle := ha.size_le
    have key : ∃ h1 a1 r q, grow sz junk h a n = .ok (h1, a1) ∧ a1.p = some q ∧ a1.size = a.size ∧
        h1[q]? = some (some (l ++ r)) ∧ (l ++ r).length = a1.alloc ∧ n ≤ a1.alloc ∧ Frame h a h1 a1 := by
      rw [grow]
      by_cases hg : n > a.alloc
      · rw [if_pos hg]
        obtain ⟨h', r, e, g1, g2, g3, g4⟩ := allocCopy_ok h0 junk ha ha hn (by omega)
        refine ⟨h', _, r, h.length, e, rfl, rfl, g1, g2, Nat.le_refl _, Or.inr ⟨_, rfl, Nat.le_refl _⟩, g3, ?_⟩
        intro q c hc
        rcases g4 q c hc with rfl | g
        · exact Or.inl rfl
        · exact Or.inr g
      · rw [if_neg hg]
        obtain ⟨h1, h2⟩ := ha
        rcases hp : a.p with _ | q
        · rw [hp] at h2; simp only at h2; omega
        · rw [hp] at h2
          obtain ⟨r, h3, h4⟩ := h2
          exact ⟨h, a, r, q, rfl, hp, rfl, h3, h4, by omega, Frame.refl _ _ _ rfl⟩
    obtain ⟨h1, a1, r, q, e1, hp, hsz, hq, hlen, hcap, F⟩ := key
    rw [e1, Res.ok_bind]
    have hqlt := lt_of_get hq
    simp only [List.length_append] at hlen
    cases b with
    | false =>
      refine ⟨h1, { a1 with size := n }, r.take (n - l.length), by simp [clearNew], ?_, by simp; omega, by simp, F⟩
      refine ⟨by simp; omega, ?_⟩
      simp only [hp]
      refine ⟨r.drop (n - l.length), ?_, ?_⟩
      · rw [hq, List.take_of_length_le (by omega), List.append_assoc, List.take_append_drop]
      · simp only [List.length_append, List.length_take, List.length_drop]; omega
    | true =>
      have e2 : clearNew z h1 a1 n true
          = .ok (h1.set q (some (l ++ List.replicate (n - l.length) z ++ (l ++ r).drop n))) := by
        rw [clearNew, if_pos rfl, hp, setZero_eq z _ _ _ _ hq (by simp; omega), hsz, ← hl,
          List.take_left, show l.length + (n - l.length) = n by omega]
      refine ⟨h1.set q (some (l ++ List.replicate (n - l.length) z ++ (l ++ r).drop n)), { a1 with size := n },
        List.replicate (n - l.length) z, by
        simp only [e2, Res.ok_bind, Res.pure_eq], ?_, by simp, by simp, ?_⟩
      · refine ⟨by simp; omega, ?_⟩
        simp only [hp]
        refine ⟨(l ++ r).drop n, ?_, ?_⟩
        · rw [List.getElem?_set_self hqlt, List.take_of_length_le (by omega)]
        · simp only [List.length_append, List.length_take, List.length_drop, List.length_replicate]; omega
      · have F2 := frame_set (a := a1) (a' := { a1 with size := n }) hqlt hp hp
          (l ++ List.replicate (n - l.length) z ++ (l ++ r).drop n)
        obtain ⟨f1, f2, f3⟩ := F
        obtain ⟨k1, k2, k3⟩ := F2
        refine ⟨f1, ?_, ?_⟩
        · intro q' n1 n2
          rw [List.getElem?_set_ne ?_]
          · exact f2 q' n1 n2
          · rintro rfl
            rcases f1 with f1 | ⟨q2, f1, f4⟩
            · exact n1 (f1 ▸ hp)
            · rw [hp] at f1
              simp only [Option.some.injEq] at f1
              omega
        · intro q' c hc
          rcases k3 q' c hc with g | ⟨g1, g2⟩
          · exact Or.inl g
          · rcases f3 q' c g2 with g | g
            · exact absurd g g1
            · exact Or.inr g

/-- The memory after `operator=`. -/
theorem assign_ok {sz : Nat} (h0 : 0 < sz) (junk : Nat → Nat → α) {h : Heap α} {a b : Arr} {l m : List α}
    (ha : Has h a l) (hb : Has h b m) (hn : b.size * sz < 2 ^ 64) (hab : a = b ∨ ∀ q, a.p = some q → b.p ≠ some q) :
    ∃ h' a', assign sz junk h a b = .ok (h', a') ∧ Has h' a' m ∧ Frame h a h' a' := by
  have hm := hb.1
  by_cases hc : a.alloc < b.size
  · obtain ⟨h', r, e, g1, g2, g3, g4⟩ := allocCopy_ok h0 junk ha hb hn (by omega)
    refine ⟨h', ⟨some h.length, b.size, b.size⟩, by simp [assign, assignCopy, hc, e], ⟨hm, r, g1, g2⟩,
      Or.inr ⟨_, rfl, Nat.le_refl _⟩, g3, ?_⟩
    intro q c hc
    rcases g4 q c hc with rfl | g
    · exact Or.inl rfl
    · exact Or.inr g
  · have hle := hb.size_le
    rcases hab with rfl | hab
    · refine ⟨h, a, ?_, hb, Frame.refl _ _ _ rfl⟩
      have : copy a.p a.p a.size 0 h = .ok h := by
        obtain ⟨h1, h2⟩ := hb
        rcases hp : a.p with _ | q
        · rw [hp] at h2
          obtain ⟨-, rfl⟩ := h2
          rw [← h1]; rfl
        · rw [hp] at h2
          obtain ⟨r, h3, h4⟩ := h2
          exact copy_self _ _ _ _ h3 (by simp; omega)
      simp [assign, assignCopy, hc, this]
    · obtain ⟨ha1, ha2⟩ := ha
      rcases hq : b.p with _ | p
      · have hb2 := hb.2
        rw [hq] at hb2
        obtain ⟨-, rfl⟩ := hb2
        have hz : b.size = 0 := by simpa using hm.symm
        refine ⟨h, { a with size := 0 }, by simp [assign, assignCopy, hc, hz, copy], ?_, Frame.refl _ _ _ rfl⟩
        refine ⟨rfl, ?_⟩
        simp only
        rcases hp : a.p with _ | q
        · rw [hp] at ha2; exact ⟨ha2.1, trivial⟩
        · rw [hp] at ha2
          obtain ⟨r, h3, h4⟩ := ha2
          exact ⟨l ++ r, h3, h4⟩
      · have hb2 := hb.2
        rw [hq] at hb2
        obtain ⟨s, hs, hs2⟩ := hb2
        rcases hp : a.p with _ | q
        · rw [hp] at ha2
          have hz : b.size = 0 := by omega
          have : m = [] := by rw [hz] at hm; exact List.eq_nil_of_length_eq_zero hm
          subst this
          refine ⟨h, { a with size := 0 }, by simp [assign, assignCopy, hc, hz, copy], ⟨rfl, ?_⟩, Frame.refl _ _ _ rfl⟩
          simp only [hp]
          exact ⟨ha2.1, trivial⟩
        · rw [hp] at ha2
          obtain ⟨r, h3, h4⟩ := ha2
          have hpq : p ≠ q := by rintro rfl; exact hab p hp hq
          have hlt := lt_of_get h3
          have e := copy_eq hpq b.size 0 h (l ++ r) h3 hs (by simp; omega) (by omega)
          refine ⟨h.set q (some (m ++ (l ++ r).drop b.size)), { a with size := b.size }, ?_, ⟨hm, ?_⟩,
            frame_set hlt hp hp _⟩
          · simp only [assign, assignCopy, hc, if_false, hp, hq, e, Res.ok_bind, Res.pure_eq]
            simp [← hm]
          · simp only [hp]
            exact ⟨_, List.getElem?_set_self hlt, by simp; simp at h4; omega⟩

/-- The values of `l` are those that `v` determines. -/
def Matches (l : List α) (v : List (Option α)) : Prop :=
  l.length = v.length ∧ ∀ (i : Nat) (x : α), v[i]? = some (some x) → l[i]? = some x

/-- The objects in memory hold what the plain vectors hold; no buffer is shared, none is lost. -/
structure Inv (limit : Nat) (w : World α) (s : Vecs α) : Prop where
  gone : ∀ k, s k = none → w.objs k = none
  holds : ∀ k v, s k = some v → ∃ a l, w.objs k = some a ∧ Has w.heap a l ∧ Matches l v ∧ a.size ≤ limit
  own : ∀ j k a b q, w.objs j = some a → w.objs k = some b → a.p = some q → b.p = some q → j = k
  noleak : ∀ q c, w.heap[q]? = some (some c) → ∃ k a, w.objs k = some a ∧ a.p = some q

theorem Has.frame {h h' : Heap α} {a a' b : Arr} {m : List α} (F : Frame h a h' a') (hb : Has h b m)
    (hab : ∀ q, a.p = some q → b.p ≠ some q) : Has h' b m := by
  obtain ⟨h1, h2⟩ := hb
  refine ⟨h1, ?_⟩
  rcases hp : b.p with _ | q
  · rw [hp] at h2; exact h2
  · rw [hp] at h2
    obtain ⟨r, h3, h4⟩ := h2
    refine ⟨r, ?_, h4⟩
    rw [F.2.1 q (fun hh => hab q hh hp) (lt_of_get h3), h3]

theorem obj_ok {w : World α} {k : Nat} {a : Arr} (h : w.objs k = some a) : w.obj k = .ok a := by
  simp [World.obj, h]

theorem fresh_ok {w : World α} {k : Nat} (h : w.objs k = none) : w.fresh k = .ok () := by
  simp [World.fresh, h]

theorem Has.lt {h : Heap α} {a : Arr} {l : List α} (H : Has h a l) {q : Nat} (hp : a.p = some q) : q < h.length := by
  obtain ⟨h1, h2⟩ := H
  rw [hp] at h2
  obtain ⟨r, h3, -⟩ := h2
  exact lt_of_get h3

/-- Replacing one object. -/
theorem Inv.put {limit : Nat} {w : World α} {s : Vecs α} (I : Inv limit w s) {k : Nat} {a a' : Arr} {h' : Heap α}
    {l : List α} {v : List (Option α)}
    (hk : w.objs k = some a ∨ (w.objs k = none ∧ a = Arr.null)) (F : Frame w.heap a h' a') (H : Has h' a' l)
    (hv : Matches l v) (hl : a'.size ≤ limit) :
    Inv limit ({ w with heap := h' }.put k (some a')) (upd s k (some v)) := by
  have sep : ∀ j b, j ≠ k → w.objs j = some b → ∀ q, a.p = some q → b.p ≠ some q := by
    intro j b hj hb q hq hq'
    rcases hk with hk | ⟨-, rfl⟩
    · exact hj (I.own j k b a q hb hk hq' hq)
    · simp [Arr.null] at hq
  have sep' : ∀ j b, j ≠ k → w.objs j = some b → ∀ q, a'.p = some q → b.p ≠ some q := by
    intro j b hj hb q hq hq'
    rcases F.1 with f | ⟨q2, f, f2⟩
    · exact sep j b hj hb q (f ▸ hq) hq'
    · rw [f] at hq
      simp only [Option.some.injEq] at hq
      subst hq
      -- `b` is an object of `w`, so its buffer is an old one
      rcases hs : s j with _ | vj
      · have := I.gone j hs; rw [hb] at this; simp at this
      · obtain ⟨b', lj, e, hj2, -⟩ := I.holds j vj hs
        rw [hb] at e
        cases e
        have := hj2.lt hq'
        omega
  constructor
  · intro j hj
    simp only [upd, World.put] at hj ⊢
    split at hj
    · simp at hj
    · rename_i hne; rw [if_neg hne]; exact I.gone j hj
  · intro j u hj
    simp only [upd, World.put] at hj ⊢
    split at hj
    · rename_i he
      cases hj
      rw [if_pos he]
      exact ⟨a', l, rfl, H, hv, hl⟩
    · rename_i hne
      rw [if_neg hne]
      obtain ⟨b, m, e, g1, g2, g3⟩ := I.holds j u hj
      exact ⟨b, m, e, g1.frame F (sep j b hne e), g2, g3⟩
  · intro i j b c q hi hj hb hc
    simp only [World.put] at hi hj
    by_cases h1 : i = k <;> by_cases h2 : j = k
    · omega
    · rw [if_pos h1] at hi; rw [if_neg h2] at hj
      cases hi
      exact absurd hc (sep' j c h2 hj q hb)
    · rw [if_neg h1] at hi; rw [if_pos h2] at hj
      cases hj
      exact absurd hb (sep' i b h1 hi q hc)
    · rw [if_neg h1] at hi; rw [if_neg h2] at hj
      exact I.own i j b c q hi hj hb hc
  · intro q c hc
    simp only [World.put] at hc ⊢
    rcases F.2.2 q c hc with g | ⟨g1, g2⟩
    · exact ⟨k, a', by simp, g⟩
    · obtain ⟨j, b, hb, hq⟩ := I.noleak q c g2
      have : j ≠ k := by
        rintro rfl
        rcases hk with hk | ⟨hk, -⟩
        · rw [hb] at hk; cases hk; exact g1 hq
        · rw [hb] at hk; simp at hk
      exact ⟨j, b, by simp [this, hb], hq⟩

theorem Inv.swap {limit : Nat} {w : World α} {s : Vecs α} (I : Inv limit w s) {k j : Nat} {l m : List (Option α)}
    (hk : s k = some m) (hj : s j = some l) :
    ∃ w', w.swap k j = .ok w' ∧ Inv limit w' (upd (upd s k (some l)) j (some m)) := by
  obtain ⟨a, la, ea, ha1, ha2, ha3⟩ := I.holds k m hk
  obtain ⟨b, lb, eb, hb1, hb2, hb3⟩ := I.holds j l hj
  refine ⟨(w.put k (some b)).put j (some a), by simp [World.swap, obj_ok ea, obj_ok eb], ?_⟩
  -- the object that owns a buffer after the exchange
  have place : ∀ i c, ((w.put k (some b)).put j (some a)).objs i = some c →
      w.objs (if i = j then k else if i = k then j else i) = some c := by
    intro i c hc
    simp only [World.put] at hc
    by_cases h1 : i = j
    · rw [if_pos h1] at hc ⊢; rw [← hc]; exact ea
    · rw [if_neg h1] at hc ⊢
      by_cases h2 : i = k
      · rw [if_pos h2] at hc ⊢; rw [← hc]; exact eb
      · rw [if_neg h2] at hc ⊢; exact hc
  constructor
  · intro i hi
    simp only [upd, World.put] at hi ⊢
    by_cases h1 : i = j
    · simp [h1] at hi
    · by_cases h2 : i = k
      · simp [h1, h2] at hi
        by_cases h3 : k = j <;> simp [h3] at hi
      · simp only [h1, h2, if_false] at hi ⊢; exact I.gone i hi
  · intro i u hi
    simp only [upd, World.put] at hi ⊢
    by_cases h1 : i = j
    · simp only [h1, if_true, Option.some.injEq] at hi ⊢
      subst hi
      exact ⟨a, la, rfl, ha1, ha2, ha3⟩
    · by_cases h2 : i = k
      · simp only [h1, if_false] at hi ⊢
        simp only [h2, if_true, Option.some.injEq] at hi ⊢
        subst hi
        exact ⟨b, lb, rfl, hb1, hb2, hb3⟩
      · simp only [h1, h2, if_false] at hi ⊢; exact I.holds i u hi
  · intro i i' c c' q hi hi' hc hc'
    have := I.own _ _ _ _ q (place i c hi) (place i' c' hi') hc hc'
    split at this <;> split at this <;> (try split at this) <;> (try split at this) <;> omega
  · intro q c hc
    obtain ⟨i, d, e, hd⟩ := I.noleak q c hc
    by_cases h1 : i = k
    · subst h1
      rw [ea] at e; cases e
      exact ⟨j, a, by simp [World.put], hd⟩
    · by_cases h2 : i = j
      · subst h2
        rw [eb] at e; cases e
        exact ⟨k, b, by simp [World.put]; intro h; exact absurd h.symm h1, hd⟩
      · exact ⟨i, d, by simp [World.put, h1, h2, e], hd⟩

theorem Has.clear {h : Heap α} {a : Arr} {l : List α} (H : Has h a l) : Has h { a with size := 0 } [] := by
  obtain ⟨h1, h2⟩ := H
  refine ⟨rfl, ?_⟩
  simp only
  rcases hp : a.p with _ | q
  · rw [hp] at h2; exact ⟨h2.1, trivial⟩
  · rw [hp] at h2
    obtain ⟨r, h3, h4⟩ := h2
    exact ⟨l ++ r, h3, h4⟩

theorem Inv.clear {limit : Nat} {w : World α} {s : Vecs α} (I : Inv limit w s) {k : Nat} {l : List (Option α)}
    (hk : s k = some l) : ∃ w', w.clear k = .ok w' ∧ Inv limit w' (upd s k (some [])) := by
  obtain ⟨a, la, ea, ha1, ha2, ha3⟩ := I.holds k l hk
  refine ⟨w.put k (some { a with size := 0 }), by simp only [World.clear, obj_ok ea, Res.ok_bind, Res.pure_eq], ?_⟩
  exact I.put (Or.inl ea) (Frame.refl w.heap a { a with size := 0 } rfl) ha1.clear ⟨rfl, by simp⟩ (Nat.zero_le _)

theorem matches_resized {l : List α} {v : List (Option α)} (h : Matches l v) {z : α} {n : Nat} {b : Bool}
    {ex : List α} (h1 : ex.length = n - l.length) (h2 : b = true → ex = List.replicate (n - l.length) z) :
    Matches (l.take n ++ ex) (resized z v n b) := by
  obtain ⟨hl, hx⟩ := h
  refine ⟨by simp [resized, h1, hl], ?_⟩
  intro i x hi
  simp only [resized, List.getElem?_append, List.length_take, ← hl] at hi ⊢
  split at hi
  · rename_i h5
    rw [if_pos h5]
    rw [List.getElem?_take] at hi ⊢
    split at hi
    · rename_i h6; rw [if_pos h6]; exact hx i x hi
    · simp at hi
  · rename_i h5
    rw [if_neg h5]
    cases b with
    | false =>
      rw [List.getElem?_replicate] at hi
      split at hi <;> simp at hi
    | true =>
      rw [h2 rfl]
      rw [List.getElem?_replicate] at hi ⊢
      split at hi
      · simp only [if_true, Option.some.injEq] at hi
        rename_i h6
        rw [if_pos h6, hi]
      · simp at hi

theorem upd_same {s : Vecs α} {k : Nat} {u v : Option (List (Option α))} : upd (upd s k u) k v = upd s k v := by
  funext i; simp only [upd]; split <;> rfl

/-- One call. -/
theorem exec_ok {sz : Nat} (h0 : 0 < sz) (junk : Nat → Nat → α) (z : α) {limit : Nat} (hlim : limit * sz < 2 ^ 64)
    {w : World α} {s s' : Vecs α} (I : Inv limit w s) {op : Op α} (hs : step z limit s op = some s') :
    ∃ w', w.exec sz junk z op = .ok w' ∧ Inv limit w' s' := by
  have small : ∀ n, n ≤ limit → n * sz < 2 ^ 64 := fun n hn =>
    Nat.lt_of_le_of_lt (Nat.mul_le_mul_right sz hn) hlim
  cases op with
  | make k n b =>
    simp only [step] at hs
    split at hs
    · rename_i hk
      split at hs
      · rename_i hn
        cases hs
        obtain ⟨h', a', ex, e, g1, g2, g3, g4⟩ := resize_ok h0 junk z (Has.null w.heap) (small n hn) b
        have ek := I.gone k hk
        refine ⟨{ w with heap := h' }.put k (some a'), by simp only [World.exec, fresh_ok ek, e, Res.ok_bind, Res.pure_eq], ?_⟩
        refine I.put (Or.inr ⟨ek, rfl⟩) g4 g1 (matches_resized (l := []) ⟨rfl, by simp⟩ g2 g3) ?_
        have := g1.1; simp [g2] at this; omega
      · simp at hs
    · simp at hs
  | makeCopy k j =>
    simp only [step] at hs
    split at hs
    · rename_i l hk hj
      cases hs
      obtain ⟨b, m, eb, hb1, hb2, hb3⟩ := I.holds j l hj
      have ek := I.gone k hk
      obtain ⟨h', a', e, g1, g2⟩ := assign_ok h0 junk (Has.null w.heap) hb1 (small _ hb3) (Or.inr (by simp [Arr.null]))
      refine ⟨{ w with heap := h' }.put k (some a'), by simp only [World.exec, fresh_ok ek, obj_ok eb, e, Res.ok_bind, Res.pure_eq], ?_⟩
      refine I.put (Or.inr ⟨ek, rfl⟩) g2 g1 hb2 ?_
      have := g1.1; have := hb1.1; omega
    · simp at hs
  | makeMove k j =>
    simp only [step] at hs
    split at hs
    · rename_i l hk hj
      cases hs
      obtain ⟨b, m, eb, hb1, hb2, hb3⟩ := I.holds j l hj
      have ek := I.gone k hk
      have hkj : k ≠ j := by rintro rfl; rw [hk] at hj; simp at hj
      refine ⟨(w.put k (some b)).put j (some .null), by
        simp only [World.exec, fresh_ok ek, obj_ok eb, Res.ok_bind, Res.pure_eq], ?_⟩
      constructor
      · intro i hi
        simp only [upd, World.put] at hi ⊢
        by_cases h1 : i = j
        · simp [h1] at hi
        · by_cases h2 : i = k
          · simp [h1, h2, hkj] at hi
          · simp only [h1, h2, if_false] at hi ⊢; exact I.gone i hi
      · intro i u hi
        simp only [upd, World.put] at hi ⊢
        by_cases h1 : i = j
        · simp only [h1, if_true, Option.some.injEq] at hi ⊢
          subst hi
          exact ⟨_, [], rfl, Has.null _, ⟨rfl, by simp⟩, by simp [Arr.null]⟩
        · by_cases h2 : i = k
          · simp only [h1, if_false] at hi ⊢
            simp only [h2, if_true, Option.some.injEq] at hi ⊢
            subst hi
            exact ⟨b, m, rfl, hb1, hb2, hb3⟩
          · simp only [h1, h2, if_false] at hi ⊢; exact I.holds i u hi
      · intro i i' c c' q hi hi' hc hc'
        have place : ∀ i c, ((w.put k (some b)).put j (some Arr.null)).objs i = some c → c.p = some q →
            i ≠ j ∧ w.objs (if i = k then j else i) = some c := by
          intro i c hc hp
          simp only [World.put] at hc
          by_cases h1 : i = j
          · rw [if_pos h1] at hc; cases hc; simp [Arr.null] at hp
          · rw [if_neg h1] at hc
            refine ⟨h1, ?_⟩
            by_cases h2 : i = k
            · rw [if_pos h2] at hc ⊢; rw [← hc]; exact eb
            · rw [if_neg h2] at hc ⊢; exact hc
        have p1 := place i c hi hc
        have p2 := place i' c' hi' hc'
        have := I.own _ _ _ _ q p1.2 p2.2 hc hc'
        split at this <;> split at this <;> omega
      · intro q c hc
        obtain ⟨i, d, e, hd⟩ := I.noleak q c hc
        by_cases h1 : i = j
        · subst h1
          rw [eb] at e; cases e
          exact ⟨k, b, by simp [World.put, hkj], hd⟩
        · have h2 : i ≠ k := by rintro rfl; rw [ek] at e; simp at e
          exact ⟨i, d, by simp [World.put, h1, h2, e], hd⟩
    · simp at hs
  | assign k j =>
    simp only [step] at hs
    split at hs
    · rename_i m l hk hj
      cases hs
      obtain ⟨a, la, ea, ha1, ha2, ha3⟩ := I.holds k m hk
      obtain ⟨b, lb, eb, hb1, hb2, hb3⟩ := I.holds j l hj
      have hab : a = b ∨ ∀ q, a.p = some q → b.p ≠ some q := by
        by_cases hkj : k = j
        · subst hkj; rw [ea] at eb; cases eb; exact Or.inl rfl
        · exact Or.inr fun q h1 h2 => hkj (I.own k j a b q ea eb h1 h2)
      obtain ⟨h', a', e, g1, g2⟩ := assign_ok h0 junk ha1 hb1 (small _ hb3) hab
      refine ⟨{ w with heap := h' }.put k (some a'), by simp only [World.exec, obj_ok ea, obj_ok eb, e, Res.ok_bind, Res.pure_eq], ?_⟩
      refine I.put (Or.inl ea) g2 g1 hb2 ?_
      have := g1.1; have := hb1.1; omega
    · simp at hs
  | moveAssign k j =>
    simp only [step] at hs
    split at hs
    · rename_i m l hk hj
      cases hs
      obtain ⟨w1, e1, I1⟩ := I.swap hk hj
      obtain ⟨w2, e2, I2⟩ := I1.clear (k := j) (l := m) (by simp [upd])
      rw [upd_same] at I2
      exact ⟨w2, by simp only [World.exec, e1, e2, Res.ok_bind], I2⟩
    · simp at hs
  | resize k n b =>
    simp only [step] at hs
    split at hs
    · rename_i l hk
      split at hs
      · rename_i hn
        cases hs
        obtain ⟨a, la, ea, ha1, ha2, ha3⟩ := I.holds k l hk
        obtain ⟨h', a', ex, e, g1, g2, g3, g4⟩ := resize_ok h0 junk z ha1 (small n hn) b
        refine ⟨{ w with heap := h' }.put k (some a'), by simp only [World.exec, obj_ok ea, e, Res.ok_bind, Res.pure_eq], ?_⟩
        refine I.put (Or.inl ea) g4 g1 (matches_resized ha2 g2 g3) ?_
        have := g1.1; simp [g2] at this; omega
      · simp at hs
    · simp at hs
  | clear k =>
    simp only [step] at hs
    split at hs
    · rename_i l hk
      cases hs
      obtain ⟨w2, e2, I2⟩ := I.clear hk
      exact ⟨w2, e2, I2⟩
    · simp at hs
  | swap k j =>
    simp only [step] at hs
    split at hs
    · rename_i m l hk hj
      cases hs
      obtain ⟨w1, e1, I1⟩ := I.swap hk hj
      exact ⟨w1, e1, I1⟩
    · simp at hs
  | write k i x =>
    simp only [step] at hs
    split at hs
    · rename_i l hk
      split at hs
      · rename_i hi
        cases hs
        obtain ⟨a, la, ea, ha1, ha2, ha3⟩ := I.holds k l hk
        have hlen := ha2.1
        have ha1' := ha1
        obtain ⟨h1, h2⟩ := ha1
        rcases hp : a.p with _ | q
        · rw [hp] at h2; obtain ⟨-, rfl⟩ := h2; simp at hlen; omega
        · rw [hp] at h2
          obtain ⟨r, h3, h4⟩ := h2
          have hlt := lt_of_get h3
          refine ⟨{ w with heap := w.heap.set q (some ((la ++ r).set i x)) }, by
            simp only [World.exec, obj_ok ea, hp, store_eq h3 x (show i < (la ++ r).length by simp; omega),
              Res.ok_bind, Res.pure_eq], ?_⟩
          have := I.put (l := la.set i x) (v := l.set i (some x)) (Or.inl ea)
            (frame_set (a' := a) hlt hp hp ((la ++ r).set i x)) ?_ ?_ ha3
          · rw [show ({ w with heap := w.heap.set q (some ((la ++ r).set i x)) } : World α).put k (some a)
              = { w with heap := w.heap.set q (some ((la ++ r).set i x)) } from ?_] at this
            · exact this
            · simp only [World.put]
              congr 1
              funext n
              split
              · subst_vars; exact ea.symm
              · rfl
          · refine ⟨by simp [h1], ?_⟩
            rw [hp]
            refine ⟨r, ?_, by simpa using h4⟩
            rw [List.getElem?_set_self hlt, List.set_append_left _ _ (by omega)]
          · refine ⟨by simp [hlen], ?_⟩
            intro n y hy
            rw [List.getElem?_set] at hy ⊢
            split at hy
            · rename_i he
              rw [if_pos he]
              simp only [hi, if_true, Option.some.injEq] at hy
              simp only [show i < la.length by omega, if_true, hy]
            · rename_i he
              rw [if_neg he]
              exact ha2.2 n y hy
      · simp at hs
    · simp at hs
  | destroy k =>
    simp only [step] at hs
    split at hs
    · rename_i l hk
      cases hs
      obtain ⟨a, la, ea, ha1, ha2, ha3⟩ := I.holds k l hk
      have hfree : ∃ h', free w.heap a.p = .ok h' ∧ (∀ q, a.p ≠ some q → q < w.heap.length → h'[q]? = w.heap[q]?) ∧
          (∀ q c, h'[q]? = some (some c) → a.p ≠ some q ∧ w.heap[q]? = some (some c)) := by
        obtain ⟨h1, h2⟩ := ha1
        rcases hp : a.p with _ | q
        · exact ⟨w.heap, rfl, fun _ _ _ => rfl, fun q c hc => ⟨by simp, hc⟩⟩
        · rw [hp] at h2
          obtain ⟨r, h3, h4⟩ := h2
          refine ⟨w.heap.set q none, by simp [free, h3], ?_, ?_⟩
          · intro q' n1 n2
            rw [List.getElem?_set_ne (by rintro rfl; exact n1 rfl)]
          · intro q' c hc
            have hne : q ≠ q' := by
              rintro rfl
              rw [List.getElem?_set_self (lt_of_get h3)] at hc
              simp at hc
            rw [List.getElem?_set_ne hne] at hc
            exact ⟨by simpa using hne, hc⟩
      obtain ⟨h', e, f1, f2⟩ := hfree
      refine ⟨{ w with heap := h' }.put k none, by simp only [World.exec, obj_ok ea, e, Res.ok_bind, Res.pure_eq], ?_⟩
      constructor
      · intro i hi
        simp only [upd, World.put] at hi ⊢
        split
        · rfl
        · rename_i hne; rw [if_neg hne] at hi; exact I.gone i hi
      · intro i u hi
        simp only [upd, World.put] at hi ⊢
        split at hi
        · simp at hi
        · rename_i hne
          rw [if_neg hne]
          obtain ⟨b, m, eb, g1, g2, g3⟩ := I.holds i u hi
          refine ⟨b, m, eb, ?_, g2, g3⟩
          obtain ⟨k1, k2⟩ := g1
          refine ⟨k1, ?_⟩
          rcases hp : b.p with _ | q
          · rw [hp] at k2; exact k2
          · rw [hp] at k2
            obtain ⟨r, h3, h4⟩ := k2
            exact ⟨r, by rw [f1 q (fun hh => hne (I.own i k b a q eb ea hp hh)) (lt_of_get h3), h3], h4⟩
      · intro i j b c q hi hj hb hc
        simp only [World.put] at hi hj
        split at hi
        · simp at hi
        · split at hj
          · simp at hj
          · exact I.own i j b c q hi hj hb hc
      · intro q c hc
        simp only [World.put] at hc ⊢
        obtain ⟨g1, g2⟩ := f2 q c hc
        obtain ⟨i, b, eb, hb⟩ := I.noleak q c g2
        have : i ≠ k := by rintro rfl; rw [ea] at eb; cases eb; exact g1 hb
        exact ⟨i, b, by simp [this, eb], hb⟩
    · simp at hs

/-- A history. -/
theorem run_ok {sz : Nat} (h0 : 0 < sz) (junk : Nat → Nat → α) (z : α) {limit : Nat} (hlim : limit * sz < 2 ^ 64) :
    ∀ (ops : List (Op α)) (w : World α) (s s' : Vecs α), Inv limit w s → run z limit ops s = some s' →
      ∃ w', w.run sz junk z ops = .ok w' ∧ Inv limit w' s' := by
  intro ops
  induction ops with
  | nil =>
    intro w s s' I h
    simp only [run, Option.some.injEq] at h
    subst h
    exact ⟨w, rfl, I⟩
  | cons op ops ih =>
    intro w s s' I h
    rw [run, Option.bind_eq_some_iff] at h
    obtain ⟨s1, h1, h2⟩ := h
    obtain ⟨w1, e1, I1⟩ := exec_ok h0 junk z hlim I h1
    obtain ⟨w2, e2, I2⟩ := ih w1 s1 s' I1 h2
    exact ⟨w2, by rw [World.run, e1, Res.ok_bind, e2], I2⟩

end Verif.Array
