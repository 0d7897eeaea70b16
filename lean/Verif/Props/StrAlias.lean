import Verif.Spec.StrAlias
set_option linter.unusedSimpArgs false

/-!
# C109: ranges of a string given to itself
-/
namespace Verif.Props.StrAlias
open Verif.StrAlias
open Verif.Spec.StrAlias
open Verif.Handle (upd)

theorem only_refl (h : Heap) (s : Nat) : Only h h s s := ⟨fun _ _ _ => rfl, fun h => absurd rfl h⟩

theorem only_trans {h h' h'' : Heap} {s s' s'' : Nat} (hs : h.buf s ≠ none) (a : Only h h' s s') (b : Only h' h'' s' s'')
    (hs' : h'.buf s' ≠ none) : Only h h'' s s'' := by
  constructor
  · intro n n1 n2
    by_cases hn : n = s'
    · subst hn
      have hb := b.2 n2
      have ha := a.2 (Ne.symm n1)
      rw [hb.1, ha.2]
    · rw [b.1 n hn n2, a.1 n n1 hn]
  · intro hne
    by_cases h1 : s = s'
    · subst h1; exact b.2 hne |>.imp id (fun e => by rwa [a.1 s'' (Ne.symm hne) (Ne.symm hne)] at e)
    · have ha := a.2 h1
      by_cases h2 : s' = s''
      · subst h2
        exact ⟨by rw [b.1 s h1 h1]; exact ha.1, ha.2⟩
      · have hb := b.2 h2
        refine ⟨by rw [b.1 s h1 hne]; exact ha.1, ?_⟩
        rw [← a.1 s'' (Ne.symm hne) (Ne.symm h2)]
        exact hb.2

theorem push_spec (g : Grow) (h : Heap) (s : Nat) (c : Int) (v : List Int) (hg : Good h) (hs : Has h s v) :
    ∃ h' s', pushBack g h s c = .ok (h', s') ∧ Good h' ∧ Has h' s' (v ++ [c]) ∧ Only h h' s s' := by
  obtain ⟨b, hb, rfl⟩ := hs
  unfold pushBack
  rw [hb]
  simp only
  by_cases hc : b.data.length < b.cap
  · rw [if_pos hc]
    refine ⟨_, _, rfl, ⟨?_, ?_⟩, ⟨⟨b.data ++ [c], b.cap⟩, by simp [upd], rfl⟩, ?_, fun h => absurd rfl h⟩
    · intro n hn
      have : n ≠ s := by
        rintro rfl
        rw [hg.1 n hn] at hb
        cases hb
      simp [upd, this]
      exact hg.1 n hn
    · intro n b' hb'
      by_cases hn : n = s
      · subst hn
        simp [upd] at hb'
        subst hb'
        simp; omega
      · simp [upd, hn] at hb'
        exact hg.2 n b' hb'
    · intro n n1 _
      simp [upd, n1]
  · rw [if_neg hc]
    have hsf : s ≠ h.fresh := by
      rintro rfl
      rw [hg.1 _ (Nat.le_refl _)] at hb
      cases hb
    refine ⟨_, _, rfl, ⟨?_, ?_⟩, ⟨⟨b.data ++ [c], g.f b.cap⟩, by simp [upd, Ne.symm hsf], rfl⟩, ?_, ?_⟩
    · intro n hn
      have hn : h.fresh + 1 ≤ n := hn
      by_cases hns : n = s
      · simp [upd, hns]
      · simp [upd, hns, show n ≠ h.fresh by omega]
        exact hg.1 n (by omega)
    · intro n b' hb'
      by_cases hns : n = s
      · simp [upd, hns] at hb'
      · by_cases hnf : n = h.fresh
        · simp [upd, hns, hnf, Ne.symm hsf] at hb'
          subst hb'
          have := hg.2 s b hb
          have := g.more b.cap
          simp; omega
        · simp [upd, hns, hnf] at hb'
          exact hg.2 n b' hb'
    · intro n n1 n2
      simp [upd, n1, n2]
    · intro _
      exact ⟨by simp [upd], hg.1 _ (Nat.le_refl _)⟩

theorem peek_in (h : Heap) (p i : Nat) (w : List Int) (hw : Has h p w) (hi : i < w.length) : peek h p i = .ok w[i] := by
  obtain ⟨b, hb, rfl⟩ := hw
  simp [peek, hb, hi]

/-- Appending a range of another string: the characters come after the old ones, whatever the memory does; the other string and all
others are as before, and the memory given up is freed. -/
theorem append_other (g : Grow) (p : Nat) (w : List Int) (n : Nat) : ∀ (h : Heap) (s i : Nat) (v : List Int), Good h → Has h s v →
    Has h p w → p ≠ s → i + n ≤ w.length →
    ∃ h' s', append g h s p i n = .ok (h', s') ∧ Good h' ∧ Has h' s' (v ++ (w.drop i).take n) ∧ Has h' p w ∧ p ≠ s' ∧ Only h h' s s' := by
  induction n with
  | zero => intro h s i v hg hs hp hne _; exact ⟨h, s, rfl, hg, by simpa using hs, hp, hne, only_refl h s⟩
  | succ n ih =>
    intro h s i v hg hs hp hne hi
    unfold append
    rw [peek_in h p i w hp (by omega), Res.ok_bind]
    obtain ⟨h1, s1, e1, g1, a1, o1⟩ := push_spec g h s w[i] v hg hs
    rw [e1, Res.ok_bind]
    have hne1 : p ≠ s1 := by
      rintro rfl
      obtain ⟨b, hb, _⟩ := hp
      have := (o1.2 (Ne.symm hne)).2
      rw [hb] at this
      cases this
    have hp1 : Has h1 p w := by
      obtain ⟨b, hb, hw⟩ := hp
      exact ⟨b, by rw [o1.1 p hne hne1]; exact hb, hw⟩
    obtain ⟨h2, s2, e2, g2, a2, b2, c2, o2⟩ := ih h1 s1 (i + 1) (v ++ [w[i]]) g1 a1 hp1 hne1 (by omega)
    refine ⟨h2, s2, e2, g2, ?_, b2, c2, ?_⟩
    · have : (w.drop i).take (n + 1) = w[i] :: (w.drop (i + 1)).take n := by
        rw [List.drop_eq_getElem_cons (by omega), List.take_succ_cons]
      rw [this]
      simpa using a2
    · apply only_trans _ o1 o2
      · obtain ⟨b, hb, _⟩ := a1; simp [hb]
      · obtain ⟨b, hb, _⟩ := hs; simp [hb]

theorem C109_append_other (g : Grow) (h : Heap) (s p i n : Nat) (v w : List Int) (hg : Good h) (hs : Has h s v) (hp : Has h p w)
    (hne : p ≠ s) (hi : i + n ≤ w.length) :
    ∃ h' s', append g h s p i n = .ok (h', s') ∧ Good h' ∧ Has h' s' (v ++ (w.drop i).take n) ∧ Has h' p w ∧ Only h h' s s' := by
  obtain ⟨h', s', a, b, c, d, _, e⟩ := append_other g p w n h s i v hg hs hp hne hi
  exact ⟨h', s', a, b, c, d, e⟩

theorem append_own (g : Grow) (s : Nat) (n : Nat) : ∀ (h : Heap) (i : Nat) (b : Buf), Good h → h.buf s = some b →
    i + n ≤ b.data.length →
    (b.data.length + n ≤ b.cap + 1 → ∃ h' s', append g h s s i n = .ok (h', s') ∧ Good h' ∧
      Has h' s' (b.data ++ (b.data.drop i).take n) ∧ Only h h' s s') ∧
    (b.cap + 1 < b.data.length + n → append g h s s i n = .ub) := by
  induction n with
  | zero =>
    intro h i b hg hb _
    refine ⟨fun _ => ⟨h, s, rfl, hg, ⟨b, hb, by simp⟩, only_refl h s⟩, ?_⟩
    intro hlt
    have := hg.2 s b hb
    omega
  | succ n ih =>
    intro h i b hg hb hi
    have hlen := hg.2 s b hb
    unfold append
    rw [peek_in h s i b.data ⟨b, hb, rfl⟩ (by omega), Res.ok_bind]
    have hslice : (b.data.drop i).take (n + 1) = b.data[i] :: (b.data.drop (i + 1)).take n := by
      rw [List.drop_eq_getElem_cons (by omega), List.take_succ_cons]
    by_cases hc : b.data.length < b.cap
    · have e1 : pushBack g h s b.data[i] = .ok (⟨upd h.buf s (some ⟨b.data ++ [b.data[i]], b.cap⟩), h.fresh⟩, s) := by
        unfold pushBack; rw [hb]; simp only; rw [if_pos hc]
      obtain ⟨h1, s1, e1', g1, _, o1⟩ := push_spec g h s b.data[i] b.data hg ⟨b, hb, rfl⟩
      rw [e1] at e1'
      simp only [Res.ok.injEq, Prod.mk.injEq] at e1'
      obtain ⟨rfl, rfl⟩ := e1'
      rw [e1, Res.ok_bind]
      obtain ⟨a1, a2⟩ := ih _ (i + 1) ⟨b.data ++ [b.data[i]], b.cap⟩ g1 (by simp [upd]) (by simp; omega)
      simp only [List.length_append, List.length_cons, List.length_nil] at a1 a2
      refine ⟨fun hf => ?_, fun hf => a2 (by omega)⟩
      obtain ⟨h2, s2, e2, g2, c2, o2⟩ := a1 (by omega)
      refine ⟨h2, s2, e2, g2, ?_, only_trans (by simp [hb]) o1 o2 (by simp [upd])⟩
      have : ((b.data ++ [b.data[i]]).drop (i + 1)).take n = (b.data.drop (i + 1)).take n := by
        rw [List.drop_append_of_le_length (by omega), List.take_append_of_le_length (by simp; omega)]
      rw [this] at c2
      rw [hslice]
      simpa using c2
    · have e1 : pushBack g h s b.data[i] =
          .ok (⟨upd (upd h.buf h.fresh (some ⟨b.data ++ [b.data[i]], g.f b.cap⟩)) s none, h.fresh + 1⟩, h.fresh) := by
        unfold pushBack; rw [hb]; simp only; rw [if_neg hc]
      obtain ⟨h1, s1, e1', g1, c1, o1⟩ := push_spec g h s b.data[i] b.data hg ⟨b, hb, rfl⟩
      rw [e1] at e1'
      simp only [Res.ok.injEq, Prod.mk.injEq] at e1'
      obtain ⟨rfl, rfl⟩ := e1'
      rw [e1, Res.ok_bind]
      constructor
      · intro hf
        have : n = 0 := by omega
        subst this
        refine ⟨_, _, rfl, g1, ?_, o1⟩
        rw [hslice]
        simpa using c1
      · intro hf
        obtain ⟨m, rfl⟩ : ∃ m, n = m + 1 := ⟨n - 1, by omega⟩
        unfold append
        have : peek (⟨upd (upd h.buf h.fresh (some ⟨b.data ++ [b.data[i]], g.f b.cap⟩)) s none, h.fresh + 1⟩) s (i + 1) = .ub := by
          simp [peek, upd]
        simp only [this, Res.ub_bind]

/-- Appending a range of the string itself gives the right result exactly as long as the memory is large enough for all characters but
the last; otherwise freed memory is read. -/
theorem C109_append_own_partial (g : Grow) (h : Heap) (s i n : Nat) (b : Buf) (hg : Good h) (hb : h.buf s = some b)
    (hi : i + n ≤ b.data.length) :
    (b.data.length + n ≤ b.cap + 1 → ∃ h' s', append g h s s i n = .ok (h', s') ∧ Good h' ∧
      Has h' s' (b.data ++ (b.data.drop i).take n) ∧ Only h h' s s') ∧
    (b.cap + 1 < b.data.length + n → append g h s s i n = .ub) := append_own g s n h i b hg hb hi

theorem clear_spec (h : Heap) (s : Nat) (b : Buf) (hg : Good h) (hb : h.buf s = some b) :
    clear h s = .ok ⟨upd h.buf s (some ⟨[], b.cap⟩), h.fresh⟩ ∧ Good ⟨upd h.buf s (some ⟨[], b.cap⟩), h.fresh⟩ := by
  refine ⟨by simp [clear, hb], ?_, ?_⟩
  · intro n hn
    have hn' : h.fresh ≤ n := hn
    have : n ≠ s := by
      rintro rfl
      rw [hg.1 n hn'] at hb
      cases hb
    simp [upd, this]
    exact hg.1 n hn'
  · intro n b' hb'
    by_cases hns : n = s
    · simp [upd, hns] at hb'
      subst hb'
      simp
    · simp [upd, hns] at hb'
      exact hg.2 n b' hb'

/-- Assigning a range of another string gives the string these characters. -/
theorem C109_assign_other (g : Grow) (h : Heap) (s p i n : Nat) (v w : List Int) (hg : Good h) (hs : Has h s v) (hp : Has h p w)
    (hne : p ≠ s) (hi : i + n ≤ w.length) :
    ∃ h' s', assign g h s p i n = .ok (h', s') ∧ Good h' ∧ Has h' s' ((w.drop i).take n) ∧ Has h' p w ∧
      ∀ k, k ≠ s → k ≠ s' → h'.buf k = h.buf k := by
  obtain ⟨b, hb, _⟩ := hs
  obtain ⟨c1, c2⟩ := clear_spec h s b hg hb
  unfold assign
  rw [c1, Res.ok_bind]
  obtain ⟨h', s', a1, a2, a3, a4, _, a5⟩ := append_other g p w n _ s i [] c2 ⟨_, by simp [upd]; rfl, rfl⟩
    (by obtain ⟨b', hb', hw⟩ := hp; exact ⟨b', by simp [upd, hne]; exact hb', hw⟩) hne hi
  refine ⟨h', s', a1, a2, by simpa using a3, a4, ?_⟩
  intro k k1 k2
  rw [a5.1 k k1 k2]
  simp [upd, k1]

theorem append_nul (g : Grow) (s : Nat) (n : Nat) : ∀ (h : Heap) (i cap : Nat), h.buf s = some ⟨List.replicate i 0, cap⟩ → i + n ≤ cap →
    ∃ h', append g h s s i n = .ok (h', s) ∧ h'.buf s = some ⟨List.replicate (i + n) 0, cap⟩ := by
  induction n with
  | zero => intro h i cap hb _; exact ⟨h, rfl, hb⟩
  | succ n ih =>
    intro h i cap hb hi
    unfold append
    have e1 : peek h s i = .ok 0 := by simp [peek, hb]
    rw [e1, Res.ok_bind]
    have e2 : pushBack g h s 0 = .ok (⟨upd h.buf s (some ⟨List.replicate (i + 1) 0, cap⟩), h.fresh⟩, s) := by
      unfold pushBack
      rw [hb]
      simp only [List.length_replicate]
      rw [if_pos (by omega), ← List.replicate_succ']
    rw [e2, Res.ok_bind]
    obtain ⟨h', a, b⟩ := ih ⟨upd h.buf s (some ⟨List.replicate (i + 1) 0, cap⟩), h.fresh⟩ (i + 1) cap (by simp [upd]) (by omega)
    exact ⟨h', a, by rw [b, show i + 1 + n = i + (n + 1) by omega]⟩

/-- `s.assign(s.begin(), s.begin() + n)` makes all characters NUL, and a range that begins later is read behind the end. -/
theorem C109_finding_assign_own (g : Grow) (h : Heap) (s n : Nat) (b : Buf) (hg : Good h) (hb : h.buf s = some b)
    (hn : n ≤ b.data.length) :
    (∃ h', assign g h s s 0 n = .ok (h', s) ∧ Has h' s (List.replicate n 0)) ∧
    ∀ i m, assign g h s s (i + 1) (m + 1) = .ub := by
  obtain ⟨c1, c2⟩ := clear_spec h s b hg hb
  have hl := hg.2 s b hb
  constructor
  · unfold assign
    rw [c1, Res.ok_bind]
    obtain ⟨h', a1, a2⟩ := append_nul g s n ⟨upd h.buf s (some ⟨[], b.cap⟩), h.fresh⟩ 0 b.cap (by simp [upd]) (by omega)
    exact ⟨h', a1, _, a2, by simp⟩
  · intro i m
    unfold assign
    rw [c1, Res.ok_bind]
    unfold append
    simp [peek, upd]

/-- `insert` and `replace` with a range of any string, the string itself included, do what they should: the old characters before and
after with the range between them; no other string changes and nothing is left behind. -/
theorem C109_replace (g : Grow) (small : Nat) (h : Heap) (s off m p i n : Nat) (v w : List Int) (hg : Good h) (hs : Has h s v)
    (hp : Has h p w) (hi : i + n ≤ w.length) (ho : off + m ≤ v.length) :
    ∃ h' s', replace g small h s off m p i n = .ok (h', s') ∧
      Has h' s' (v.take off ++ (w.drop i).take n ++ v.drop (off + m)) ∧ Only h h' s s' := by
  have notFresh : ∀ q b, h.buf q = some b → q ≠ h.fresh := by
    rintro q b hq rfl
    rw [hg.1 _ (Nat.le_refl _)] at hq
    cases hq
  obtain ⟨b, hb, hv⟩ := hs
  obtain ⟨bp, hbp, hw⟩ := hp
  have hsf := notFresh s b hb
  have hpf := notFresh p bp hbp
  have hg1 : Good ⟨upd h.buf h.fresh (some ⟨[], small⟩), h.fresh + 1⟩ := by
    constructor
    · intro k hk
      have hk' : h.fresh + 1 ≤ k := hk
      simp [upd, show k ≠ h.fresh by omega]
      exact hg.1 k (by omega)
    · intro k b' hb'
      by_cases hk : k = h.fresh
      · simp [upd, hk] at hb'
        subst hb'
        simp
      · simp [upd, hk] at hb'
        exact hg.2 k b' hb'
  obtain ⟨h1, t, a1, a2, a3, _, _, a5⟩ := append_other g p w n ⟨upd h.buf h.fresh (some ⟨[], small⟩), h.fresh + 1⟩ h.fresh i [] hg1
    ⟨⟨[], small⟩, by simp [upd], rfl⟩ ⟨bp, by simp [upd, hpf]; exact hbp, hw⟩ hpf hi
  have hts : s ≠ t := by
    rintro rfl
    have := (a5.2 (Ne.symm hsf)).2
    simp [upd, hsf] at this
    rw [hb] at this
    cases this
  have hb1 : h1.buf s = some b := by
    rw [a5.1 s hsf hts]
    simp [upd, hsf]
    exact hb
  have hother : ∀ k, k ≠ t → h1.buf k = h.buf k := by
    intro k k1
    by_cases hk : k = h.fresh
    · subst hk
      rw [(a5.2 k1).1, hg.1 _ (Nat.le_refl _)]
    · rw [a5.1 k hk k1]
      simp [upd, hk]
  have ht : h.buf t = none := by
    by_cases hk : h.fresh = t
    · rw [← hk]; exact hg.1 _ (Nat.le_refl _)
    · have := (a5.2 hk).2
      simpa [upd, Ne.symm hk] using this
  obtain ⟨bt, hbt, hdt⟩ := a3
  simp only [List.nil_append] at hdt
  unfold replace construct
  rw [a1, Res.ok_bind]
  simp only [hbt]
  unfold stdReplace
  rw [hb1]
  simp only
  rw [hv, hdt, if_pos ho]
  by_cases hc : (v.take off ++ (w.drop i).take n ++ v.drop (off + m)).length ≤ b.cap
  · rw [if_pos hc, Res.ok_bind]
    refine ⟨_, _, rfl, ⟨_, by simp [destroy, upd, hts]; rfl, by simp⟩, ?_, fun h => absurd rfl h⟩
    intro k k1 _
    by_cases hk : k = t
    · subst hk; simp [destroy, upd, ht]
    · simp [destroy, upd, hk, k1]
      exact hother k hk
  · rw [if_neg hc, Res.ok_bind]
    have hf1 : h1.buf h1.fresh = none := a2.1 _ (Nat.le_refl _)
    have hft : h1.fresh ≠ t := by
      intro e; rw [e, hbt] at hf1; cases hf1
    have hfs : h1.fresh ≠ s := by
      intro e; rw [e, hb1] at hf1; cases hf1
    refine ⟨_, _, rfl, ⟨_, by simp [destroy, upd, hft, hfs]; rfl, by simp⟩, ?_, ?_⟩
    · intro k k1 k2
      have k2' : k ≠ h1.fresh := k2
      by_cases hk : k = t
      · subst hk; simp [destroy, upd, ht]
      · simp [destroy, upd, hk, k1, k2']
        exact hother k hk
    · intro _
      refine ⟨by simp [destroy, upd], ?_⟩
      rw [← hother h1.fresh hft]
      exact hf1

/-- Doubling. -/
def exGrow : Grow := ⟨fun n => 2 * n + 1, fun n => by omega⟩
def exHeap : Heap := ⟨fun n => if n = 0 then some ⟨[1, 2, 3], 4⟩ else if n = 1 then some ⟨[7, 8], 2⟩ else none, 2⟩

theorem exGood : Good exHeap := by
  constructor
  · intro n hn
    have hn' : 2 ≤ n := hn
    simp [exHeap, show n ≠ 0 by omega, show n ≠ 1 by omega]
  · intro n b hb
    simp only [exHeap] at hb
    split at hb
    · cases hb; decide
    · split at hb
      · cases hb; decide
      · cases hb

/-- The characters of the string after an operation. -/
def text : Res (Heap × Nat) → Option (List Int)
  | .ok (h, s) => (h.buf s).map (·.data)
  | _ => none

example : text (append exGrow exHeap 0 1 0 2) = some [1, 2, 3, 7, 8] := by decide
example : text (append exGrow exHeap 0 0 1 2) = some [1, 2, 3, 2, 3] := by decide
example : text (append exGrow exHeap 0 0 0 3) = none ∧ (4 : Nat) + 1 < 3 + 3 := by decide
example : text (assign exGrow exHeap 0 0 0 3) = some [0, 0, 0] := by decide
example : text (replace exGrow 15 exHeap 0 1 1 0 0 3) = some [1, 1, 2, 3, 3] := by decide
example : Has exHeap 0 [1, 2, 3] := ⟨_, rfl, rfl⟩

#print axioms C109_append_other
#print axioms C109_append_own_partial
#print axioms C109_assign_other
#print axioms C109_finding_assign_own
#print axioms C109_replace

end Verif.Props.StrAlias
