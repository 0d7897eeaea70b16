import Verif.Proof.SaisFrame
import Verif.Props.FMindex

/-! # C90: the suffix sorter `saisxx`, and the FM-index that is built with it -/
namespace Verif.Props.Sais
open Verif.Sais Verif.Spec.FMindex Verif.FMindex Verif.Spec.Frequency
open Verif.Props.FMindex

/-- C90.  For every text over `0 .. k-1`: `saisxx` returns 0, the first `n` elements are the suffix array of the text, and nothing
behind them has changed, provided no allocation fails.  No access leaves an array (the model would give `ub`). -/
theorem C90_sorts (g A : Arr) (v : List Nat) (k : Nat) (hk : 0 < k) (hv : ∀ c ∈ v, c < k) (alloc : Nat → Nat → Bool)
    (hal : ∀ d c, alloc d c = true) :
    ∃ A', saisxx alloc g (textOf v) A v.length k = .ok (0, A') ∧ IsSuffixArray v (listOf A' v.length) ∧
      ∀ x, v.length ≤ x → A' x = A x := by
  rcases saisxx_all alloc g v A k hk hv with h | ⟨_, d, c, h⟩
  · exact h
  · rw [hal] at h
    cases h

/-- C90.  Whatever allocations fail, the only other result is -2, and then some allocation has failed. -/
theorem C90_or_no_memory (g A : Arr) (v : List Nat) (k : Nat) (hk : 0 < k) (hv : ∀ c ∈ v, c < k) (alloc : Nat → Nat → Bool) :
    (∃ A', saisxx alloc g (textOf v) A v.length k = .ok (0, A') ∧ IsSuffixArray v (listOf A' v.length) ∧
      ∀ x, v.length ≤ x → A' x = A x) ∨
    (∃ A', saisxx alloc g (textOf v) A v.length k = .ok (-2, A')) ∧ ∃ d c, alloc d c = false := by
  rcases saisxx_all alloc g v A k hk hv with h | ⟨h1, h2⟩
  · exact Or.inl h
  · exact Or.inr ⟨⟨A, h1⟩, h2⟩

/-- C90.  A negative length or an empty alphabet is refused with -1 and the array is left as it was. -/
theorem C90_bad_arguments (alloc : Nat → Nat → Bool) (g A : Arr) (T : Nat → Nat) (n k : Int) (h : n < 0 ∨ k ≤ 0) :
    saisxx alloc g T A n k = .ok (-1, A) := by
  rw [saisxx, if_pos h]

/-- C90.  The sorter called with any work space `fs` behind the `n` elements changes nothing behind that: a recursive call, whose text
lies exactly there, does not change its text. -/
theorem C90_frame (alloc : Nat → Nat → Bool) (g : Arr) (depth : Nat) (T : Nat → Nat) (fs n k : Nat) (isbwt : Bool) (A A' : Arr) (e : Int)
    (h : suffixsort alloc g depth T fs n k isbwt A = .ok (e, A')) (x : Nat) (hx : n + fs ≤ x) : A' x = A x :=
  suffixsort_fr alloc g depth T fs n k isbwt A A' e h x hx

/-- The suffix array is unique. -/
theorem unique {v s t : List Nat} (hs : IsSuffixArray v s) (ht : IsSuffixArray v t) : s = t := by
  apply List.Perm.eq_of_pairwise (le := fun a b => lexLt (v.drop a) (v.drop b) = true) _ hs.sorted ht.sorted (hs.perm.trans ht.perm.symm)
  intro a b _ _ h1 h2
  rw [lexLt_iff] at h1 h2
  exact absurd h1 (lt_asymm h2)

/-- C90.  The result depends on the text alone: neither on what the array or the allocated memory contained, nor on the bound of the alphabet. -/
theorem C90_unique (g g' A A' : Arr) (v : List Nat) (k k' : Nat) (hk : 0 < k) (hv : ∀ c ∈ v, c < k) (hk' : 0 < k') (hv' : ∀ c ∈ v, c < k')
    (alloc : Nat → Nat → Bool) (hal : ∀ d c, alloc d c = true) :
    ∃ B B', saisxx alloc g (textOf v) A v.length k = .ok (0, B) ∧ saisxx alloc g' (textOf v) A' v.length k' = .ok (0, B') ∧
      listOf B v.length = listOf B' v.length := by
  obtain ⟨B, h1, h2, _⟩ := C90_sorts g A v k hk hv alloc hal
  obtain ⟨B', h1', h2', _⟩ := C90_sorts g' A' v k' hk' hv' alloc hal
  exact ⟨B, B', h1, h1', unique h2 h2'⟩

/-! The FM-index with this sorter. -/

theorem toInt_small {x : Nat} (h : x < 2 ^ 31) : toInt x = x := by
  unfold toInt
  rw [Nat.mod_eq_of_lt (by omega), if_pos h]

theorem sorter_ok {g : Arr} {v : List Nat} {k : Nat} (hk : 0 < k) (hk2 : k < 2 ^ 31) (hv : ∀ c ∈ v, c < k) (hn : v.length < 2 ^ 31)
    {alloc : Nat → Nat → Bool} (hal : ∀ d c, alloc d c = true) :
    ∃ sa, sorter alloc g k v = (0, sa) ∧ IsSuffixArray v sa := by
  obtain ⟨A', h1, h2, _⟩ := C90_sorts g (fun _ => 0) v k hk hv alloc hal
  refine ⟨_, ?_, h2⟩
  rw [sorter, toInt_small hn, toInt_small hk2, h1]

/-- C16 and C17 for `FMindexT<uint8_t, true>` with the sorter of the library, without an assumption about it: texts of fewer than
2^31 - 1 characters, none of them zero.  Missing from the full claim: longer texts (`C16_long_text_throws`), rebuilt objects. -/
theorem C16_raw_bytes_sorted_partial (fm : FM) (hfm : fm.alignedSa = []) (freq : FreqView) (g : Arr) (alloc : Nat → Nat → Bool)
    (hal : ∀ d c, alloc d c = true) (text : List Nat) (htext : ∀ c ∈ text, 0 < c ∧ c < 256) (hn : text.length < 2 ^ 31 - 1)
    (skip : Int) (hskip : 0 < skip) :
    Right true 8 (init true 8 fm freq (sorter alloc g 256) text skip) text fun c => c ≠ 0 ∧ c < 256 := by
  obtain ⟨sa, h1, h2⟩ := sorter_ok (g := g) (v := text ++ [0]) (k := 256) (by omega) (by omega) (by
    intro c hc
    rcases List.mem_append.mp hc with h | h
    · exact (htext c h).2
    · rw [List.mem_singleton.mp h]
      omega) (by simp; omega) hal
  exact raw_right (by omega) fm hfm freq _ text htext (by omega) skip hskip sa h1 h2

/-- C17 of the same: every row of an answer is converted to an occurrence, each occurrence once. -/
theorem C17_raw_bytes_sorted_partial (fm : FM) (hfm : fm.alignedSa = []) (freq : FreqView) (g : Arr) (alloc : Nat → Nat → Bool)
    (hal : ∀ d c, alloc d c = true) (text : List Nat) (htext : ∀ c ∈ text, 0 < c ∧ c < 256) (hn : text.length < 2 ^ 31 - 1)
    (skip : Int) (hskip : 0 < skip) :
    ∃ f, init true 8 fm freq (sorter alloc g 256) text skip = .ok f ∧ ∀ key, key ≠ [] → (∀ c ∈ key, c ≠ 0 ∧ c < 256) →
      ∀ b e, getRange true 8 f key = .ok (some (b, e)) → ∀ fuel, text.length < fuel →
        Locates text key b e (convertPosition f fuel) (getPrevString true f) := by
  obtain ⟨f, h1, h2⟩ := C16_raw_bytes_sorted_partial fm hfm freq g alloc hal text htext hn skip hskip
  exact ⟨f, h1, fun key hne hk => (h2 key hne hk).2⟩

theorem coded_sorted {tb : Nat} (htb : tb ≤ 32) (fm : FM) (hfm : fm.alignedSa = []) (freq : FreqView) (g : Arr) (alloc : Nat → Nat → Bool)
    (hal : ∀ d c, alloc d c = true) (text : List Nat)
    (hr : Ranks text (fun c => c < 2 ^ tb) freq.size freq.getFrequency freq.getIndex freq.getElement)
    (htext : ∀ c ∈ text, c < 2 ^ tb) (hsize : freq.size + 1 ≤ 2 ^ tb) (hbits : freq.size + 1 < 2 ^ 16)
    (hn : text.length < 2 ^ 31 - 1) (skip : Int) (hskip : 0 < skip) :
    Right false tb (init false tb fm freq (sorter alloc g (freq.size + 1)) text skip) text fun c => c < 2 ^ tb := by
  obtain ⟨cf, _, h⟩ := cvt_coded (by omega) hr htext hsize (by omega)
  obtain ⟨sa, h1, h2⟩ := sorter_ok (g := g) (v := text.map (codeOf freq) ++ [0]) (k := freq.size + 1) (by omega) (by omega) (by
    intro c hc
    rcases List.mem_append.mp hc with w | w
    · obtain ⟨d, hd, rfl⟩ := List.mem_map.mp w
      exact (h.range d hd).2
    · rw [List.mem_singleton.mp w]
      omega) (by simp; omega) hal
  exact coded_right htb fm hfm freq _ text hr htext hsize hbits (by omega) skip hskip sa h1 h2

/-- C16 and C17 for `FMindexT<uint8_t, false>` with the sorter of the library: texts of at most 255 different bytes and fewer than
2^31 - 1 characters. -/
theorem C16_coded_bytes_sorted_partial (fm : FM) (hfm : fm.alignedSa = []) (text a b order : List Nat)
    (hl : ∀ e ∈ text, e < 256) (hn : text.length < 2 ^ 31 - 1) (ha : a.length = 256)
    (ho : Verif.Frequency.SortOutcome (fun e => text.count e) (List.range 256) order) (st : Verif.Frequency.FV)
    (hst : Verif.Frequency.FV.init 32 (Verif.Frequency.FV.clear a b) text order = .ok st) (hsize : st.size ≤ 255)
    (g : Arr) (alloc : Nat → Nat → Bool) (hal : ∀ d c, alloc d c = true) (skip : Int) (hskip : 0 < skip) :
    Right false 8 (init false 8 fm (ofFV st) (sorter alloc g (st.size + 1)) text skip) text fun c => c < 256 :=
  coded_sorted (tb := 8) (by omega) fm hfm (ofFV st) g alloc hal text (bytes_ranks hl (by omega) ha ho hst) hl
    (by simp [ofFV]; omega) (by simp [ofFV]; omega) hn skip hskip

/-- C17 of the same: every row of an answer is converted to an occurrence, each occurrence once. -/
theorem C17_coded_bytes_sorted_partial (fm : FM) (hfm : fm.alignedSa = []) (text a b order : List Nat)
    (hl : ∀ e ∈ text, e < 256) (hn : text.length < 2 ^ 31 - 1) (ha : a.length = 256)
    (ho : Verif.Frequency.SortOutcome (fun e => text.count e) (List.range 256) order) (st : Verif.Frequency.FV)
    (hst : Verif.Frequency.FV.init 32 (Verif.Frequency.FV.clear a b) text order = .ok st) (hsize : st.size ≤ 255)
    (g : Arr) (alloc : Nat → Nat → Bool) (hal : ∀ d c, alloc d c = true) (skip : Int) (hskip : 0 < skip) :
    ∃ f, init false 8 fm (ofFV st) (sorter alloc g (st.size + 1)) text skip = .ok f ∧ ∀ key, key ≠ [] → (∀ c ∈ key, c < 256) →
      ∀ b e, getRange false 8 f key = .ok (some (b, e)) → ∀ fuel, text.length < fuel →
        Locates text key b e (convertPosition f fuel) (getPrevString false f) := by
  obtain ⟨f, h1, h2⟩ := C16_coded_bytes_sorted_partial fm hfm text a b order hl hn ha ho st hst hsize g alloc hal skip hskip
  exact ⟨f, h1, fun key hne hk => (h2 key hne hk).2⟩

/-- C16 and C17 for `FMindexT<uint16_t, false>` with the sorter of the library: texts of at most 65534 different characters and fewer
than 2^31 - 1 characters. -/
theorem C16_coded_wide_sorted_partial (fm : FM) (hfm : fm.alignedSa = []) (text order : List Nat)
    (hl : ∀ e ∈ text, e < 65536) (hn : text.length < 2 ^ 31 - 1)
    (ho : Verif.Frequency.SortOutcomeG (Verif.Frequency.FG.clear.appendAll 32 text).m order)
    (st : Verif.Frequency.FG) (hst : st = Verif.Frequency.FG.init 32 .clear text order) (hsize : st.size ≤ 65534)
    (g : Arr) (alloc : Nat → Nat → Bool) (hal : ∀ d c, alloc d c = true) (skip : Int) (hskip : 0 < skip) :
    Right false 16 (init false 16 fm (ofFG st) (sorter alloc g (st.size + 1)) text skip) text fun c => c < 65536 := by
  subst hst
  exact coded_sorted (tb := 16) (by omega) fm hfm _ g alloc hal text (wide_ranks (by omega) ho) hl
    (by simp only [ofFG]; omega) (by simp only [ofFG]; omega) hn skip hskip

/-- C17 of the same: every row of an answer is converted to an occurrence, each occurrence once. -/
theorem C17_coded_wide_sorted_partial (fm : FM) (hfm : fm.alignedSa = []) (text order : List Nat)
    (hl : ∀ e ∈ text, e < 65536) (hn : text.length < 2 ^ 31 - 1)
    (ho : Verif.Frequency.SortOutcomeG (Verif.Frequency.FG.clear.appendAll 32 text).m order)
    (st : Verif.Frequency.FG) (hst : st = Verif.Frequency.FG.init 32 .clear text order) (hsize : st.size ≤ 65534)
    (g : Arr) (alloc : Nat → Nat → Bool) (hal : ∀ d c, alloc d c = true) (skip : Int) (hskip : 0 < skip) :
    ∃ f, init false 16 fm (ofFG st) (sorter alloc g (st.size + 1)) text skip = .ok f ∧ ∀ key, key ≠ [] → (∀ c ∈ key, c < 65536) →
      ∀ b e, getRange false 16 f key = .ok (some (b, e)) → ∀ fuel, text.length < fuel →
        Locates text key b e (convertPosition f fuel) (getPrevString false f) := by
  obtain ⟨f, h1, h2⟩ := C16_coded_wide_sorted_partial fm hfm text order hl hn ho st hst hsize g alloc hal skip hskip
  exact ⟨f, h1, fun key hne hk => (h2 key hne hk).2⟩

/-- C16 (finding).  `init` accepts texts of up to 2^32 - 2 characters, but hands the length to the sorter as an `int`: from 2^31 - 1
characters on the length with the terminator is negative there, and `init` throws. -/
theorem C16_long_text_throws (fm : FM) (freq : FreqView) (g : Arr) (alloc : Nat → Nat → Bool) (text : List Nat)
    (htext : ∀ c ∈ text, 0 < c ∧ c < 256) (h1 : 2 ^ 31 - 1 ≤ text.length) (h2 : text.length < 2 ^ 32 - 1) (skip : Int) :
    init true 8 fm freq (sorter alloc g 256) text skip = .throw := by
  rw [init]
  by_cases hs : skip ≤ 0
  · rw [if_pos hs]
  obtain ⟨cf, e, _⟩ := raw_coded (tb := 8) (freq := freq) htext h2
  rw [if_neg hs, e, Res.ok_bind]
  have hneg : toInt (text ++ [0]).length < 0 := by
    unfold toInt
    rw [List.length_append, List.length_singleton, Nat.mod_eq_of_lt (by omega), if_neg (by omega)]
    omega
  have : sorter alloc g 256 (text ++ [0]) = (-1, listOf (fun _ => 0) (text ++ [0]).length) := by
    rw [sorter, C90_bad_arguments _ _ _ _ _ _ (Or.inl hneg)]
  simp only [this, if_true]

/-- C16 (finding).  If the first allocation of the sorter fails the index is built all the same, from the zeros in `sa`, and does not find
the only character of the text. -/
theorem C16_no_memory_ignored (g : Arr) :
    sorter (fun _ _ => false) g 3 [1, 2, 0] = (-2, [0, 0, 0]) ∧
    (do let f ← init false 16 (empty (ab 1 1)) (ab 1 1) (sorter (fun _ _ => false) g 3) [10, 20] 8
        getRange false 16 f [20]) = .ok none := by
  have h : sorter (fun _ _ => false) g 3 [1, 2, 0] = (-2, [0, 0, 0]) := by
    rfl
  refine ⟨h, ?_⟩
  have e : initCf false 16 (ab 1 1) [10, 20] = .ok ([1, 2, 0], [0, 1, 2], 3) := by decide +kernel
  have : init false 16 (empty (ab 1 1)) (ab 1 1) (sorter (fun _ _ => false) g 3) [10, 20] 8 =
      init false 16 (empty (ab 1 1)) (ab 1 1) (fun v => (-2, List.replicate v.length 0)) [10, 20] 8 := by
    rw [init, init, e]
    simp only [Res.ok_bind, h]
    rfl
  rw [this]
  exact C16_sorter_failure_ignored.1

/-! Non-trivial cases: the hypotheses are met. -/

example : saisxx (fun _ _ => true) (fun _ => 7) (textOf [2, 1, 3, 1, 3, 1]) (fun _ => 5) 6 4 ≠ .ub ∧
    (match saisxx (fun _ _ => true) (fun _ => 7) (textOf [2, 1, 3, 1, 3, 1]) (fun _ => 5) 6 4 with
      | .ok (e, A) => (e, listOf A 6, A 6)
      | _ => (9, [], 0)) = (0, [5, 3, 1, 0, 4, 2], 5) := by
  have h : (match saisxx (fun _ _ => true) (fun _ => 7) (textOf [2, 1, 3, 1, 3, 1]) (fun _ => 5) 6 4 with
      | .ok (e, A) => (e, listOf A 6, A 6)
      | _ => (9, [], 0)) = (0, [5, 3, 1, 0, 4, 2], 5) := by decide +kernel
  refine ⟨fun e => ?_, h⟩
  rw [e] at h
  revert h
  decide

example : sorter (fun _ _ => true) (fun _ => 7) 256 ([98, 97, 110, 97, 110, 97] ++ [0]) = (0, [6, 5, 3, 1, 0, 4, 2]) := by decide +kernel

example : ∃ t : List Nat, (∀ c ∈ t, 0 < c ∧ c < 256) ∧ 2 ^ 31 - 1 ≤ t.length ∧ t.length < 2 ^ 32 - 1 :=
  ⟨List.replicate (2 ^ 31) 1, fun c hc => by rw [List.eq_of_mem_replicate hc]; decide, by rw [List.length_replicate]; decide,
    by rw [List.length_replicate]; decide⟩

#print axioms C90_sorts
#print axioms C90_or_no_memory
#print axioms C90_bad_arguments
#print axioms C90_frame
#print axioms C90_unique
#print axioms C16_raw_bytes_sorted_partial
#print axioms C17_raw_bytes_sorted_partial
#print axioms C16_coded_bytes_sorted_partial
#print axioms C17_coded_bytes_sorted_partial
#print axioms C16_coded_wide_sorted_partial
#print axioms C17_coded_wide_sorted_partial
#print axioms C16_long_text_throws
#print axioms C16_no_memory_ignored

end Verif.Props.Sais
