import Verif.Proof.Serializer
set_option linter.unusedSimpArgs false

/-! # C19, C20, C21: the serializer -/
namespace Verif.Props.Serializer
open Verif Verif.Stream Verif.Serializer Verif.Spec.Serializer

/-- C19.  Every 32- and 64-bit integer (signed and unsigned share their bit patterns) is loaded as it was saved, from a
stream of any fragmentation, and exactly the written bytes are consumed. -/
theorem C19_roundtrip (w : Nat) (hw : w = 32 ∨ w = 64) (x : BitVec w) (s : Src) (rest : List UInt8)
    (h : s.rest = saveVariableInt x ++ rest) : ∃ s', loadVariableInt w s = .ok (x, s') ∧ s'.rest = rest :=
  (variable_good w hw x).ok s rest h

/-- C19.  The encoding takes between 1 and `1 + sizeof(T)` bytes. -/
theorem C19_length (w : Nat) (hw : w = 32 ∨ w = 64) (x : BitVec w) :
    1 ≤ (saveVariableInt x).length ∧ (saveVariableInt x).length ≤ 1 + w / 8 := by
  refine ⟨?_, variable_length w x hw⟩
  rcases Nat.eq_zero_or_pos (saveVariableInt x).length with h | h
  · exfalso
    have h0 := List.length_eq_zero_iff.mp h
    obtain ⟨s', e1, _⟩ := C19_roundtrip w hw x ⟨[], fun _ => 0, 0⟩ [] (by rw [h0]; rfl)
    rw [loadVariableInt, loadPod, loadRange, read_throw _ _ _ (by simp) (by simp)] at e1
    simp at e1
  · exact h

/-- C19.  Small values are short: everything in -120..127 takes one byte. -/
theorem C19_short (w : Nat) (hw : w = 32 ∨ w = 64) (x : BitVec w) (h : -120 ≤ x.toInt ∧ x.toInt ≤ 127) :
    (saveVariableInt x).length = 1 := by
  have e : x = BitVec.ofInt w x.toInt := by simp
  have hb : x.toInt = (x.toInt + 120).toNat - 120 := by omega
  have hn : (x.toInt + 120).toNat < 248 := by omega
  rw [e, hb]
  generalize (x.toInt + 120).toNat = n at hn
  rcases hw with rfl | rfl
  · have : ∀ n : Fin 248, (saveVariableInt (BitVec.ofInt 32 ((n.val : Int) - 120))).length = 1 := by decide +kernel
    exact this ⟨n, hn⟩
  · have : ∀ n : Fin 248, (saveVariableInt (BitVec.ofInt 64 ((n.val : Int) - 120))).length = 1 := by decide +kernel
    exact this ⟨n, hn⟩

/-- C19.  Any sequence of values saved one after the other is loaded in order. -/
theorem C19_concatenated (w : Nat) (hw : w = 32 ∨ w = 64) (l : List (BitVec w)) (s : Src) (rest : List UInt8)
    (h : s.rest = (l.map saveVariableInt).flatten ++ rest) :
    ∃ s', loadMany (loadVariableInt w) (fun x e => x ++ [e]) l.length [] s = .ok (l, s') ∧ s'.rest = rest := by
  have := (loadMany_good (ld := loadVariableInt w) (sv := saveVariableInt) (fun x e => x ++ [e]) l
    (fun x _ => variable_good w hw x) []).ok s rest h
  rw [foldl_append_one] at this
  simpa using this

/-- C19.  Different values have different encodings, and none is a prefix of another. -/
theorem C19_prefix_free (w : Nat) (hw : w = 32 ∨ w = 64) (x y : BitVec w) (h : saveVariableInt x <+: saveVariableInt y) : x = y := by
  obtain ⟨r, hr⟩ := h
  obtain ⟨s1, e1, _⟩ := C19_roundtrip w hw x ⟨saveVariableInt y, fun _ => 0, 0⟩ r hr.symm
  obtain ⟨s2, e2, _⟩ := C19_roundtrip w hw y ⟨saveVariableInt y, fun _ => 0, 0⟩ [] (by simp)
  rw [e1] at e2
  injection e2 with e2
  exact (Prod.ext_iff.mp e2).1

/-- Finding for C19.  The statement is about loading as the same type.  A negative `int` below -32768 loaded as `int64_t`
becomes 2^32 larger, although smaller ones survive the change of type. -/
theorem C19_cross_width_wrong :
    (loadVariableInt 64 ⟨saveVariableInt (BitVec.ofInt 32 (-32769)), fun _ => 9, 0⟩).bind (fun p => .ok p.1.toInt) =
      .ok (2 ^ 32 - 32769) ∧
    (loadVariableInt 64 ⟨saveVariableInt (BitVec.ofInt 32 (-32768)), fun _ => 9, 0⟩).bind (fun p => .ok p.1.toInt) =
      .ok (-32768) := by decide +kernel

variable (ord same : (t : Ty) → Val t → Val t → Bool)

/-- C20, as far as it is true.  Loading what `save` wrote gives back the value and consumes exactly its bytes, for every
nested type and every fragmentation: into any destination for integers, PODs, strings, vectors and lists, and into an
empty destination for sets and maps.
Missing: sets and maps loaded into an object that already holds data (false, see below). -/
theorem C20_roundtrip_partial (t : Ty) (old x : Val t) (hx : Valid ord same t x) (ho : Clears t ∨ old = default t) (s : Src)
    (rest : List UInt8) (h : s.rest = save t x ++ rest) :
    ∃ s', load ord same t old s = .ok (x, s') ∧ s'.rest = rest := by
  have hg := (load_good ord same t old x hx).ok s rest h
  rcases ho with hc | rfl
  · have : loaded ord same t old x = x := by
      cases t <;> first | rfl | exact absurd hc (by simp [Clears])
    rw [this] at hg; exact hg
  · rw [loaded_default ord same t x hx] at hg; exact hg

/-- C20.  What sets and maps do instead: the loaded entries are inserted into what the destination held. -/
theorem C20_set_inserts (k : Ty) (old x : Val (.set k)) (hx : Valid ord same (.set k) x) (s : Src) (rest : List UInt8)
    (h : s.rest = save (.set k) x ++ rest) (conn : ∀ a b, ord k a b = false → ord k b a = false → a = b) :
    ∃ r s', load ord same (.set k) old s = .ok (r, s') ∧ s'.rest = rest ∧
      ∀ e, e ∈ (r : List (Val k)) ↔ e ∈ (old : List (Val k)) ∨ e ∈ (x : List (Val k)) := by
  obtain ⟨s', e1, e2⟩ := (load_good ord same (.set k) old x hx).ok s rest h
  refine ⟨_, s', e1, e2, ?_⟩
  have one : ∀ (l : List (Val k)) (y e : Val k), e ∈ setInsert (ord k) l y ↔ e ∈ l ∨ e = y := by
    intro l y e
    induction l with
    | nil => simp [setInsert]
    | cons z l ih =>
      rw [setInsert]
      split
      · simp only [List.mem_cons, ih, or_assoc]
      · split
        · simp only [List.mem_cons]
          constructor
          · rintro (h | h | h)
            · exact .inr h
            · exact .inl (.inl h)
            · exact .inl (.inr h)
          · rintro ((h | h) | h)
            · exact .inr (.inl h)
            · exact .inr (.inr h)
            · exact .inl h
        · rename_i h1 h2
          have := conn z y (by simpa using h1) (by simpa using h2)
          subst this
          simp only [List.mem_cons]
          constructor
          · exact fun h => .inl h
          · rintro (h | h)
            · exact h
            · exact .inl h
  have many : ∀ (x acc : List (Val k)) (e : Val k), e ∈ x.foldl (setInsert (ord k)) acc ↔ e ∈ acc ∨ e ∈ x := by
    intro x
    induction x with
    | nil => intro acc e; simp
    | cons y x ih =>
      intro acc e
      rw [List.foldl_cons, ih, one]
      simp only [List.mem_cons, or_assoc]
  exact many x old

/-- The order of `std::set<int>` and of `std::map<int, int>`, for the examples. -/
def intOrd : (t : Ty) → Val t → Val t → Bool
  | .int l, a, b => decide (BitVec.toInt (n := width l) a < BitVec.toInt (n := width l) b)
  | _, _, _ => false

/-- The equality of int keys. -/
def intSame : (t : Ty) → Val t → Val t → Bool
  | .int l, a, b => decide (BitVec.toInt (n := width l) a = BitVec.toInt (n := width l) b)
  | _, _, _ => false

/-- Finding: `load` does not clear a set; what the destination held stays. -/
theorem C20_set_not_cleared :
    (load intOrd intSame (.set (.int false)) [1#32, 5#32] ⟨save (.set (.int false)) [3#32], fun _ => 9, 0⟩).bind
      (fun p => .ok p.1) = .ok [1#32, 3#32, 5#32] := by decide +kernel

/-- Finding: `load` does not clear a map, and a key that exists keeps its OLD value. -/
theorem C20_map_keeps_old_value :
    (load intOrd intSame (.map (.int false) (.int false)) [(1#32, 10#32)]
      ⟨save (.map (.int false) (.int false)) [(1#32, 20#32), (2#32, 30#32)], fun _ => 9, 0⟩).bind
      (fun p => .ok p.1) = .ok [(1#32, 10#32), (2#32, 30#32)] := by decide +kernel

/-- Finding: the same for `unordered_map`. -/
theorem C20_umap_keeps_old_value :
    (load intOrd intSame (.umap (.int false) (.int false)) [(1#32, 10#32)]
      ⟨save (.umap (.int false) (.int false)) [(1#32, 20#32), (2#32, 30#32)], fun _ => 9, 0⟩).bind
      (fun p => .ok p.1) = .ok [(1#32, 10#32), (2#32, 30#32)] := by decide +kernel

/-- The statement of C20 for every destination fails. -/
theorem C20_full_statement_fails :
    ¬ ∀ (t : Ty) (old x : Val t), Valid intOrd intSame t x → ∀ (s : Src) (rest : List UInt8), s.rest = save t x ++ rest →
      ∃ s', load intOrd intSame t old s = .ok (x, s') ∧ s'.rest = rest := by
  intro hall
  have hv : Valid intOrd intSame (.set (.int false)) [3#32] := ⟨by decide, by intro e _; trivial, List.pairwise_singleton _ _⟩
  obtain ⟨s', h1, _⟩ := hall (.set (.int false)) [1#32, 5#32] [3#32] hv
    ⟨save (.set (.int false)) [3#32], fun _ => 9, 0⟩ [] (by simp)
  have h2 := C20_set_not_cleared
  rw [h1] at h2
  have h3 : ([3#32] : List (BitVec 32)) = [1#32, 3#32, 5#32] := by injection h2
  exact absurd h3 (by decide)

/-- C21.  Loading from a strict prefix of the serialized bytes throws: for every nested type, every value, every
truncation point, every fragmentation and every prior content of the destination. -/
theorem C21_truncated_throws (t : Ty) (old x : Val t) (hx : Valid ord same t x) (s : Src) (hp : s.rest <+: save t x)
    (hne : s.rest ≠ save t x) : load ord same t old s = .throw :=
  (load_good ord same t old x hx).short s hp hne

/-- C21.  On any bytes whatever (also corrupted ones), loading returns a value or throws; it never reads or writes outside
its buffers. -/
theorem C21_never_undefined (t : Ty) (old : Val t) (s : Src) : load ord same t old s ≠ .ub :=
  load_safe ord same t old s

/-! Concrete cases. -/

-- 0x80..0x87 collide with -128..-121
example : saveVariableInt (BitVec.ofInt 32 (-128)) = [0x84, 0x80] ∧ saveVariableInt (BitVec.ofInt 32 (-120)) = [0x88] ∧
    saveVariableInt (BitVec.ofInt 64 (-1)) = [0xff] ∧ saveVariableInt (BitVec.ofInt 64 (-40000)) = [0x86, 0xc0, 0x63, 0xff, 0xff] ∧
    saveVariableInt (BitVec.ofNat 32 200) = [0x80, 200] := by decide +kernel
-- a map from int to a vector of strings
example : Valid intOrd intSame (.map (.int false) (.seq .str)) [(1#32, [[65], []]), (7#32, [])] := by
  refine ⟨by decide, ?_, ?_⟩
  · intro e he
    simp only [List.mem_cons, List.not_mem_nil, or_false] at he
    rcases he with rfl | rfl
    · exact ⟨trivial, by decide, by intro e he; simp at he; rcases he with rfl | rfl <;> simp [Valid]⟩
    · exact ⟨trivial, by decide, by simp⟩
  · simp [intOrd, width]
example : save (.map (.int false) (.seq .str)) [(1#32, [[65], []]), (7#32, [])] = [2, 1, 2, 1, 65, 0, 7, 0] := by decide +kernel
example : ([2, 1, 2, 1] : List UInt8) <+: [2, 1, 2, 1, 65, 0, 7, 0] := by decide

#print axioms C19_roundtrip
#print axioms C19_length
#print axioms C19_short
#print axioms C19_concatenated
#print axioms C19_prefix_free
#print axioms C20_roundtrip_partial
#print axioms C20_set_inserts
#print axioms C20_full_statement_fails
#print axioms C21_truncated_throws
#print axioms C21_never_undefined

end Verif.Props.Serializer
