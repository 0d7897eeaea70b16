import Verif.Proof.ShaCommon

set_option linter.unusedSimpArgs false

/-! The compression functions of sha2.hpp equal those of the standard. -/
namespace Verif.Sha
open Verif.Endian Verif.Spec.Endian Verif.Spec.Sha

/-! ## Roots -/

theorem rootAux_spec (k m : Nat) : ∀ (b x : Nat), x ^ k ≤ m → m < (x + 2 ^ b) ^ k →
    rootAux k m b x ^ k ≤ m ∧ m < (rootAux k m b x + 1) ^ k := by
  intro b
  induction b with
  | zero => intro x h1 h2; exact ⟨h1, by simpa [rootAux] using h2⟩
  | succ b ih =>
    intro x h1 h2
    rw [rootAux]
    split
    · rename_i h
      exact ih _ h (by rw [Nat.add_assoc, ← Nat.two_mul, ← Nat.pow_succ']; exact h2)
    · rename_i h
      exact ih _ h1 (by omega)

/-! ## Bits -/

theorem ch_eq {n : Nat} (e f g : BitVec n) : g ^^^ (e &&& (f ^^^ g)) = ch e f g := by
  rw [ch]
  ext i hi
  simp only [BitVec.getElem_xor, BitVec.getElem_and, BitVec.getElem_not]
  cases e[i] <;> cases f[i] <;> cases g[i] <;> rfl

theorem maj_eq {n : Nat} (a b c : BitVec n) : ((a ||| b) &&& c) ||| (a &&& b) = maj a b c := by
  rw [maj]
  ext i hi
  simp only [BitVec.getElem_xor, BitVec.getElem_and, BitVec.getElem_or]
  cases a[i] <;> cases b[i] <;> cases c[i] <;> rfl

theorem rot32_eq (x : BitVec 32) (s : Nat) (h : s < 32) : rot32 x s = x.rotateRight s := by
  rw [rot32, BitVec.rotateRight_eq_rotateRightAux_of_lt h, BitVec.rotateRightAux]

theorem rot64_eq (x : BitVec 64) (s : Nat) (h : s < 64) : rot64 x s = x.rotateRight s := by
  rw [rot64, BitVec.rotateRight_eq_rotateRightAux_of_lt h, BitVec.rotateRightAux]

/-! ## Tables -/

theorem at?_map {α : Type} (W : Nat → α) (k i : Nat) (h : i < k) :
    at? ((List.range k).map W) i = .ok (W i) := by
  rw [at?_eq_ok (by simpa using h)]; simp

theorem at?_getD {α : Type} (l : List α) (i : Nat) (d : α) (h : i < l.length) :
    at? l i = .ok (l.getD i d) := by
  rw [at?_eq_ok h]; simp [h]

theorem put_ok {α : Type} {s : List α} {i : Nat} {v : α} (h : i < s.length) : put s i v = .ok (s.set i v) := by
  rw [put, if_pos h]

theorem range_snoc {α : Type} (W : Nat → α) (k : Nat) :
    (List.range k).map W ++ [W k] = (List.range (k + 1)).map W := by
  rw [List.range_succ, List.map_append]; rfl

/-! ## Schedule -/

theorem word_app {n : Nat} {blk rest : List UInt8} {t : Nat} (h : n / 8 * t + n / 8 ≤ blk.length) :
    word n (blk ++ rest) t = word n blk t := by
  rw [word, word, List.drop_append_of_le_length (by omega), List.take_append_of_le_length (by simp; omega)]

theorem get32BE_eq {src : List UInt8} {off : Nat} (h : off + 4 ≤ src.length) :
    get32BEMem src off = .ok (valueBE ((src.drop off).take 4)) := loadBE_eq h

theorem get64BE_eq {src : List UInt8} {off : Nat} (h : off + 8 ≤ src.length) :
    get64BEMem src off = .ok (valueBE ((src.drop off).take 8)) := loadBE_eq h

theorem loadW256_eq (buf : List UInt8) (hb : 64 ≤ buf.length) : ∀ (cnt k : Nat), k + cnt ≤ 16 →
    loadW256 buf cnt ((List.range k).map (word 32 buf)) = .ok ((List.range (k + cnt)).map (word 32 buf)) := by
  intro cnt
  induction cnt with
  | zero => intro k _; rfl
  | succ cnt ih =>
    intro k h
    rw [loadW256, List.length_map, List.length_range, get32BE_eq (by omega)]
    simp only [Res.ok_bind]
    have : BitVec.ofNat 32 (valueBE ((buf.drop (k * 4)).take 4)) = word 32 buf k := by
      rw [word, Nat.mul_comm]
    rw [this, range_snoc, ih (k + 1) (by omega)]
    congr 3; omega

theorem loadW512_eq (buf : List UInt8) (hb : 128 ≤ buf.length) : ∀ (cnt k : Nat), k + cnt ≤ 16 →
    loadW512 buf cnt ((List.range k).map (word 64 buf)) = .ok ((List.range (k + cnt)).map (word 64 buf)) := by
  intro cnt
  induction cnt with
  | zero => intro k _; rfl
  | succ cnt ih =>
    intro k h
    rw [loadW512, List.length_map, List.length_range, get64BE_eq (by omega)]
    simp only [Res.ok_bind]
    have : BitVec.ofNat 64 (valueBE ((buf.drop (k * 8)).take 8)) = word 64 buf k := by
      rw [word, Nat.mul_comm]
    rw [this, range_snoc, ih (k + 1) (by omega)]
    congr 3; omega

theorem map_sched_first {n : Nat} (A : Alg n) (M : Nat → BitVec n) :
    (List.range 16).map M = (List.range 16).map (sched A M) := by
  apply List.map_congr_left
  intro t ht
  rw [sched, if_pos (by simpa using ht)]

theorem extW256_eq (M : Nat → BitVec 32) : ∀ (cnt k : Nat), 16 ≤ k →
    extW256 cnt ((List.range k).map (sched alg256 M)) = .ok ((List.range (k + cnt)).map (sched alg256 M)) := by
  intro cnt
  induction cnt with
  | zero => intro k _; rfl
  | succ cnt ih =>
    intro k h
    rw [extW256]
    simp only [List.length_map, List.length_range]
    rw [at?_map _ _ _ (by omega), at?_map _ _ _ (by omega), at?_map _ _ _ (by omega),
      at?_map _ _ _ (by omega)]
    simp only [Res.ok_bind]
    have : sched alg256 M (k - 16) + (rot32 (sched alg256 M (k - 15)) 7 ^^^
        rot32 (sched alg256 M (k - 15)) 18 ^^^ sched alg256 M (k - 15) >>> 3) +
        sched alg256 M (k - 7) + (rot32 (sched alg256 M (k - 2)) 17 ^^^
        rot32 (sched alg256 M (k - 2)) 19 ^^^ sched alg256 M (k - 2) >>> 10) = sched alg256 M k := by
      conv => rhs; rw [sched, if_neg (by omega)]
      rw [rot32_eq _ _ (by decide), rot32_eq _ _ (by decide), rot32_eq _ _ (by decide),
        rot32_eq _ _ (by decide)]
      simp only [alg256]
      ac_rfl
    rw [this, range_snoc, ih (k + 1) (by omega)]
    congr 3; omega

theorem extW512_eq (M : Nat → BitVec 64) : ∀ (cnt k : Nat), 16 ≤ k →
    extW512 cnt ((List.range k).map (sched alg512 M)) = .ok ((List.range (k + cnt)).map (sched alg512 M)) := by
  intro cnt
  induction cnt with
  | zero => intro k _; rfl
  | succ cnt ih =>
    intro k h
    rw [extW512]
    simp only [List.length_map, List.length_range]
    rw [at?_map _ _ _ (by omega), at?_map _ _ _ (by omega), at?_map _ _ _ (by omega),
      at?_map _ _ _ (by omega)]
    simp only [Res.ok_bind]
    have : sched alg512 M (k - 16) + (rot64 (sched alg512 M (k - 15)) 1 ^^^
        rot64 (sched alg512 M (k - 15)) 8 ^^^ sched alg512 M (k - 15) >>> 7) +
        sched alg512 M (k - 7) + (rot64 (sched alg512 M (k - 2)) 19 ^^^
        rot64 (sched alg512 M (k - 2)) 61 ^^^ sched alg512 M (k - 2) >>> 6) = sched alg512 M k := by
      conv => rhs; rw [sched, if_neg (by omega)]
      rw [rot64_eq _ _ (by decide), rot64_eq _ _ (by decide), rot64_eq _ _ (by decide),
        rot64_eq _ _ (by decide)]
      simp only [alg512]
      ac_rfl
    rw [this, range_snoc, ih (k + 1) (by omega)]
    congr 3; omega

/-! ## Rounds -/

theorem k256_eq : k256 = alg256.K := by decide +kernel
theorem k512_eq : k512 = alg512.K := by decide +kernel

/-- The register array at round `i` with `i % 8 = r`: everything is rotated by `r`. -/
def place {n : Nat} (r : Nat) (x : Regs n) : List (BitVec n) :=
  match r with
  | 0 => [x.a, x.b, x.c, x.d, x.e, x.f, x.g, x.h]
  | 1 => [x.b, x.c, x.d, x.e, x.f, x.g, x.h, x.a]
  | 2 => [x.c, x.d, x.e, x.f, x.g, x.h, x.a, x.b]
  | 3 => [x.d, x.e, x.f, x.g, x.h, x.a, x.b, x.c]
  | 4 => [x.e, x.f, x.g, x.h, x.a, x.b, x.c, x.d]
  | 5 => [x.f, x.g, x.h, x.a, x.b, x.c, x.d, x.e]
  | 6 => [x.g, x.h, x.a, x.b, x.c, x.d, x.e, x.f]
  | _ => [x.h, x.a, x.b, x.c, x.d, x.e, x.f, x.g]

/-- What `round1` has to do with its eight index patterns. -/
structure Good {n : Nat} (A : Alg n) (W : Nat → BitVec n) (N : Nat) (r1 : Round1 n) : Prop where
  p0 : ∀ x i, i < N → r1 0 1 2 3 4 5 6 7 (place 0 x) ((List.range N).map W) i = .ok (place 1 (step A W x i))
  p1 : ∀ x i, i < N → r1 7 0 1 2 3 4 5 6 (place 1 x) ((List.range N).map W) i = .ok (place 2 (step A W x i))
  p2 : ∀ x i, i < N → r1 6 7 0 1 2 3 4 5 (place 2 x) ((List.range N).map W) i = .ok (place 3 (step A W x i))
  p3 : ∀ x i, i < N → r1 5 6 7 0 1 2 3 4 (place 3 x) ((List.range N).map W) i = .ok (place 4 (step A W x i))
  p4 : ∀ x i, i < N → r1 4 5 6 7 0 1 2 3 (place 4 x) ((List.range N).map W) i = .ok (place 5 (step A W x i))
  p5 : ∀ x i, i < N → r1 3 4 5 6 7 0 1 2 (place 5 x) ((List.range N).map W) i = .ok (place 6 (step A W x i))
  p6 : ∀ x i, i < N → r1 2 3 4 5 6 7 0 1 (place 6 x) ((List.range N).map W) i = .ok (place 7 (step A W x i))
  p7 : ∀ x i, i < N → r1 1 2 3 4 5 6 7 0 (place 7 x) ((List.range N).map W) i = .ok (place 0 (step A W x i))

theorem eight_eq {n : Nat} {A : Alg n} {W : Nat → BitVec n} {N : Nat} {r1 : Round1 n}
    (g : Good A W N r1) (x : Regs n) (i : Nat) (h : i + 8 ≤ N) :
    eight r1 (place 0 x) ((List.range N).map W) i =
      .ok (place 0 ((List.range' i 8).foldl (step A W) x)) := by
  rw [eight, g.p0 _ _ (by omega)]
  simp only [Res.ok_bind]
  rw [g.p1 _ _ (by omega)]; simp only [Res.ok_bind]
  rw [g.p2 _ _ (by omega)]; simp only [Res.ok_bind]
  rw [g.p3 _ _ (by omega)]; simp only [Res.ok_bind]
  rw [g.p4 _ _ (by omega)]; simp only [Res.ok_bind]
  rw [g.p5 _ _ (by omega)]; simp only [Res.ok_bind]
  rw [g.p6 _ _ (by omega)]; simp only [Res.ok_bind]
  rw [g.p7 _ _ (by omega)]
  rfl

theorem rounds_eq {n : Nat} {A : Alg n} {W : Nat → BitVec n} {N : Nat} {r1 : Round1 n}
    (g : Good A W N r1) : ∀ (cnt j : Nat) (x : Regs n), 8 * j + 8 * cnt ≤ N →
    rounds r1 ((List.range N).map W) cnt j (place 0 x) =
      .ok (place 0 ((List.range' (8 * j) (8 * cnt)).foldl (step A W) x)) := by
  intro cnt
  induction cnt with
  | zero => intro j x _; rfl
  | succ cnt ih =>
    intro j x h
    rw [rounds, eight_eq g x (8 * j) (by omega)]
    simp only [Res.ok_bind]
    rw [ih (j + 1) _ (by omega), ← List.foldl_append]
    have : List.range' (8 * j) (8 * (cnt + 1)) = List.range' (8 * j) 8 ++ List.range' (8 * (j + 1)) (8 * cnt) := by
      have h1 : 8 * (cnt + 1) = 8 + 8 * cnt := by omega
      rw [h1, ← List.range'_append_1, Nat.mul_add]
    rw [this]

theorem good256 (M : Nat → BitVec 32) : Good alg256 (sched alg256 M) 64 round1_256 := by
  have hk : k256.length = 64 := rfl
  constructor
  all_goals
    intro x i hi
    rw [round1_256]
    simp only [place]
    rw [at?_map _ _ _ hi, at?_getD k256 i 0 (by omega), k256_eq]
    simp only [at?, put, List.length_cons, List.length_nil, List.getElem?_cons_zero, List.getElem?_cons_succ,
      Res.ok_bind, List.set_cons_zero, List.set_cons_succ, Nat.reduceAdd, Nat.reduceLT, if_true,
      Nat.lt_add_one, Nat.zero_lt_succ, ch_eq, maj_eq]
    rw [rot32_eq _ _ (by decide), rot32_eq _ _ (by decide), rot32_eq _ _ (by decide),
      rot32_eq _ _ (by decide), rot32_eq _ _ (by decide), rot32_eq _ _ (by decide)]
    simp only [step, alg256]
    ac_rfl

theorem good512 (M : Nat → BitVec 64) : Good alg512 (sched alg512 M) 80 round1_512 := by
  have hk : k512.length = 80 := rfl
  constructor
  all_goals
    intro x i hi
    rw [round1_512]
    simp only [place]
    rw [at?_map _ _ _ hi, at?_getD k512 i 0 (by omega), k512_eq]
    simp only [at?, put, List.length_cons, List.length_nil, List.getElem?_cons_zero, List.getElem?_cons_succ,
      Res.ok_bind, List.set_cons_zero, List.set_cons_succ, Nat.reduceAdd, Nat.reduceLT, if_true,
      Nat.lt_add_one, Nat.zero_lt_succ, ch_eq, maj_eq, List.length_set]
    rw [rot64_eq _ _ (by decide), rot64_eq _ _ (by decide), rot64_eq _ _ (by decide),
      rot64_eq _ _ (by decide), rot64_eq _ _ (by decide), rot64_eq _ _ (by decide)]
    rfl

/-! ## One block -/

theorem words_app {n : Nat} (hn : 16 * (n / 8) = B) {blk rest : List UInt8} (h : blk.length = B) :
    (List.range 16).map (word n (blk ++ rest)) = (List.range 16).map (word n blk) := by
  apply List.map_congr_left
  intro t ht
  have ht : t < 16 := by simpa using ht
  apply word_app
  rw [h, ← hn]
  calc n / 8 * t + n / 8 = n / 8 * (t + 1) := (Nat.mul_succ _ _).symm
    _ ≤ n / 8 * 16 := Nat.mul_le_mul_left _ (by omega)
    _ = 16 * (n / 8) := Nat.mul_comm _ _

theorem comp256_eq (r : Regs 32) (blk : List UInt8) (h : blk.length = 64) (rest : List UInt8) :
    comp256 r.toList (blk ++ rest) = .ok (compress alg256 r blk).toList := by
  have h1 := loadW256_eq (blk ++ rest) (by simp; omega) 16 0 (by decide)
  rw [comp256]
  rw [List.range_zero, List.map_nil] at h1
  rw [h1, Nat.zero_add, words_app (by decide) h, map_sched_first alg256]
  simp only [Res.ok_bind]
  rw [extW256_eq _ 48 16 (by decide)]
  simp only [Res.ok_bind]
  have h2 := rounds_eq (good256 (word 32 blk)) 8 0 r (by decide)
  have h3 : place 0 r = r.toList := rfl
  rw [h3] at h2
  show (rounds round1_256 ((List.range 64).map (sched alg256 (word 32 blk))) 8 0 r.toList >>= _) = _
  rw [h2]
  simp only [Res.ok_bind, Res.pure_eq, compress]
  have h4 : List.range' (8 * 0) (8 * 8) = List.range alg256.rounds := by
    rw [List.range_eq_range']; rfl
  rw [h4]
  rfl

theorem comp512_eq (r : Regs 64) (blk : List UInt8) (h : blk.length = 128) (rest : List UInt8) :
    comp512 r.toList (blk ++ rest) = .ok (compress alg512 r blk).toList := by
  have h1 := loadW512_eq (blk ++ rest) (by simp; omega) 16 0 (by decide)
  rw [comp512]
  rw [List.range_zero, List.map_nil] at h1
  rw [h1, Nat.zero_add, words_app (by decide) h, map_sched_first alg512]
  simp only [Res.ok_bind]
  rw [extW512_eq _ 64 16 (by decide)]
  simp only [Res.ok_bind]
  have h2 := rounds_eq (good512 (word 64 blk)) 10 0 r (by decide)
  have h3 : place 0 r = r.toList := rfl
  rw [h3] at h2
  show (rounds round1_512 ((List.range 80).map (sched alg512 (word 64 blk))) 10 0 r.toList >>= _) = _
  rw [h2]
  simp only [Res.ok_bind, Res.pure_eq, compress]
  have h4 : List.range' (8 * 0) (8 * 10) = List.range alg512.rounds := by
    rw [List.range_eq_range']; rfl
  rw [h4]
  rfl

/-! ## Output -/

theorem out256_eq : ∀ (l : List (BitVec 32)) (i : Nat) (pre j : List UInt8), pre.length = 4 * i →
    4 * l.length ≤ j.length →
    out256 l i (pre ++ j) = .ok (pre ++ bytesOf l ++ j.drop (4 * l.length)) := by
  intro l
  induction l with
  | nil => intro i pre j _ _; simp [out256, bytesOf]
  | cons x xs ih =>
    intro i pre j hp hj
    simp only [List.length_cons] at hj
    rw [out256, set32BE_app (by omega) (by omega)]
    simp only [Res.ok_bind]
    rw [ih (i + 1) _ _ (by simp; omega) (by simp; omega)]
    simp only [bytesOf, List.flatMap_cons, List.drop_drop, List.length_cons, List.append_assoc]
    congr 4
    congr 1
    omega

theorem out512_eq : ∀ (l : List (BitVec 64)) (i : Nat) (pre j : List UInt8), pre.length = 8 * i →
    8 * l.length ≤ j.length →
    out512 l i (pre ++ j) = .ok (pre ++ bytesOf l ++ j.drop (8 * l.length)) := by
  intro l
  induction l with
  | nil => intro i pre j _ _; simp [out512, bytesOf]
  | cons x xs ih =>
    intro i pre j hp hj
    simp only [List.length_cons] at hj
    rw [out512, set64BEMem, store_app (by omega) (by simp; omega), memBytes_bswap]
    simp only [Res.ok_bind]
    rw [ih (i + 1) _ _ (by simp; omega) (by simp; omega)]
    simp only [bytesOf, List.flatMap_cons, List.drop_drop, List.length_cons, List.append_assoc, bytesBE_length]
    congr 4
    congr 1
    omega

theorem bytesOf_length {n : Nat} (l : List (BitVec n)) : (bytesOf l).length = n / 8 * l.length := by
  induction l with
  | nil => rfl
  | cons x xs ih =>
    simp only [bytesOf, List.flatMap_cons, List.length_append, List.length_cons] at ih ⊢
    rw [ih, bytesBE_length, Nat.mul_succ, Nat.add_comm]

/-! ## Whole messages -/

/-- A sequence of `update` calls. -/
def updates {H : Type} (up : St H → List UInt8 → Res (St H)) : St H → List (List UInt8) → Res (St H)
  | s, [] => .ok s
  | s, d :: ds => do
    let s ← up s d
    updates up s ds

theorem updates_inv {H S : Type} {B : Nat} {comp : H → List UInt8 → Res H} {R : S → H}
    {cs : S → List UInt8 → S} (hB : 0 < B)
    (hc : ∀ r blk, blk.length = B → ∀ rest, comp (R r) (blk ++ rest) = .ok (R (cs r blk))) {r0 : S} :
    ∀ (ds : List (List UInt8)) (blks : List (List UInt8)) (tail : List UInt8) (s : St H),
      Inv B R cs r0 blks tail s →
      ∃ blks' tail' s', updates (update B comp) s ds = .ok s' ∧ Inv B R cs r0 blks' tail' s' ∧
        blks'.flatten ++ tail' = blks.flatten ++ tail ++ ds.flatten := by
  intro ds
  induction ds with
  | nil => intro blks tail s i; exact ⟨blks, tail, s, rfl, i, by simp⟩
  | cons d ds ih =>
    intro blks tail s i
    obtain ⟨b1, t1, s1, e1, i1, h1⟩ := update_inv hB hc d i
    obtain ⟨b2, t2, s2, e2, i2, h2⟩ := ih b1 t1 s1 i1
    refine ⟨b2, t2, s2, ?_, i2, ?_⟩
    · rw [updates, e1]; exact e2
    · rw [h2, h1]; simp

theorem iv256_eq : (iv 32).toList = (clear256 []).h := by decide +kernel
theorem iv512_eq : (iv 64).toList = (clear512 []).h := by decide +kernel

theorem inv_clear256 (rb : List UInt8) (h : rb.length = 64) :
    Inv 64 Regs.toList (compress alg256) (iv 32) [] [] (clear256 rb) :=
  { len := by simp, tl := by decide, h := iv256_eq.symm, total := rfl, bs := rfl, rl := h, rb := rfl }

theorem inv_clear512 (rb : List UInt8) (h : rb.length = 128) :
    Inv 128 Regs.toList (compress alg512) (iv 64) [] [] (clear512 rb) :=
  { len := by simp, tl := by decide, h := iv512_eq.symm, total := rfl, bs := rfl, rl := h, rb := rfl }

theorem digest256_inv {blks : List (List UInt8)} {tail : List UInt8} {s : St (List (BitVec 32))}
    (i : Inv 64 Regs.toList (compress alg256) (iv 32) blks tail s) (md : List UInt8) (mdSize : Nat)
    (h1 : 32 ≤ mdSize) (h2 : 32 ≤ md.length) (d : List UInt8)
    (hlt : (blks.flatten ++ tail ++ d).length < 2 ^ 61) :
    ∃ s', digest256 s md mdSize d = .ok (32, sha256 (blks.flatten ++ tail ++ d) ++ md.drop 32, s') ∧
      s'.roundBuf.length = 64 ∧ Inv 64 Regs.toList (compress alg256) (iv 32) (blocksOf 64 8 (blks.flatten ++ tail ++ d))
        ((lastBlock 64 8 (blks.flatten ++ tail ++ d)).take ((blks.flatten ++ tail ++ d).length % 64)) s' := by
  rw [digest256, if_neg (by omega)]
  obtain ⟨b1, t1, s1, e1, i1, hf⟩ := update_inv (by decide) comp256_eq d i
  rw [update256, e1]
  simp only [Res.ok_bind]
  obtain ⟨s2, e2, hh, hl, hi⟩ := term_inv (L := 8) (by decide) (by decide) (by decide) comp256_eq i1 (by rw [hf]; exact hlt)
  rw [e2]
  simp only [Res.ok_bind]
  have := out256_eq s2.h 0 [] md rfl (by rw [hh]; exact h2)
  rw [List.nil_append] at this
  rw [this]
  simp only [Res.ok_bind, Res.pure_eq]
  refine ⟨s2, ?_, hl, ?_⟩
  · rw [hh, hf]
    rfl
  · have hm : (blks.flatten ++ tail ++ d).length % 64 = t1.length := by
      rw [← hf, List.length_append, flatten_len b1 i1.len, Nat.mul_add_mod, Nat.mod_eq_of_lt i1.tl]
    rw [hm, ← hf]
    exact hi

theorem digest512_inv {blks : List (List UInt8)} {tail : List UInt8} {s : St (List (BitVec 64))}
    (i : Inv 128 Regs.toList (compress alg512) (iv 64) blks tail s) (md : List UInt8) (mdSize : Nat)
    (h1 : 64 ≤ mdSize) (h2 : 64 ≤ md.length) (d : List UInt8)
    (hlt : (blks.flatten ++ tail ++ d).length < 2 ^ 61) :
    ∃ s', digest512 s md mdSize d = .ok (64, sha512 (blks.flatten ++ tail ++ d) ++ md.drop 64, s') ∧
      s'.roundBuf.length = 128 ∧ Inv 128 Regs.toList (compress alg512) (iv 64) (blocksOf 128 16 (blks.flatten ++ tail ++ d))
        ((lastBlock 128 16 (blks.flatten ++ tail ++ d)).take ((blks.flatten ++ tail ++ d).length % 128)) s' := by
  rw [digest512, if_neg (by omega)]
  obtain ⟨b1, t1, s1, e1, i1, hf⟩ := update_inv (by decide) comp512_eq d i
  rw [update512, e1]
  simp only [Res.ok_bind]
  obtain ⟨s2, e2, hh, hl, hi⟩ := term_inv (L := 16) (by decide) (by decide) (by decide) comp512_eq i1 (by rw [hf]; exact hlt)
  rw [e2]
  simp only [Res.ok_bind]
  have := out512_eq s2.h 0 [] md rfl (by rw [hh]; exact h2)
  rw [List.nil_append] at this
  rw [this]
  simp only [Res.ok_bind, Res.pure_eq]
  refine ⟨s2, ?_, hl, ?_⟩
  · rw [hh, hf]
    rfl
  · have hm : (blks.flatten ++ tail ++ d).length % 128 = t1.length := by
      rw [← hf, List.length_append, flatten_len b1 i1.len, Nat.mul_add_mod, Nat.mod_eq_of_lt i1.tl]
    rw [hm, ← hf]
    exact hi

theorem sha256_length (m : List UInt8) : (sha256 m).length = 32 := by
  rw [sha256, bytesOf_length]; rfl

/-! ## HMAC -/

theorem xorLoop_eq (x : UInt8) : ∀ (cnt i : Nat) (pre k : List UInt8), pre.length = i → cnt ≤ k.length →
    xorLoop x cnt i (pre ++ k) = .ok (pre ++ (k.take cnt).map (· ^^^ x) ++ k.drop cnt) := by
  intro cnt
  induction cnt with
  | zero => intro i pre k _ _; simp [xorLoop]
  | succ cnt ih =>
    intro i pre k hp hk
    cases k with
    | nil => simp at hk
    | cons v k =>
      rw [xorLoop, at?_eq_ok (by simp; omega), List.getElem_append_right (by omega)]
      simp only [hp, Nat.sub_self, List.getElem_cons_zero, Res.ok_bind]
      rw [put_ok (by simp; omega)]
      simp only [Res.ok_bind]
      have : (pre ++ v :: k).set i (v ^^^ x) = (pre ++ [v ^^^ x]) ++ k := by
        rw [← hp, List.set_append_right _ _ (by omega)]; simp
      rw [this, ih (i + 1) _ _ (by simp; omega) (by simpa using hk)]
      simp

end Verif.Sha
