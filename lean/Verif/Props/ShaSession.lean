import Verif.Props.Sha
import Verif.Spec.ShaSession

/-! C147: `Sha256` and `Sha512` objects used for any sequence of calls. -/
set_option linter.unusedSimpArgs false
namespace Verif.Props.ShaSession
open Verif.Sha Verif.Spec.Sha Verif.Spec.Endian Verif.ShaSessionSpec

/-- Calls on an object one after the other, and what the `digest` calls give: the result and the buffer.  (Not code of the library: the
caller.) -/
def run {H : Type} (clr : List UInt8 → St H) (up : St H → List UInt8 → Res (St H))
    (dig : St H → List UInt8 → Nat → List UInt8 → Res (Nat × List UInt8 × St H)) : St H → List Op → Res (List (Nat × List UInt8))
  | _, [] => .ok []
  | s, .update d :: ops => do
    let s ← up s d
    run clr up dig s ops
  | s, .digest md n d :: ops => do
    let (r, md, s) ← dig s md n d
    let rest ← run clr up dig s ops
    return (r, md) :: rest
  | s, .clear :: ops => run clr up dig (clr s.roundBuf) ops

theorem chunks_all (B : Nat) : ∀ (k : Nat) (l : List UInt8), l.length = B * k → (chunks B k l).flatten = l := by
  intro k
  induction k with
  | zero => intro l h; rw [Nat.mul_zero, List.length_eq_zero_iff] at h; rw [h]; rfl
  | succ k ih =>
    intro l h
    rw [Nat.mul_succ] at h
    rw [chunks, List.flatten_cons, ih _ (by rw [List.length_drop]; omega), List.take_append_drop]

theorem chunks_last (B : Nat) : ∀ (k : Nat) (l : List UInt8), l.length = B * (k + 1) → (chunks B (k + 1) l).getLast? = some (l.drop (B * k)) := by
  intro k
  induction k with
  | zero =>
    intro l h
    rw [chunks, chunks, Nat.mul_zero, List.drop_zero, List.take_of_length_le (by omega)]
    rfl
  | succ k ih =>
    intro l h
    have h2 := h
    rw [Nat.mul_succ] at h
    rw [chunks, List.getLast?_cons, ih _ (by rw [List.length_drop]; omega)]
    rw [List.drop_drop, Nat.mul_succ, Nat.add_comm]
    rfl

theorem blocks_flatten {B L : Nat} (hL : L < B) (m : List UInt8) : (blocksOf B L m).flatten = pad B L m := by
  have h := (Sha.C39_padding B L m hL).1
  rw [blocksOf, chunks_all]
  exact (Nat.mul_div_cancel' (Nat.dvd_of_mod_eq_zero h)).symm

theorem lastBlock_eq {B L : Nat} (hL : L < B) (m : List UInt8) : lastBlock B L m = (pad B L m).drop ((pad B L m).length - B) := by
  have h := (Sha.C39_padding B L m hL).1
  have hd : B * ((pad B L m).length / B) = (pad B L m).length := Nat.mul_div_cancel' (Nat.dvd_of_mod_eq_zero h)
  have hpos : 0 < (pad B L m).length := by simp [pad]; omega
  rw [lastBlock, blocksOf]
  generalize (pad B L m).length / B = k at hd ⊢
  cases k with
  | zero => rw [Nat.mul_zero] at hd; omega
  | succ k =>
    rw [chunks_last B k _ hd.symm]
    rw [Nat.mul_succ] at hd
    rw [show (pad B L m).length - B = B * k by omega]
    rfl

theorem run256 (ops : List Op) : ∀ (v : List UInt8) (s : St (List (BitVec 32))),
    (∃ blks tail, Inv 64 Regs.toList (compress alg256) (iv 32) blks tail s ∧ blks.flatten ++ tail = v) → Fits 64 8 32 v ops →
    run clear256 update256 digest256 s ops = .ok (answers 64 8 32 sha256 v ops) := by
  induction ops with
  | nil => intro v s _ _; rfl
  | cons op ops ih =>
    rintro v s ⟨blks, tail, i, rfl⟩ hf
    cases op with
    | update d =>
      obtain ⟨b1, t1, s1, e1, i1, h1⟩ := update_inv (by decide) comp256_eq d i
      rw [run, update256, e1, answers]
      exact ih _ _ ⟨b1, t1, i1, h1⟩ hf
    | digest md n d =>
      rw [run, answers]
      rw [Fits] at hf
      by_cases hn : n < 32
      · rw [if_pos hn] at hf ⊢
        rw [(Sha.C39_small_buffer s (clear512 []) md d n).1 hn]
        simp only [Res.ok_bind]
        rw [ih _ s ⟨blks, tail, i, rfl⟩ hf]
        rfl
      · rw [if_neg hn] at hf ⊢
        obtain ⟨f1, f2, f3⟩ := hf
        obtain ⟨s', e', _, i'⟩ := digest256_inv i md n (by omega) (by omega) d f2
        rw [e']
        simp only [Res.ok_bind]
        rw [ih _ s' ⟨_, _, i', ?_⟩ f3]
        · rfl
        · rw [blocks_flatten (by decide), lastBlock_eq (by decide)]
          rfl
    | clear =>
      rw [run, answers]
      exact ih _ _ ⟨[], [], inv_clear256 _ i.rl, rfl⟩ hf

theorem run512 (ops : List Op) : ∀ (v : List UInt8) (s : St (List (BitVec 64))),
    (∃ blks tail, Inv 128 Regs.toList (compress alg512) (iv 64) blks tail s ∧ blks.flatten ++ tail = v) → Fits 128 16 64 v ops →
    run clear512 update512 digest512 s ops = .ok (answers 128 16 64 sha512 v ops) := by
  induction ops with
  | nil => intro v s _ _; rfl
  | cons op ops ih =>
    rintro v s ⟨blks, tail, i, rfl⟩ hf
    cases op with
    | update d =>
      obtain ⟨b1, t1, s1, e1, i1, h1⟩ := update_inv (by decide) comp512_eq d i
      rw [run, update512, e1, answers]
      exact ih _ _ ⟨b1, t1, i1, h1⟩ hf
    | digest md n d =>
      rw [run, answers]
      rw [Fits] at hf
      by_cases hn : n < 64
      · rw [if_pos hn] at hf ⊢
        rw [(Sha.C39_small_buffer (clear256 []) s md d n).2 hn]
        simp only [Res.ok_bind]
        rw [ih _ s ⟨blks, tail, i, rfl⟩ hf]
        rfl
      · rw [if_neg hn] at hf ⊢
        obtain ⟨f1, f2, f3⟩ := hf
        obtain ⟨s', e', _, i'⟩ := digest512_inv i md n (by omega) (by omega) d f2
        rw [e']
        simp only [Res.ok_bind]
        rw [ih _ s' ⟨_, _, i', ?_⟩ f3]
        · rfl
        · rw [blocks_flatten (by decide), lastBlock_eq (by decide)]
          rfl
    | clear =>
      rw [run, answers]
      exact ih _ _ ⟨[], [], inv_clear512 _ i.rl, rfl⟩ hf

/-- C147: whatever calls are made on a `Sha256` object in whatever order, every `digest` gives the SHA-256 hash of the message of the object:
all that was given since the last `clear`, except that an earlier `digest` without `clear` has added the padding of its message and the bytes
it left in the buffer.  A `digest` with too small a buffer changes nothing, not even the message. -/
theorem C147_sha256 (rb : List UInt8) (hrb : rb.length = 64) (ops : List Op) (hf : Fits 64 8 32 [] ops) :
    run clear256 update256 digest256 (clear256 rb) ops = .ok (answers 64 8 32 sha256 [] ops) :=
  run256 ops [] _ ⟨[], [], inv_clear256 rb hrb, rfl⟩ hf

/-- C147: the same for `Sha512`. -/
theorem C147_sha512 (rb : List UInt8) (hrb : rb.length = 128) (ops : List Op) (hf : Fits 128 16 64 [] ops) :
    run clear512 update512 digest512 (clear512 rb) ops = .ok (answers 128 16 64 sha512 [] ops) :=
  run512 ops [] _ ⟨[], [], inv_clear512 rb hrb, rfl⟩ hf

/-- A caller that keeps the rule: `clear` between a `digest` and what follows. -/
def Clears : List Op → Prop
  | [] => True
  | .digest _ _ _ :: ops => (ops = [] ∨ ∃ r, ops = .clear :: r) ∧ Clears ops
  | _ :: ops => Clears ops

/-- What was given since the last `clear`, for each `digest`. -/
def messages : List UInt8 → List Op → List (List UInt8)
  | _, [] => []
  | v, .update d :: ops => messages (v ++ d) ops
  | v, .digest _ _ d :: ops => (v ++ d) :: messages v ops
  | _, .clear :: ops => messages [] ops

theorem answers_clears (B L out : Nat) (hash : List UInt8 → List UInt8) (hl : ∀ m, (hash m).length = out) (ops : List Op) :
    ∀ v, Clears ops → (∀ md n d, Op.digest md n d ∈ ops → out ≤ n) →
    (answers B L out hash v ops).map (fun a => a.2.take out) = (messages v ops).map hash := by
  induction ops with
  | nil => intro v _ _; rfl
  | cons op ops ih =>
    intro v hc ho
    have ho' : ∀ md n d, Op.digest md n d ∈ ops → out ≤ n := fun md n d h => ho md n d (by simp [h])
    cases op with
    | update d => exact ih _ hc ho'
    | clear => exact ih _ hc ho'
    | digest md n d =>
      have hn := ho md n d (by simp)
      rw [answers, if_neg (by omega), messages, List.map_cons, List.map_cons]
      have e : (hash (v ++ d) ++ md.drop out).take out = hash (v ++ d) := by
        rw [List.take_left' (hl _)]
      rw [e]
      congr 1
      obtain ⟨h1, h2⟩ := hc
      rcases h1 with rfl | ⟨r, rfl⟩
      · rfl
      · exact ih v h2 ho'

theorem sha512_length (m : List UInt8) : (sha512 m).length = 64 := by
  rw [sha512, bytesOf_length]; rfl

/-- C147: for a caller that calls `clear` between a `digest` and the next message, every `digest` is the hash of exactly the bytes given since
the last `clear`. -/
theorem C147_cleared (ops : List Op) (hc : Clears ops) :
    (∀ rb : List UInt8, rb.length = 64 → Fits 64 8 32 [] ops → (∀ md n d, Op.digest md n d ∈ ops → 32 ≤ n) →
      ∃ r, run clear256 update256 digest256 (clear256 rb) ops = .ok r ∧ r.map (fun a => a.2.take 32) = (messages [] ops).map sha256) ∧
    (∀ rb : List UInt8, rb.length = 128 → Fits 128 16 64 [] ops → (∀ md n d, Op.digest md n d ∈ ops → 64 ≤ n) →
      ∃ r, run clear512 update512 digest512 (clear512 rb) ops = .ok r ∧ r.map (fun a => a.2.take 64) = (messages [] ops).map sha512) := by
  refine ⟨fun rb hrb hf ho => ⟨_, C147_sha256 rb hrb ops hf, ?_⟩, fun rb hrb hf ho => ⟨_, C147_sha512 rb hrb ops hf, ?_⟩⟩
  · exact answers_clears 64 8 32 sha256 sha256_length ops [] hc ho
  · exact answers_clears 128 16 64 sha512 sha512_length ops [] hc ho

/-- C147: the bytes a finished message of `Sha256` leaves behind: its own last bytes if the length fitted behind them, else zeros and the first bytes of
the length. -/
theorem C147_carry (m : List UInt8) :
    (m.length % 64 < 56 → carry 64 8 m = m.drop (m.length - m.length % 64)) ∧
    (56 ≤ m.length % 64 → carry 64 8 m = List.replicate 56 0 ++ (bytesBE 8 (8 * m.length)).take (m.length % 64 - 56)) := by
  have hr : m.length % 64 < 64 := Nat.mod_lt _ (by decide)
  have hdm := Nat.div_add_mod m.length 64
  have hlen : (pad 64 8 m).length = m.length + 1 + (2 * 64 - 1 - 8 - m.length % 64) % 64 + 8 := by
    simp [pad, Verif.Endian.bytesBE_length]
    omega
  constructor
  · intro h
    have hz : (2 * 64 - 1 - 8 - m.length % 64) % 64 = 55 - m.length % 64 := by omega
    rw [carry, hlen, hz, show m.length + 1 + (55 - m.length % 64) + 8 - 64 = m.length - m.length % 64 by omega, pad, List.append_assoc, List.append_assoc,
      List.drop_append_of_le_length (by omega), List.take_append_of_le_length (by rw [List.length_drop]; omega),
      List.take_of_length_le (by rw [List.length_drop]; omega)]
  · intro h
    have hz : (2 * 64 - 1 - 8 - m.length % 64) % 64 = (63 - m.length % 64) + 56 := by omega
    rw [carry, hlen, hz, show m.length + 1 + (63 - m.length % 64 + 56) + 8 - 64 = m.length + 1 + (63 - m.length % 64) by omega, pad, hz, replicate_split,
      show m ++ [128] ++ (List.replicate (63 - m.length % 64) 0 ++ List.replicate 56 0) ++ bytesBE 8 (8 * m.length) =
        (m ++ [128] ++ List.replicate (63 - m.length % 64) 0) ++ (List.replicate 56 0 ++ bytesBE 8 (8 * m.length)) by simp only [List.append_assoc],
      List.drop_left' (by simp; omega), List.take_append]
    rw [List.take_of_length_le (by simp; omega), List.length_replicate]

/-- Non-trivial case: two messages with `clear` between them, and a `digest` into too small a buffer. -/
def calls : List Op := [.update [1, 2], .digest (List.replicate 20 0) 20 [9], .digest (List.replicate 40 0) 40 [3], .clear, .digest (List.replicate 32 0) 32 []]

example : Fits 64 8 32 [] calls := by
  simp [calls, Fits]

example : answers 64 8 32 sha256 [] calls = [(0, List.replicate 20 0), (32, sha256 [1, 2, 3] ++ List.replicate 8 0), (32, sha256 [] ++ [])] := rfl

/-- C147, finding: without `clear` the second `digest` of nothing is the hash of the padding of the first message (and, here, of nothing else). -/
theorem C147_finding_no_clear (rb : List UInt8) (hrb : rb.length = 64) :
    run clear256 update256 digest256 (clear256 rb) [.digest (List.replicate 32 0) 32 [], .digest (List.replicate 32 0) 32 []] =
      .ok [(32, sha256 []), (32, sha256 ([0x80] ++ List.replicate 63 0))] := by
  rw [C147_sha256 rb hrb _ ?_]
  · simp only [answers, Nat.lt_irrefl, if_false, List.append_nil, List.nil_append, carry]
    have e : pad 64 8 [] = [0x80] ++ List.replicate 63 0 := by decide
    rw [e]
    simp
  · simp only [Fits, Nat.lt_irrefl, if_false, List.append_nil, List.nil_append]
    have e : pad 64 8 [] ++ carry 64 8 [] = [0x80] ++ List.replicate 63 0 := by decide
    rw [e]
    simp

example : Clears [.update [1], .digest [] 32 [], .clear, .digest [] 32 [2]] := by simp [Clears]

#print axioms C147_sha256
#print axioms C147_sha512
#print axioms C147_cleared
#print axioms C147_carry
#print axioms C147_finding_no_clear

end Verif.Props.ShaSession
