import Verif.Spec.Crypto
set_option linter.unusedSimpArgs false
/-!
# C78: the wrapper of OpenSSL's digests, codes and ciphers
-/
namespace Verif.Props.Crypto
open Verif Verif.Crypto Verif.CryptoSpec

variable {C : Type}

theorem name_cases (name : Nat) (s : String) (h : getNameStr name = .ok s) :
    ∃ k, shaLength s = some k ∧ getSize name = .ok k ∧ ∀ e : Evp C, resetCtx e name = setCTX e s := by
  match name, h with
  | 0, h => cases h; exact ⟨20, rfl, rfl, fun _ => rfl⟩
  | 1, h => cases h; exact ⟨28, rfl, rfl, fun _ => rfl⟩
  | 2, h => cases h; exact ⟨32, rfl, rfl, fun _ => rfl⟩
  | 3, h => cases h; exact ⟨48, rfl, rfl, fun _ => rfl⟩
  | 4, h => cases h; exact ⟨64, rfl, rfl, fun _ => rfl⟩
  | n + 5, h => cases h

/-- The two `getName` are inverse to each other, `getSize` is the length of the digest of that name, and every other value or
string is an exception. -/
theorem C78_names (name : Nat) (s : String) :
    (getNameStr name = .ok s ↔ getName s = .ok name) ∧
      (getNameStr name = .ok s → ∃ k, shaLength s = some k ∧ getSize name = .ok k) ∧
      (name < 5 ↔ ∃ s, getNameStr name = .ok s) ∧
      (shaLength s = none → getName s = .throw) := by
  refine ⟨⟨?_, ?_⟩, ?_, ⟨?_, ?_⟩, ?_⟩
  · intro h
    match name, h with
    | 0, h => cases h; decide
    | 1, h => cases h; decide
    | 2, h => cases h; decide
    | 3, h => cases h; decide
    | 4, h => cases h; decide
    | n + 5, h => cases h
  · intro h
    unfold getName at h
    split at h
    · rename_i x hx
      have hm := List.mem_of_find?_eq_some hx
      have hs := List.find?_some hx
      simp only [beq_iff_eq] at hs
      cases h
      simp only [nameTbl, List.mem_cons, List.not_mem_nil, or_false] at hm
      rcases hm with rfl | rfl | rfl | rfl | rfl <;> subst hs <;> rfl
    · cases h
  · intro h
    obtain ⟨k, h1, h2, _⟩ := name_cases (C := Unit) name s h
    exact ⟨k, h1, h2⟩
  · intro h
    match name, h with
    | 0, _ => exact ⟨_, rfl⟩
    | 1, _ => exact ⟨_, rfl⟩
    | 2, _ => exact ⟨_, rfl⟩
    | 3, _ => exact ⟨_, rfl⟩
    | 4, _ => exact ⟨_, rfl⟩
  · rintro ⟨s, h⟩
    match name, h with
    | 0, _ => omega
    | 1, _ => omega
    | 2, _ => omega
    | 3, _ => omega
    | 4, _ => omega
    | n + 5, h => cases h
  · intro h
    unfold getName
    split
    · rename_i x hx
      have hm := List.mem_of_find?_eq_some hx
      have hs := List.find?_some hx
      simp only [beq_iff_eq] at hs
      simp only [nameTbl, List.mem_cons, List.not_mem_nil, or_false] at hm
      rcases hm with rfl | rfl | rfl | rfl | rfl <;> subst hs <;> simp [shaLength] at h
    · rfl

/-- The context has seen exactly these chunks since the last digest or reset. -/
def Seen (e : Evp C) (s : String) (h : Hash C) (acc : Bytes) : Prop :=
  ∃ (c : C) (chunks : List Bytes), e.init s = some c ∧ h.ctx = chunks.foldl e.update c ∧ acc = chunks.flatten

theorem reset_ok {e : Evp C} {H} (he : Computes e H) {name : Nat} {s : String} (hn : getNameStr name = .ok s) (h : Hash C)
    (hh : h.name = name) : ∃ h', h.reset e = .ok h' ∧ h'.name = name ∧ h'.hashSize = h.hashSize ∧ Seen e s h' [] := by
  obtain ⟨k, h1, h2, h3⟩ := name_cases (C := C) name s hn
  obtain ⟨c, hc⟩ := he.known s k h1
  refine ⟨{ h with ctx := c }, ?_, hh, rfl, c, [], hc, rfl, rfl⟩
  simp [Hash.reset, hh, h3, setCTX, hc, Res.pure_eq]

theorem update_seen {e : Evp C} {s : String} {h : Hash C} {acc : Bytes} (b : Bytes) (hs : Seen e s h acc) :
    Seen e s (h.update e b) (acc ++ b) := by
  obtain ⟨c, ch, h1, h2, rfl⟩ := hs
  exact ⟨c, ch ++ [b], h1, by simp [Hash.update, h2], by simp⟩

theorem digest_ok {e : Evp C} {H} (he : Computes e H) {name : Nat} {s : String} (hn : getNameStr name = .ok s) (h : Hash C)
    (hh : h.name = name) {acc : Bytes} (hs : Seen e s h acc) (out b : Bytes) (hl : (H s (acc ++ b)).length ≤ out.length) :
    ∃ h', h.digestTo e out b = .ok (H s (acc ++ b) ++ out.drop (H s (acc ++ b)).length, h') ∧ h'.name = name ∧
      h'.hashSize = h.hashSize ∧ Seen e s h' [] := by
  obtain ⟨c, ch, h1, h2, h3⟩ := update_seen b hs
  obtain ⟨h', e1, e2, e3, e4⟩ := reset_ok he hn (h.update e b) hh
  refine ⟨h', ?_, e2, e3, e4⟩
  have : e.final (h.update e b).ctx = H s (acc ++ b) := by rw [h2, he.digest s c h1, ← h3]
  simp [Hash.digestTo, this, poke, if_pos hl, e1, Res.pure_eq]

/-- If the library does not offer the algorithm, the constructor and `reset` throw; so do they for a number that names none. -/
theorem C78_not_offered (e : Evp C) (name : Nat) (h : ∀ s, getNameStr name = .ok s → e.init s = none) (o : Hash C)
    (ho : o.name = name) : Hash.new e name = .throw ∧ o.reset e = .throw := by
  subst ho
  unfold Hash.new Hash.reset
  rcases hn : o.name with _ | _ | _ | _ | _ | k <;> rw [hn] at h
  · simp [getSize, resetCtx, setCTX, h _ rfl]
  · simp [getSize, resetCtx, setCTX, h _ rfl]
  · simp [getSize, resetCtx, setCTX, h _ rfl]
  · simp [getSize, resetCtx, setCTX, h _ rfl]
  · simp [getSize, resetCtx, setCTX, h _ rfl]
  · simp [getSize, resetCtx]

/-- For every sequence of updates, resets and digests: each digest is that of the bytes given since the last digest or reset,
however they were cut, and nothing goes wrong. -/
theorem C78_history (e : Evp C) (H : String → Bytes → Bytes) (he : Computes e H) (name : Nat) (s : String)
    (hn : getNameStr name = .ok s) (ops : List Op) :
    ∃ h h', Hash.new e name = .ok h ∧ run e h ops = .ok (expected (H s) [] ops, h') := by
  obtain ⟨k, h1, h2, h3⟩ := name_cases (C := C) name s hn
  obtain ⟨c, hc⟩ := he.known s k h1
  refine ⟨⟨name, k, c⟩, ?_⟩
  suffices hg : ∀ (ops : List Op) (h : Hash C) (acc : Bytes), h.name = name → h.hashSize = k → Seen e s h acc →
      ∃ h', run e h ops = .ok (expected (H s) acc ops, h') by
    obtain ⟨h', hr⟩ := hg ops ⟨name, k, c⟩ [] rfl rfl ⟨c, [], hc, rfl, rfl⟩
    exact ⟨h', by simp [Hash.new, h2, h3, setCTX, hc, Res.pure_eq], hr⟩
  clear ops
  intro ops
  induction ops with
  | nil => intro h acc _ _ _; exact ⟨h, rfl⟩
  | cons o l ih =>
    intro h acc hh hk hs
    cases o with
    | update b =>
      obtain ⟨h', e1⟩ := ih (h.update e b) (acc ++ b) hh hk (update_seen b hs)
      exact ⟨h', by rw [run, e1]; rfl⟩
    | reset =>
      obtain ⟨h', e1, e2, e3, e4⟩ := reset_ok he hn h hh
      obtain ⟨h'', e5⟩ := ih h' [] e2 (by rw [e3, hk]) e4
      exact ⟨h'', by simp [run, e1, e5, expected]⟩
    | digest b =>
      have hlen := he.length s k h1 (acc ++ b)
      obtain ⟨h', e1, e2, e3, e4⟩ := digest_ok he hn h hh hs (List.replicate h.hashSize 0) b (by simp [hk, hlen])
      obtain ⟨h'', e5⟩ := ih h' [] e2 (by rw [e3, hk]) e4
      refine ⟨h'', ?_⟩
      have e1' : h.digest e b = .ok (H s (acc ++ b), h') := by
        rw [Hash.digest, e1, hk, hlen]; simp
      simp [run, e1', e5, expected, Res.pure_eq]

/-- The static functions give the digest of the buffer; what is behind it at `out` is untouched. -/
theorem C78_static (e : Evp C) (H : String → Bytes → Bytes) (he : Computes e H) (name : Nat) (s : String)
    (hn : getNameStr name = .ok s) (buf md out : Bytes) (hm : md.length = 128) (ho : (H s buf).length ≤ out.length) :
    digestStatic e md name buf = .ok (H s buf) ∧
      digestStaticTo e out name buf = .ok ((H s buf).length, H s buf ++ out.drop (H s buf).length) := by
  obtain ⟨k, h1, h2, h3⟩ := name_cases (C := C) name s hn
  obtain ⟨c, hc⟩ := he.known s k h1
  have hlen := he.length s k h1 buf
  have hk : 0 < k ∧ k ≤ 64 := by
    match name, hn, h2 with
    | 0, _, h2 => cases h2; decide
    | 1, _, h2 => cases h2; decide
    | 2, _, h2 => cases h2; decide
    | 3, _, h2 => cases h2; decide
    | 4, _, h2 => cases h2; decide
    | n + 5, hn, _ => cases hn
  have hnew : Hash.new e name = .ok ⟨name, k, c⟩ := by simp [Hash.new, h2, h3, setCTX, hc, Res.pure_eq]
  have key : ∀ o : Bytes, (H s buf).length ≤ o.length →
      digestStaticTo e o name buf = .ok ((H s buf).length, H s buf ++ o.drop (H s buf).length) := by
    intro o hl
    obtain ⟨h', e1, _⟩ := digest_ok he hn ⟨name, k, c⟩ rfl (acc := []) ⟨c, [], hc, rfl, rfl⟩ o buf (by simpa using hl)
    simp only [List.nil_append] at e1
    simp [digestStaticTo, hnew, e1, h2, hlen, Res.pure_eq]
  refine ⟨?_, key out ho⟩
  rw [digestStatic, key md (by omega)]
  simp only [Res.ok_bind, hlen]
  rw [if_neg (by omega), if_pos (by simp [hlen])]
  congr 1
  rw [List.take_append_of_le_length (by omega), ← hlen, List.take_length]

/-- An unknown value of the enumeration is an exception everywhere. -/
theorem C78_unknown (e : Evp C) (name : Nat) (h : 5 ≤ name) (md out buf : Bytes) :
    Hash.new e name = .throw ∧ digestStatic e md name buf = .throw ∧
      Hmac.new name = .throw ∧ getNameStr name = .throw ∧ getSize name = .throw := by
  obtain ⟨n, rfl⟩ : ∃ n, name = n + 5 := ⟨name - 5, by omega⟩
  exact ⟨rfl, rfl, rfl, rfl, rfl⟩

theorem toInt_small (n : Nat) (h : n < 2 ^ 31) : toInt n = n := by
  have h1 : n < 2147483648 := h
  unfold toInt
  refine Int.bmod_eq_of_le ?_ ?_
  · simp only [Nat.reducePow, Int.cast_ofNat_Int]; omega
  · simp only [Nat.reducePow, Int.cast_ofNat_Int]; omega

theorem toInt_wrap (n : Nat) (h : n < 2 ^ 31) : toInt (2 ^ 32 + n) = n := by
  refine Eq.trans ?_ (toInt_small n h)
  unfold toInt
  rw [Int.natCast_add]
  generalize (2 ^ 32 : Nat) = m
  exact Int.add_bmod_left ..

theorem perm_erase (l : List Nat) (i : Nat) (h : i < l.length) : (l[i] :: l.eraseIdx i).Perm l := by
  rw [List.eraseIdx_eq_take_drop_succ]
  conv => rhs; rw [← List.take_append_drop i l, List.drop_eq_getElem_cons h]
  exact List.perm_middle.symm

/-- The message authentication code of a key of fewer than 2^31 bytes. -/
theorem C78_hmac_partial (m : Mac) (M : Nat → Bytes → Bytes → Bytes) (hm : ComputesMac m M) (a : Nat) (key data : Bytes)
    (hk : key.length < 2 ^ 31) : Hmac.eval m a key data = .ok (M a key data) := by
  have hi : toInt key.length = (key.length : Int) := toInt_small _ hk
  rw [Hmac.eval, hi, hm.eval a key key.length data (Nat.le_refl _), List.take_length]
  have hl := hm.length a key data
  simp only [poke, List.length_replicate, hl]
  rw [if_pos (by omega)]
  simp only [Res.ok_bind, Res.pure_eq]
  rw [List.take_append_of_le_length (by omega), ← hl, List.take_length]

/-- If OpenSSL refuses, `Hmac::eval` throws. -/
theorem C78_hmac_failure (m : Mac) (a : Nat) (key data : Bytes) (h : m.hmac a key (toInt key.length) data = none) :
    Hmac.eval m a key data = .throw := by
  rw [Hmac.eval, h]

/-- Finding: the length of the key is cast to `int`; a key of 2^32 + n bytes gives the code of its first n bytes. -/
theorem C78_finding_hmac_key (m : Mac) (M : Nat → Bytes → Bytes → Bytes) (hm : ComputesMac m M) (a : Nat) (key data : Bytes)
    (n : Nat) (hk : key.length = 2 ^ 32 + n) (hn : n < 2 ^ 31) :
    Hmac.eval m a key data = .ok (M a (key.take n) data) := by
  have hi : toInt key.length = (n : Int) := by rw [hk]; exact toInt_wrap n hn
  rw [Hmac.eval, hi, hm.eval a key n data (by omega)]
  have hl := hm.length a (key.take n) data
  simp only [poke, List.length_replicate, hl]
  rw [if_pos (by omega)]
  simp only [Res.ok_bind, Res.pure_eq]
  rw [List.take_append_of_le_length (by omega), ← hl, List.take_length]

/-- `setup` with a key of fewer than 2^31 bytes: a wrong length is an exception; with the right length and a vector that is long
enough OpenSSL is given exactly the key and the beginning of the vector, and its answers decide. -/
theorem C78_setup_partial (o : Ciph C) (cipher : Nat) (enc : Bool) (key iv : Bytes) (pad : Bool) (hk : key.length < 2 ^ 31) :
    (key.length ≠ o.keyLen cipher → Cipher.setup o cipher enc key iv pad = .throw) ∧
    (key.length = o.keyLen cipher → o.ivLen cipher ≤ iv.length →
      ∀ c, Cipher.setup o cipher enc key iv pad = .ok c ↔
        ∃ c0, o.init cipher key (iv.take (o.ivLen cipher)) enc = some c0 ∧ o.padding c0 pad = some c) := by
  have hi : toInt key.length = (key.length : Int) := toInt_small _ hk
  constructor
  · intro h
    rw [Cipher.setup, hi, if_pos (by omega)]
  · intro h hiv c
    rw [Cipher.setup, hi, if_neg (by omega), ← h]
    have h1 : readStr key key.length = .ok key := by simp [readStr]
    have h2 : readStr iv (o.ivLen cipher) = .ok (iv.take (o.ivLen cipher)) := by
      rw [readStr, if_pos (by omega), List.take_append_of_le_length hiv]
    rw [h1, h2]
    simp only [Res.ok_bind]
    cases e : o.init cipher key (iv.take (o.ivLen cipher)) enc with
    | none => simp
    | some c0 =>
      cases e' : o.padding c0 pad with
      | none => simp [e']
      | some c1 => simp [e']

/-- In that case the answers of OpenSSL that are not success are an exception. -/
theorem C78_setup_fails (o : Ciph C) (cipher : Nat) (enc : Bool) (key iv : Bytes) (pad : Bool) (hk : key.length < 2 ^ 31)
    (h : key.length = o.keyLen cipher) (hiv : o.ivLen cipher ≤ iv.length)
    (hf : ∀ c0, o.init cipher key (iv.take (o.ivLen cipher)) enc = some c0 → o.padding c0 pad = none) :
    Cipher.setup o cipher enc key iv pad = .throw := by
  have hi : toInt key.length = (key.length : Int) := toInt_small _ hk
  rw [Cipher.setup, hi, if_neg (by omega), ← h]
  have h1 : readStr key key.length = .ok key := by simp [readStr]
  have h2 : readStr iv (o.ivLen cipher) = .ok (iv.take (o.ivLen cipher)) := by
    rw [readStr, if_pos (by omega), List.take_append_of_le_length hiv]
  rw [h1, h2]
  simp only [Res.ok_bind]
  cases e : o.init cipher key (iv.take (o.ivLen cipher)) enc with
  | none => simp
  | some c0 => simp [hf c0 e]

/-- The constructor loses no context for the six names, nor when there is none to be had. -/
theorem C78_cipher_kept (name : Nat) : (name < 6 → (Cipher.new true name).2 = 0) ∧ (Cipher.new false name).2 = 0 ∧
    ∀ k, (Cipher.new false name).1 ≠ .ok k := by
  refine ⟨fun h => by simp [Cipher.new, h], by simp [Cipher.new], fun k => by simp [Cipher.new]⟩

/-- `getSize` of a cipher is its key length in bits, if the ciphers are AES with 128, 192 and 256 bits, twice; the constructor
takes exactly these six names. -/
theorem C78_cipher_names (o : Ciph C) (ho : ∀ i k, [16, 24, 32, 16, 24, 32][i]? = some k → o.keyLen i = k) (name : Nat) :
    (∀ k, cipherSize name = .ok k → k = 8 * o.keyLen name) ∧
      ((∃ k, cipherSize name = .ok k) ↔ name < 6) ∧ ((Cipher.new true name).1 = .ok name ↔ name < 6) := by
  match name with
  | 0 => exact ⟨fun k h => by cases h; rw [ho 0 16 rfl], ⟨fun _ => by omega, fun _ => ⟨_, rfl⟩⟩, by simp [Cipher.new]⟩
  | 1 => exact ⟨fun k h => by cases h; rw [ho 1 24 rfl], ⟨fun _ => by omega, fun _ => ⟨_, rfl⟩⟩, by simp [Cipher.new]⟩
  | 2 => exact ⟨fun k h => by cases h; rw [ho 2 32 rfl], ⟨fun _ => by omega, fun _ => ⟨_, rfl⟩⟩, by simp [Cipher.new]⟩
  | 3 => exact ⟨fun k h => by cases h; rw [ho 3 16 rfl], ⟨fun _ => by omega, fun _ => ⟨_, rfl⟩⟩, by simp [Cipher.new]⟩
  | 4 => exact ⟨fun k h => by cases h; rw [ho 4 24 rfl], ⟨fun _ => by omega, fun _ => ⟨_, rfl⟩⟩, by simp [Cipher.new]⟩
  | 5 => exact ⟨fun k h => by cases h; rw [ho 5 32 rfl], ⟨fun _ => by omega, fun _ => ⟨_, rfl⟩⟩, by simp [Cipher.new]⟩
  | n + 6 =>
    exact ⟨fun k h => (by cases h), ⟨fun ⟨k, h⟩ => (by cases h), fun h => by omega⟩, by simp [Cipher.new, show ¬ n + 6 < 6 by omega]⟩

/-- `getSize` of an unknown cipher is an exception. -/
theorem C78_cipher_unknown (name : Nat) (h : 6 ≤ name) : cipherSize name = .throw := by
  obtain ⟨n, rfl⟩ : ∃ n, name = n + 6 := ⟨name - 6, by omega⟩
  rfl

/-- The values of `update` and `finalize`: -1 exactly if OpenSSL fails, and then nothing is written; otherwise the number of bytes
written, all of them within a large enough buffer. -/
theorem C78_update (o : Ciph C) (c : C) (out inp : Bytes) :
    (o.update c inp = none → Cipher.update o c out inp = .ok (-1, out, c)) ∧
    (∀ b c', o.update c inp = some (b, c') → b.length ≤ out.length →
      Cipher.update o c out inp = .ok (b.length, b ++ out.drop b.length, c')) ∧
    (o.final c = none → Cipher.finalize o c out = .ok (-1, out, c)) ∧
    (∀ b c', o.final c = some (b, c') → b.length ≤ out.length →
      Cipher.finalize o c out = .ok (b.length, b ++ out.drop b.length, c')) := by
  refine ⟨fun h => by simp [Cipher.update, h], fun b c' h hl => ?_, fun h => by simp [Cipher.finalize, h], fun b c' h hl => ?_⟩
  · simp [Cipher.update, h, poke, hl, Res.pure_eq]
  · simp [Cipher.finalize, h, poke, hl, Res.pure_eq]

/-- Finding: the length of the vector is not checked; with a cipher that needs more, memory behind the string is read. -/
theorem C78_finding_iv (o : Ciph C) (cipher : Nat) (enc : Bool) (key iv : Bytes) (pad : Bool) (hk : key.length < 2 ^ 31)
    (h : key.length = o.keyLen cipher) (hiv : iv.length + 1 < o.ivLen cipher) :
    Cipher.setup o cipher enc key iv pad = .ub := by
  have hi : toInt key.length = (key.length : Int) := toInt_small _ hk
  rw [Cipher.setup, hi, if_neg (by omega), ← h]
  simp [readStr, show ¬ o.ivLen cipher ≤ iv.length + 1 by omega]

/-- Finding: a key whose length is right only modulo 2^32 is accepted and its beginning used. -/
theorem C78_finding_key (o : Ciph C) (cipher : Nat) (enc : Bool) (key iv : Bytes) (pad : Bool)
    (hs : o.keyLen cipher < 2 ^ 31) (h : key.length = 2 ^ 32 + o.keyLen cipher) :
    Cipher.setup o cipher enc key iv pad = Cipher.setup o cipher enc (key.take (o.keyLen cipher)) iv pad := by
  have hi : toInt key.length = (o.keyLen cipher : Int) := by
    rw [h]; exact toInt_wrap _ hs
  have hl : (key.take (o.keyLen cipher)).length = o.keyLen cipher := by rw [List.length_take]; omega
  have hi' : toInt (o.keyLen cipher) = (o.keyLen cipher : Int) := toInt_small _ hs
  rw [Cipher.setup, Cipher.setup, hl, hi, hi']
  have h1 : readStr key (o.keyLen cipher) = readStr (key.take (o.keyLen cipher)) (o.keyLen cipher) := by
    rw [readStr, readStr, if_pos (by omega), if_pos (by omega), List.take_append_of_le_length (by omega),
      List.take_append_of_le_length (by omega), List.take_take, Nat.min_self]
  rw [h1]

/-- Without copies every context is freed at most once, and after all objects are destroyed exactly once. -/
theorem C78_owner_partial (l : List Life) (hc : ∀ i, Life.copy i ∉ l) :
    let s := Own.run ⟨[], 0, []⟩ l
    (s.freed ++ s.objs).Nodup ∧ (∀ c, c ∈ s.freed ++ s.objs ↔ c < s.next) := by
  suffices h : ∀ (l : List Life) (s : Own), (∀ i, Life.copy i ∉ l) → (s.freed ++ s.objs).Nodup →
      (∀ c, c ∈ s.freed ++ s.objs ↔ c < s.next) →
      ((s.run l).freed ++ (s.run l).objs).Nodup ∧ ∀ c, c ∈ (s.run l).freed ++ (s.run l).objs ↔ c < (s.run l).next from
    h l ⟨[], 0, []⟩ hc (by simp) (by simp)
  clear hc l
  intro l
  induction l with
  | nil => intro s _ h1 h2; exact ⟨h1, h2⟩
  | cons x l ih =>
    intro s hc h1 h2
    have hc' : ∀ i, Life.copy i ∉ l := fun i h => hc i (by simp [h])
    refine ih (s.step x) hc' ?_ ?_
    · cases x with
      | make =>
        simp only [Own.step]
        rw [← List.append_assoc, List.nodup_append]
        refine ⟨h1, by simp, ?_⟩
        intro a ha b hb
        have := (h2 a).1 ha
        simp at hb
        omega
      | copy i => exact absurd (by simp) (hc i)
      | destroy i =>
        simp only [Own.step]
        cases hi : s.objs[i]? with
        | none =>
          rw [List.getElem?_eq_none_iff] at hi
          simpa [List.eraseIdx_of_length_le hi] using h1
        | some c =>
          obtain ⟨hlt, rfl⟩ := List.getElem?_eq_some_iff.1 hi
          have hp : (s.freed ++ [s.objs[i]] ++ s.objs.eraseIdx i).Perm (s.freed ++ s.objs) := by
            rw [List.append_assoc]
            exact List.Perm.append_left _ (perm_erase _ _ hlt)
          simpa using hp.nodup_iff.2 h1
    · cases x with
      | make =>
        intro c
        have := h2 c
        simp only [List.mem_append] at this
        simp only [Own.step, List.mem_append, List.mem_singleton, ← or_assoc, this]
        omega
      | copy i => exact absurd (by simp) (hc i)
      | destroy i =>
        intro c
        simp only [Own.step]
        cases hi : s.objs[i]? with
        | none =>
          rw [List.getElem?_eq_none_iff] at hi
          simpa [List.eraseIdx_of_length_le hi] using h2 c
        | some d =>
          obtain ⟨hlt, rfl⟩ := List.getElem?_eq_some_iff.1 hi
          have hp : (s.freed ++ [s.objs[i]] ++ s.objs.eraseIdx i).Perm (s.freed ++ s.objs) := by
            rw [List.append_assoc]
            exact List.Perm.append_left _ (perm_erase _ _ hlt)
          simpa using (hp.mem_iff (a := c)).trans (h2 c)

/-- Finding: `Hash` and `Cipher` can be copied, and a copy frees the same context again. -/
theorem C78_finding_copy (s : Own) (i c : Nat) (h : s.objs[i]? = some c) :
    ((s.step (.copy i)).step (.destroy s.objs.length)).freed = s.freed ++ [c] ∧
      (((s.step (.copy i)).step (.destroy s.objs.length)).step (.destroy i)).freed = s.freed ++ [c, c] := by
  obtain ⟨hlt, rfl⟩ := List.getElem?_eq_some_iff.1 h
  have he : (s.objs ++ [s.objs[i]]).eraseIdx s.objs.length = s.objs := by
    rw [List.eraseIdx_append_of_length_le (by simp)]; simp
  simp [Own.step, h, he]

/-- Finding: a cipher of an unknown name throws after the context was made, and no one frees it. -/
theorem C78_finding_cipher_leak (name : Nat) (h : 6 ≤ name) : (Cipher.new true name).2 = 1 := by
  simp [Cipher.new, show ¬ name < 6 by omega]

/-! ## Cases -/

/-- A digest that cuts or fills up. -/
def toyH (s : String) (m : Bytes) : Bytes := (m ++ List.replicate 64 0).take ((shaLength s).getD 0)

/-- It as an implementation. -/
def toy : Evp (String × Bytes) := ⟨fun s => some (s, []), fun c b => (c.1, c.2 ++ b), fun c => toyH c.1 c.2⟩

theorem toy_fold (s : String) (l : List Bytes) : ∀ acc, l.foldl toy.update (s, acc) = (s, acc ++ l.flatten) := by
  induction l with
  | nil => intro acc; simp
  | cons x l ih =>
    intro acc
    rw [List.foldl_cons, show toy.update (s, acc) x = (s, acc ++ x) from rfl, ih]
    simp

example : Computes toy toyH where
  known n k h := ⟨_, rfl⟩
  digest n c h chunks := by
    cases h
    rw [toy_fold]
    rfl
  length n k h m := by
    have : k ≤ 64 := by
      unfold shaLength at h
      split at h <;> cases h <;> decide
    simp [toyH, h]
    omega

example : ∃ h h', Hash.new toy 0 = .ok h ∧ run toy h [.update [1, 2], .digest [3], .digest []] =
    .ok ([[1, 2, 3] ++ List.replicate 17 0, List.replicate 20 0], h') := ⟨_, _, rfl, rfl⟩

/-- A code that forgets the data. -/
def toyMac : Mac := ⟨fun _ => 1, fun _ key len _ => some [UInt8.ofNat (key.take len.toNat).length]⟩

example : ComputesMac toyMac (fun _ key _ => [UInt8.ofNat key.length]) where
  eval a key len data h := by simp [toyMac]
  length a key data := rfl

/-- A cipher that OpenSSL refuses to pad. -/
def stubborn : Ciph Unit := ⟨fun _ => 2, fun _ => 1, fun _ _ _ _ => some (), fun _ _ => none, fun _ _ => none, fun _ => none⟩

example : Cipher.setup stubborn 0 true [1, 2] [3] false = .throw :=
  C78_setup_fails stubborn 0 true [1, 2] [3] false (by decide) rfl (by decide) fun _ _ => rfl

end Verif.Props.Crypto

#print axioms Verif.Props.Crypto.C78_setup_fails
#print axioms Verif.Props.Crypto.C78_cipher_kept
#print axioms Verif.Props.Crypto.C78_history
#print axioms Verif.Props.Crypto.C78_static
#print axioms Verif.Props.Crypto.C78_owner_partial
#print axioms Verif.Props.Crypto.C78_hmac_failure
