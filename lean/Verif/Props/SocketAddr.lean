import Verif.Spec.SocketAddr
set_option linter.unusedSimpArgs false
/-!
# C79: socket addresses
-/
namespace Verif.Props.SocketAddr
open Verif Verif.SocketAddr Verif.SocketAddrSpec

theorem slice_mid (pre x post : List UInt8) : slice (pre ++ x ++ post) pre.length x.length = x := by
  simp [slice, List.append_assoc]

theorem host_iff (a : Addr) (hl : a.raw.length = 28) (h : List UInt8) :
    Host a h ↔ (a.family = afInet ∧ h = header ++ a.v4) ∨ (a.family = afInet6 ∧ h = a.v6) := by
  constructor
  · intro hh
    cases hh with
    | @v4 raw sa len pre x post hp hx he =>
      refine .inl ⟨rfl, ?_⟩
      have := slice_mid pre x post
      rw [hp, hx, ← he] at this
      simp only [Addr.v4, this]
      rfl
    | v6 pre _ post hp hx he =>
      refine .inr ⟨rfl, ?_⟩
      have := slice_mid pre h post
      rw [hp, hx, ← he] at this
      simp only [Addr.v6, this]
  · obtain ⟨raw, sa, len, fam⟩ := a
    simp only at hl
    rintro (⟨h1, rfl⟩ | ⟨h1, rfl⟩)
    · simp only [afInet] at h1
      subst h1
      refine Host.v4 (raw.take 4) (slice raw 4 4) (raw.drop 8) (by simp; omega) (by simp [slice]; omega) ?_
      have := List.take_append_drop 4 (raw.drop 4)
      rw [List.drop_drop] at this
      rw [slice, List.append_assoc, this, List.take_append_drop]
    · simp only [afInet6] at h1
      subst h1
      refine Host.v6 (raw.take 8) (slice raw 8 16) (raw.drop 24) (by simp; omega) (by simp [slice]; omega) ?_
      have := List.take_append_drop 16 (raw.drop 8)
      rw [List.drop_drop] at this
      rw [slice, List.append_assoc, this, List.take_append_drop]

theorem mapped_iff (v6 v4 : List UInt8) (h6 : v6.length = 16) (h4 : v4.length = 4) :
    mapped v6 v4 = true ↔ v6 = header ++ v4 := by
  rw [mapped, Bool.and_eq_true, beq_iff_eq, beq_iff_eq]
  have hs : slice v6 12 4 = v6.drop 12 := by
    rw [slice, List.take_of_length_le]; rw [List.length_drop]; omega
  rw [hs]
  constructor
  · rintro ⟨h1, h2⟩
    rw [← List.take_append_drop 12 v6, h1, h2]
  · rintro rfl
    exact ⟨by simp [header], by simp [header]⟩

theorem v4_length (a : Addr) (hl : a.raw.length = 28) : a.v4.length = 4 := by simp [Addr.v4, slice]; omega
theorem v6_length (a : Addr) (hl : a.raw.length = 28) : a.v6.length = 16 := by simp [Addr.v6, slice]; omega

/-- `hasSameAddr` says whether the two addresses stand for the same host, whatever the ports, the scopes and the flow
information, where an IPv4 address and the IPv6 address it is mapped to are the same host. -/
theorem C79_same (a b : Addr) (ha : a.raw.length = 28) (hb : b.raw.length = 28) :
    a.hasSameAddr b = true ↔ ∃ h, Host a h ∧ Host b h := by
  simp only [host_iff a ha, host_iff b hb]
  have ha4 := v4_length a ha
  have hb4 := v4_length b hb
  have ha6 := v6_length a ha
  have hb6 := v6_length b hb
  unfold Addr.hasSameAddr
  by_cases h1 : a.family = afInet
  · have h1' : a.family ≠ afInet6 := by rw [h1]; decide
    by_cases h2 : b.family = afInet
    · have h2' : b.family ≠ afInet6 := by rw [h2]; decide
      simp only [h1, h2, if_true, beq_iff_eq, true_and, show afInet ≠ afInet6 by decide, false_and, or_false]
      constructor
      · intro h; exact ⟨_, rfl, by rw [h]⟩
      · rintro ⟨h, rfl, h'⟩
        exact List.append_cancel_left h'
    · by_cases h3 : b.family = afInet6
      · simp only [h1, h3, if_true, show ¬ afInet6 = afInet by decide, show ¬ afInet = afInet6 by decide, if_false, ne_eq,
          not_true, true_and, false_and, or_false, false_or, mapped_iff _ _ hb6 ha4]
        constructor
        · intro h; exact ⟨_, rfl, h.symm⟩
        · rintro ⟨h, rfl, h'⟩; exact h'.symm
      · simp [h1, h2, h3]
  · by_cases h3 : a.family = afInet6
    · by_cases h2 : b.family = afInet6
      · simp only [h3, h2, show ¬ afInet6 = afInet by decide, if_false, if_true, ne_eq, not_true, true_and, false_and, false_or,
          beq_iff_eq]
        constructor
        · intro h; exact ⟨_, rfl, h⟩
        · rintro ⟨h, rfl, h'⟩; exact h'
      · by_cases h4 : b.family = afInet
        · simp only [h3, h4, show ¬ afInet6 = afInet by decide, show ¬ afInet = afInet6 by decide, if_false, ne_eq, not_true,
            true_and, false_and, false_or, or_false, mapped_iff _ _ ha6 hb4]
          constructor
          · intro h; exact ⟨_, rfl, h⟩
          · rintro ⟨h, rfl, h'⟩; exact h'
        · simp [h1, h2, h3, h4]
    · simp [h1, h3]

/-- It is symmetric and transitive, and reflexive for addresses that were set. -/
theorem C79_equivalence (a b c : Addr) (ha : a.raw.length = 28) (hb : b.raw.length = 28) (hc : c.raw.length = 28) :
    (a.hasSameAddr b = b.hasSameAddr a) ∧
      (a.hasSameAddr b = true → b.hasSameAddr c = true → a.hasSameAddr c = true) ∧
      (a.hasSameAddr a = true ↔ a.family = 2 ∨ a.family = 10) := by
  refine ⟨?_, ?_, ?_⟩
  · rw [Bool.eq_iff_iff, C79_same a b ha hb, C79_same b a hb ha]
    constructor <;> rintro ⟨h, h1, h2⟩ <;> exact ⟨h, h2, h1⟩
  · rw [C79_same a b ha hb, C79_same b c hb hc, C79_same a c ha hc]
    rintro ⟨h, h1, h2⟩ ⟨h', h3, h4⟩
    have : h = h' := by
      rw [host_iff b hb] at h2 h3
      rcases h2 with ⟨f, rfl⟩ | ⟨f, rfl⟩ <;> rcases h3 with ⟨f', rfl⟩ | ⟨f', rfl⟩
      · rfl
      · rw [f] at f'; exact absurd f' (by decide)
      · rw [f] at f'; exact absurd f' (by decide)
      · rfl
    exact ⟨h, h1, this ▸ h4⟩
  · rw [C79_same a a ha ha]
    simp only [host_iff a ha]
    constructor
    · rintro ⟨h, h1 | h1, _⟩
      · exact .inl h1.1
      · exact .inr h1.1
    · rintro (h | h)
      · exact ⟨_, .inl ⟨h, rfl⟩, .inl ⟨h, rfl⟩⟩
      · exact ⟨_, .inr ⟨h, rfl⟩, .inr ⟨h, rfl⟩⟩

/-- `getPort` is the number with the two bytes of the port in network order, for both families; without a family it throws. -/
theorem C79_port (a : Addr) (f0 f1 hi lo : UInt8) (rest : List UInt8) (h : a.raw = f0 :: f1 :: hi :: lo :: rest) :
    (a.family = 2 ∨ a.family = 10 → a.getPort = .ok (256 * hi.toNat + lo.toNat)) ∧
      (a.family ≠ 2 → a.family ≠ 10 → a.getPort = .throw) := by
  have hp : ntohs (slice a.raw 2 2) = 256 * hi.toNat + lo.toNat := by
    simp [h, slice, ntohs]; omega
  constructor
  · rintro (hf | hf) <;> simp [Addr.getPort, hf, afInet, afInet6, hp]
  · intro h1 h2; simp [Addr.getPort, h1, h2, afInet, afInet6]

/-- The address a client connected from is taken over if its length fits its family, otherwise there is an exception. -/
theorem C79_verify (a b : Addr) :
    (a.verify = .ok b ↔ b = { a with family := a.sa } ∧ (a.sa = 2 ∧ a.addrlen = 16 ∨ a.sa = 10 ∧ a.addrlen = 28)) ∧
      (¬ (a.sa = 2 ∧ a.addrlen = 16 ∨ a.sa = 10 ∧ a.addrlen = 28) → a.verify = .throw) := by
  refine ⟨?_, fun h => by
    unfold Addr.verify
    rw [if_neg (show ¬ (a.addrlen = 16 ∧ a.sa = afInet) from fun k => h (.inl ⟨k.2, k.1⟩)),
      if_neg (show ¬ (a.addrlen = 28 ∧ a.sa = afInet6) from fun k => h (.inr ⟨k.2, k.1⟩))]⟩
  unfold Addr.verify
  split
  · rename_i h1
    simp only [afInet] at h1
    simp only [Res.ok.injEq]
    constructor
    · rintro rfl; exact ⟨by rw [h1.2]; rfl, .inl ⟨h1.2, h1.1⟩⟩
    · rintro ⟨rfl, _⟩; rw [h1.2]; rfl
  · rename_i h1
    simp only [afInet] at h1
    split
    · rename_i h2
      simp only [afInet6] at h2
      simp only [Res.ok.injEq]
      constructor
      · rintro rfl; exact ⟨by rw [h2.2]; rfl, .inr ⟨h2.2, h2.1⟩⟩
      · rintro ⟨rfl, _⟩; rw [h2.2]; rfl
    · rename_i h2
      simp only [afInet6] at h2
      simp only [reduceCtorEq, false_iff]
      rintro ⟨_, h⟩
      omega

theorem pick_some (f : Nat) (l : List Info) (p : Info) (h : pick f l = some p) :
    ∃ l1 l2, l = l1 ++ p :: l2 ∧ p.family = f ∧ p.addr.length ≤ 28 ∧ ∀ q ∈ l1, q.family ≠ f := by
  induction l with
  | nil => cases h
  | cons q l ih =>
    rw [pick] at h
    split at h
    · rename_i hq
      split at h
      · cases h
      · cases h
        exact ⟨[], l, rfl, hq, by omega, by simp⟩
    · rename_i hq
      obtain ⟨l1, l2, rfl, h1, h2, h3⟩ := ih h
      exact ⟨q :: l1, l2, rfl, h1, h2, by simpa [hq] using h3⟩

theorem finish_ok (r : Resolver) (force : Bool) (f : Nat) (l : List Info) (got : List Nat) (h1 : r f = some l)
    (h2 : f = (if force = true ∨ r 2 = none then 10 else 2)) :
    ((finish f l got).returned = true → Resolved r force (finish f l got).addr) ∧
      ((finish f l got).returned = false → (finish f l got).addr = Addr.empty) ∧
      (finish f l got).got = got ∧ (finish f l got).freed = [f] := by
  unfold finish
  cases hp : pick f l with
  | none => simp
  | some p =>
    obtain ⟨l1, l2, e, hf, hl, hq⟩ := pick_some f l p hp
    refine ⟨fun _ => ⟨f, l1, p, l2, h2, by rw [h1, e], hf, hq, hf, rfl, by simp [Addr.assign], ?_⟩, by simp, rfl, rfl⟩
    simp [Addr.assign]
    omega

/-- If `set` returns, the address is the first one of the wanted family in the answer of the resolver; if it throws, the object is
empty, whatever it was before. -/
theorem C79_set (r : Resolver) (force : Bool) :
    ((resolve r force).returned = true → Resolved r force (resolve r force).addr) ∧
      ((resolve r force).returned = false → (resolve r force).addr.family = 0 ∧ (resolve r force).addr.addrlen = 0 ∧
        ∀ b : Addr, b.raw.length = 28 → (resolve r force).addr.hasSameAddr b = false) := by
  have em : ∀ b : Addr, b.raw.length = 28 → Addr.empty.hasSameAddr b = false := fun b _ => rfl
  unfold resolve
  cases h4 : r afInet with
  | none =>
    cases h6 : r afInet6 with
    | none => exact ⟨by simp, fun _ => ⟨rfl, rfl, em⟩⟩
    | some l =>
      obtain ⟨a, b, _⟩ := finish_ok r force afInet6 l [afInet6] h6 (by rw [if_pos (.inr h4)]; rfl)
      exact ⟨a, fun h => by rw [b h]; exact ⟨rfl, rfl, em⟩⟩
  | some l =>
    cases force with
    | true =>
      simp only [if_true]
      cases h6 : r afInet6 with
      | none => exact ⟨by simp, fun _ => ⟨rfl, rfl, em⟩⟩
      | some l6 =>
        obtain ⟨a, b, _⟩ := finish_ok r true afInet6 l6 [afInet, afInet6] h6 (by rw [if_pos (.inl rfl)]; rfl)
        exact ⟨a, fun h => by rw [b h]; exact ⟨rfl, rfl, em⟩⟩
    | false =>
      simp only [Bool.false_eq_true, if_false]
      obtain ⟨a, b, _⟩ := finish_ok r false afInet l [afInet] h4
        (by rw [if_neg (by rw [show r 2 = some l from h4]; simp)]; rfl)
      exact ⟨a, fun h => by rw [b h]; exact ⟨rfl, rfl, em⟩⟩

/-- `set` returns exactly if the resolver gives an address of the wanted family that fits, before any that does not. -/
theorem C79_set_returns (r : Resolver) (force : Bool) :
    (resolve r force).returned = true ↔
      ∃ f before p after, f = (if force = true ∨ r 2 = none then 10 else 2) ∧ r f = some (before ++ p :: after) ∧
        p.family = f ∧ (∀ q ∈ before, q.family ≠ f) ∧ p.addr.length ≤ 28 := by
  have pk : ∀ (f : Nat) (l1 : List Info) (p : Info) (l2 : List Info), p.family = f → (∀ q ∈ l1, q.family ≠ f) →
      p.addr.length ≤ 28 → pick f (l1 ++ p :: l2) = some p := by
    intro f l1
    induction l1 with
    | nil => intro p l2 hp _ hl; rw [List.nil_append, pick, if_pos hp, if_neg (by omega)]
    | cons q l1 ih =>
      intro p l2 hp hq hl
      rw [List.cons_append, pick, if_neg (hq q (by simp))]
      exact ih p l2 hp (fun x hx => hq x (by simp [hx])) hl
  have fin : ∀ (f : Nat) (l : List Info) (got : List Nat), (finish f l got).returned = true ↔
      ∃ before p after, l = before ++ p :: after ∧ p.family = f ∧ (∀ q ∈ before, q.family ≠ f) ∧ p.addr.length ≤ 28 := by
    intro f l got
    unfold finish
    constructor
    · intro h
      cases hp : pick f l with
      | none => rw [hp] at h; cases h
      | some p =>
        obtain ⟨l1, l2, e, hf, hl, hq⟩ := pick_some f l p hp
        exact ⟨l1, p, l2, e, hf, hq, hl⟩
    · rintro ⟨l1, p, l2, rfl, hf, hq, hl⟩
      rw [pk f l1 p l2 hf hq hl]
  have step : ∀ (f : Nat) (l : List Info) (got : List Nat), r f = some l → f = (if force = true ∨ r 2 = none then 10 else 2) →
      ((finish f l got).returned = true ↔
      ∃ f before p after, f = (if force = true ∨ r 2 = none then 10 else 2) ∧ r f = some (before ++ p :: after) ∧
        p.family = f ∧ (∀ q ∈ before, q.family ≠ f) ∧ p.addr.length ≤ 28) := by
    intro f l got h1 h2
    rw [fin]
    constructor
    · rintro ⟨l1, p, l2, rfl, hf, hq, hl⟩
      exact ⟨f, l1, p, l2, h2, h1, hf, hq, hl⟩
    · rintro ⟨f', l1, p, l2, h2', h1', hf, hq, hl⟩
      rw [← h2] at h2'
      subst h2'
      rw [h1] at h1'
      cases h1'
      exact ⟨l1, p, l2, rfl, hf, hq, hl⟩
  have none6 : r 10 = none → (10 = if force = true ∨ r 2 = none then 10 else 2) →
      ¬ ∃ f before p after, f = (if force = true ∨ r 2 = none then 10 else 2) ∧ r f = some (before ++ p :: after) ∧
        p.family = f ∧ (∀ q ∈ before, q.family ≠ f) ∧ p.addr.length ≤ 28 := by
    rintro h6 h ⟨f, l1, p, l2, hf, hr, _⟩
    rw [← h] at hf
    subst hf
    rw [h6] at hr
    cases hr
  unfold resolve
  cases h4 : r afInet with
  | none =>
    have hc : 10 = if force = true ∨ r 2 = none then 10 else 2 := by rw [if_pos (.inr h4)]
    cases h6 : r afInet6 with
    | none => simp only [Bool.false_eq_true, false_iff]; exact none6 h6 hc
    | some l => exact step afInet6 l _ h6 hc
  | some l =>
    cases hF : force with
    | true =>
      subst hF
      have hc : 10 = if true = true ∨ r 2 = none then 10 else 2 := by rw [if_pos (.inl rfl)]
      simp only [if_true]
      cases h6 : r afInet6 with
      | none =>
        simp only [Bool.false_eq_true, false_iff]
        simpa using none6 h6 hc
      | some l6 => simpa using step afInet6 l6 [afInet, afInet6] h6 hc
    | false =>
      subst hF
      simp only [Bool.false_eq_true, if_false]
      have := step afInet l [afInet] h4 (by rw [if_neg (by rw [show r 2 = some l from h4]; simp)]; rfl)
      simpa using this

/-- The list of the resolver is freed, whether an address was found or not, unless IPv6 is forced. -/
theorem C79_set_frees (r : Resolver) : (resolve r false).got = (resolve r false).freed := by
  unfold resolve finish
  cases h4 : r afInet with
  | none =>
    cases h6 : r afInet6 with
    | none => rfl
    | some l => simp only; cases pick afInet6 l <;> rfl
  | some l => simp only [Bool.false_eq_true, if_false]; cases pick afInet l <;> rfl

/-- Finding: with `forceIpV6` the list of the first call of `getaddrinfo` is never freed. -/
theorem C79_finding_leak (r : Resolver) (l : List Info) (h : r 2 = some l) :
    2 ∈ (resolve r true).got ∧ 2 ∉ (resolve r true).freed := by
  unfold resolve finish
  rw [show r afInet = some l from h]
  simp only [if_true]
  cases r afInet6 with
  | none => simp [afInet]
  | some l6 => simp only; cases pick afInet6 l6 <;> simp [afInet, afInet6]

/-- `toStr` is the printed address and the port, the address in brackets for IPv6. -/
theorem C79_toStr (ntop : Nat → List UInt8 → Option String) (itoa : Nat → String) (a : Addr) (s : String) :
    a.toStr ntop itoa = .ok s ↔ ∃ p port, a.getPort = .ok port ∧
      (a.family = 2 ∧ ntop 2 a.v4 = some p ∧ s = p ++ ":" ++ itoa port ∨
        a.family = 10 ∧ ntop 10 a.v6 = some p ∧ s = "[" ++ p ++ "]:" ++ itoa port) := by
  unfold Addr.toStr
  simp only [Addr.getPort, afInet, afInet6]
  by_cases h1 : a.family = 2
  · simp only [h1, true_or, if_true, true_and, Nat.reduceEqDiff, false_and, or_false, Res.ok.injEq]
    cases ntop 2 a.v4 with
    | none => simp
    | some p => simp [Res.pure_eq, eq_comm]
  · by_cases h2 : a.family = 10
    · simp only [h2, or_true, if_true, true_and, Nat.reduceEqDiff, false_and, false_or, if_false, Res.ok.injEq]
      cases ntop 10 a.v6 with
      | none => simp
      | some p => simp [Res.pure_eq, eq_comm]
    · simp [h1, h2]

/-! ## Cases -/

/-- `verify` and `toStr` never do anything but return or throw. -/
theorem C79_no_ub (ntop : Nat → List UInt8 → Option String) (itoa : Nat → String) (a : Addr) :
    a.verify ≠ .ub ∧ a.toStr ntop itoa ≠ .ub := by
  constructor
  · unfold Addr.verify
    repeat' split
    all_goals simp
  · unfold Addr.toStr Addr.getPort
    by_cases h1 : a.family = afInet
    · simp only [h1, true_or, if_true]
      cases ntop afInet a.v4 <;> simp
    · by_cases h2 : a.family = afInet6
      · simp only [h2, or_true, if_true]
        split <;> (try split) <;> simp [afInet, afInet6]
      · simp [h1, h2]

/-- 192.168.0.1:80 -/
def a4 : Addr := ⟨[2, 0, 0, 80, 192, 168, 0, 1] ++ List.replicate 20 0, 2, 16, 2⟩

/-- [::ffff:192.168.0.1]:443 -/
def a6 : Addr := ⟨[10, 0, 1, 187, 0, 0, 0, 0] ++ header ++ [192, 168, 0, 1, 0, 0, 0, 0], 10, 28, 10⟩

example : a4.hasSameAddr a6 = true ∧ a6.raw.length = 28 ∧ a4.raw.length = 28 ∧ a6.getPort = .ok 443 := by decide

example : (resolve (fun f => if f = 2 then some [⟨10, []⟩, ⟨2, [2, 0, 0, 80, 10, 0, 0, 1]⟩] else none) false).returned = true := by
  decide

end Verif.Props.SocketAddr

#print axioms Verif.Props.SocketAddr.C79_same
#print axioms Verif.Props.SocketAddr.C79_set
#print axioms Verif.Props.SocketAddr.C79_set_returns
