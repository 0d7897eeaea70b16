import Verif.Spec.Zlib
import Verif.Proof.Gzip
set_option linter.unusedSimpArgs false

/-! Lemmas for C67. -/
namespace Verif.Zlib
open Verif.Spec.Zlib
open Verif.Stream (Src)

variable {D : Deflater} {I : Inflater} {Enc : List UInt8 → List UInt8 → Prop}

theorem writeLoop_spec (h : Deflates D Enc) {mb : Nat} (hmb : 0 < mb) : ∀ (n m : Nat) (s : D.σ) (x y i os : List UInt8),
    i.length = n → h.bound x.length - y.length = m → h.Inv s x y .filling →
    ∃ N s' o, (∀ fuel, N ≤ fuel → writeLoop D mb fuel s i os = .ok (s', os ++ o)) ∧ h.Inv s' (x ++ i) (y ++ o) .filling := by
  intro n
  induction n using Nat.strongRecOn with
  | ind n ihn =>
    intro m
    induction m using Nat.strongRecOn with
    | ind m ihm =>
      intro s x y i os hi hm hI
      cases i with
      | nil => exact ⟨0, s, [], fun fuel _ => by cases fuel <;> simp [writeLoop], by simpa using hI⟩
      | cons b i =>
        obtain ⟨h1, h2, h3, h4⟩ := h.feed (b :: i) mb hI (by simp) hmb
        generalize hr : D.deflate s (b :: i) mb false = r at h1 h2 h3 h4
        have key : ∃ N s' o, (∀ fuel, N ≤ fuel → writeLoop D mb fuel r.st ((b :: i).drop r.used) (os ++ r.out) = .ok (s', (os ++ r.out) ++ o)) ∧
            h.Inv s' ((x ++ (b :: i).take r.used) ++ (b :: i).drop r.used) ((y ++ r.out) ++ o) .filling := by
          by_cases hu : 0 < r.used
          · exact ihn (n - r.used) (by simp at h2; simp at hi; omega) _ _ _ _ _ _ (by simp [← hi]) rfl h4
          · have h0 : r.used = 0 := by omega
            have hb := h.bounded h4
            rw [h0] at h4 hb ⊢
            simp only [List.take_zero, List.append_nil, List.drop_zero] at h4 hb ⊢
            have hne : r.out ≠ [] := h3.resolve_left hu
            have : 0 < r.out.length := List.length_pos_iff.2 hne
            rw [List.length_append] at hb
            refine ihm (h.bound x.length - (y ++ r.out).length) ?_ _ _ _ _ _ (by simpa using hi) rfl h4
            rw [List.length_append]; omega
        obtain ⟨N, s', o, k1, k2⟩ := key
        refine ⟨N + 1, s', r.out ++ o, fun fuel hf => ?_, ?_⟩
        · obtain ⟨f, rfl⟩ := Nat.exists_eq_succ_of_ne_zero (show fuel ≠ 0 by omega)
          rw [writeLoop]
          simp only [hr, h1]
          rw [k1 f (by omega), List.append_assoc]
        · rw [List.append_assoc, List.take_append_drop, List.append_assoc] at k2
          exact k2

theorem flushLoop_spec (h : Deflates D Enc) {mb : Nat} (hmb : 0 < mb) : ∀ (m : Nat) (s : D.σ) (x y os : List UInt8) (p : Phase),
    h.bound x.length - y.length = m → h.Inv s x y p → p ≠ .ended →
    ∃ N s' o, (∀ fuel, N ≤ fuel → flushLoop D mb fuel s os = .ok (s', os ++ o)) ∧ h.Inv s' x (y ++ o) .ended := by
  intro m
  induction m using Nat.strongRecOn with
  | ind m ih =>
    intro s x y os p hm hI hp
    have hstep := h.finish mb hI hp hmb
    generalize hr : D.deflate s [] mb true = r at hstep
    obtain ⟨h1, h2, h3⟩ | ⟨h1, h2⟩ := hstep
    · have hb := h.bounded h3
      have : 0 < r.out.length := List.length_pos_iff.2 h2
      rw [List.length_append] at hb
      obtain ⟨N, s', o, k1, k2⟩ := ih (h.bound x.length - (y ++ r.out).length) (by rw [List.length_append]; omega) r.st x (y ++ r.out)
        (os ++ r.out) .finishing rfl h3 (by simp)
      refine ⟨N + 1, s', r.out ++ o, fun fuel hf => ?_, by rw [← List.append_assoc]; exact k2⟩
      obtain ⟨f, rfl⟩ := Nat.exists_eq_succ_of_ne_zero (show fuel ≠ 0 by omega)
      rw [flushLoop]
      simp only [hr, h1]
      rw [k1 f (by omega), List.append_assoc]
    · refine ⟨1, r.st, r.out, fun fuel hf => ?_, h2⟩
      obtain ⟨f, rfl⟩ := Nat.exists_eq_succ_of_ne_zero (show fuel ≠ 0 by omega)
      rw [flushLoop]
      simp only [hr, h1]

/-- What a compressor in use looks like after taking `x` and giving `y`. -/
structure Good (h : Deflates D Enc) (gz : Bool) (c : Comp D) (x y : List UInt8) : Prop where
  inv : h.Inv c.zs x y .filling
  os : c.os = (if gz then Gzip.header else []) ++ y
  useGzip : c.useGzip = gz
  flushed : c.flushed = false
  crc : gz = true → c.crc = D.crc32 (D.crc32 0 []) x
  total : gz = true → c.total = x.length % 2 ^ 32

theorem good_new (h : Deflates D Enc) (gz : Bool) : Good h gz (Comp.new D gz) [] [] :=
  ⟨h.init, by simp [Comp.new], rfl, rfl, fun _ => by rw [h.crc_append]; rfl, fun _ => rfl⟩

theorem write_good (h : Deflates D Enc) {mb : Nat} (hmb : 0 < mb) {gz : Bool} {c : Comp D} {x y : List UInt8}
    (hg : Good h gz c x y) (b : List UInt8) (hb : b.length < 2 ^ 31) :
    ∃ N c' y', (∀ fuel, N ≤ fuel → c.write mb fuel b = .ok c') ∧ Good h gz c' (x ++ b) y' := by
  obtain ⟨N, s', o, k1, k2⟩ := writeLoop_spec h hmb _ _ c.zs x y b c.os rfl rfl hg.inv
  refine ⟨N, { c with
      zs := s', os := c.os ++ o
      crc := if c.useGzip then D.crc32 c.crc b else c.crc
      total := if c.useGzip then (c.total + b.length) % 2 ^ 32 else c.total }, y ++ o, fun fuel hf => ?_, ?_⟩
  · rw [Comp.write, if_neg (by omega), k1 fuel hf, Res.ok_bind]
    rfl
  · refine ⟨k2, ?_, hg.useGzip, hg.flushed, fun e => ?_, fun e => ?_⟩
    · simp only [hg.os, List.append_assoc]
    · simp only [hg.useGzip, e, if_true, hg.crc e, h.crc_append]
      simp [List.append_assoc]
    · simp only [hg.useGzip, e, if_true, hg.total e, List.length_append]
      omega

theorem writes_good (h : Deflates D Enc) {mb : Nat} (hmb : 0 < mb) {gz : Bool} (bs : List (List UInt8)) :
    ∀ {c : Comp D} {x y : List UInt8}, Good h gz c x y → (∀ b ∈ bs, b.length < 2 ^ 31) →
    ∃ N c' y', (∀ fuel, N ≤ fuel → c.writes mb fuel bs = .ok c') ∧ Good h gz c' (x ++ bs.flatten) y' := by
  induction bs with
  | nil => intro c x y hg _; exact ⟨0, c, y, fun _ _ => rfl, by simpa using hg⟩
  | cons b bs ih =>
    intro c x y hg hb
    obtain ⟨N1, c1, y1, k1, g1⟩ := write_good h hmb hg b (hb b (by simp))
    obtain ⟨N2, c2, y2, k2, g2⟩ := ih g1 (fun b' h' => hb b' (by simp [h']))
    refine ⟨max N1 N2, c2, y2, fun fuel hf => ?_, ?_⟩
    · rw [Comp.writes, k1 fuel (by omega), Res.ok_bind, k2 fuel (by omega)]
    · simpa [List.append_assoc] using g2

/-! ### Decompression -/

/-- A decompressor behind the header, in the middle of a text `T`: `c` was taken and `o` given. -/
structure Mid (h : Inflates I Enc) (z x T : List UInt8) (d : Dec I) (c o : List UInt8) : Prop where
  inv : h.Inv z x d.zs c o false
  text : c ++ d.input ++ d.is.rest = T
  agree : T <+: z ∨ z <+: T
  ret : d.ret = .ok
  header : d.useGzip = true → d.readHeader = true

/-- A decompressor that has seen the end. -/
structure Ended (h : Inflates I Enc) (z x T : List UInt8) (d : Dec I) (o : List UInt8) : Prop where
  inv : h.Inv z x d.zs z o true
  seen : z <+: T
  ret : d.ret = .streamEnd
  header : d.useGzip = true → d.readHeader = true

theorem prefix_cases {c T z : List UInt8} (hc : c <+: T) (h : T <+: z ∨ z <+: T) : c <+: z ∨ z <+: c := by
  obtain h | h := h
  · exact Or.inl (hc.trans h)
  · exact List.prefix_or_prefix_of_prefix hc h

theorem amount_pos {s : Src} {mb : Nat} (hmb : 0 < mb) (h : s.rest ≠ []) : 0 < s.amount mb := by
  have : 0 < s.rest.length := List.length_pos_iff.2 h
  rw [Src.amount]; omega

theorem fill_mid (h : Inflates I Enc) {z x T : List UInt8} {d : Dec I} {c o : List UInt8} (hm : Mid h z x T d c o)
    (hi : d.input = []) (mb : Nat) : Mid h z x T (d.fill mb) c o := by
  refine ⟨hm.inv, ?_, hm.agree, hm.ret, hm.header⟩
  have := hm.text
  rw [hi, List.append_nil] at this
  rw [Dec.fill, Src.next]
  simp only [List.append_assoc, List.take_append_drop]
  exact this

/-- One round and more: what `readSome` does in the middle. -/
theorem readLoop_mid (h : Inflates I Enc) {mb : Nat} (hmb : 0 < mb) {z x T : List UInt8} {size : Nat} (hs : 0 < size) :
    ∀ (fuel : Nat) (d : Dec I) (c o : List UInt8), d.is.rest.length + d.input.length < fuel → Mid h z x T d c o →
    (∃ out d' c', readLoop mb fuel d size = .ok (out, d') ∧ out.length ≤ size ∧
      (out ≠ [] ∧ Mid h z x T d' c' (o ++ out) ∨ Ended h z x T d' (o ++ out))) ∨
    (readLoop mb fuel d size = .throw ∧ ¬ z <+: T) := by
  intro fuel
  induction fuel with
  | zero => intro d c o hf; omega
  | succ fuel ih =>
    intro d c o hf hm
    -- after filling
    obtain ⟨d1, e1, hm1, hl1, hempty⟩ : ∃ d1, (if d.input = [] then d.fill mb else d) = d1 ∧ Mid h z x T d1 c o ∧
        d1.is.rest.length + d1.input.length < fuel + 1 ∧ (d1.input = [] → d1.is.rest = []) := by
      by_cases hi : d.input = []
      · refine ⟨d.fill mb, by rw [if_pos hi], fill_mid h hm hi mb, ?_, fun he => ?_⟩
        · rw [hi] at hf
          simp only [Dec.fill, Src.next, List.length_drop, List.length_take, List.length_nil] at hf ⊢
          have : d.is.amount mb ≤ d.is.rest.length := by rw [Src.amount]; omega
          omega
        · apply Classical.byContradiction
          intro hne
          have hr : d.is.rest ≠ [] := by
            intro e; apply hne; simp [Dec.fill, Src.next, e]
          have hp := amount_pos hmb hr
          simp only [Dec.fill, List.take_eq_nil_iff] at he
          rcases he with he | he
          · omega
          · exact hr he
      · exact ⟨d, by rw [if_neg hi], hm, hf, fun he => absurd he hi⟩
    rw [readLoop, e1]
    dsimp only
    rw [if_neg (by rw [hm1.ret]; simp)]
    have hpre : c ++ d1.input <+: T := ⟨d1.is.rest, hm1.text⟩
    obtain ⟨u1, u2, u3⟩ := h.step d1.input size hm1.inv (prefix_cases hpre hm1.agree) hs
    generalize hr : I.inflate d1.zs d1.input size = r at u1 u2 u3
    have htext : (c ++ d1.input.take r.used) ++ d1.input.drop r.used ++ d1.is.rest = T := by
      rw [List.append_assoc c, List.take_append_drop]; exact hm1.text
    obtain ⟨v1, v2, v3⟩ | ⟨v1, v2⟩ | ⟨v1, v2, v3⟩ := u3
    · rw [v1]
      simp only
      by_cases ho : r.out = []
      · rw [if_pos ho]
        have hu : 0 < r.used := v2.resolve_right (by simp [ho])
        rw [ho, List.append_nil] at v3
        exact ih { d1 with zs := r.st, input := d1.input.drop r.used, ret := .ok } _ o
          (by simp only [List.length_drop]; omega) ⟨v3, htext, hm1.agree, rfl, hm1.header⟩
      · rw [if_neg ho]
        exact Or.inl ⟨_, _, _, rfl, u2, Or.inl ⟨ho, v3, htext, hm1.agree, rfl, hm1.header⟩⟩
    · rw [v1]
      simp only
      have hz := (h.ended v2).1
      rw [hz] at v2
      exact Or.inl ⟨_, _, z, rfl, u2, Or.inr ⟨v2, ⟨_, by rw [← hz]; rw [List.append_assoc] at htext; exact htext⟩, rfl, hm1.header⟩⟩
    · rw [v1]
      simp only
      refine Or.inr ⟨trivial, fun hz => v3 ?_⟩
      have ht := hm1.text
      rw [v2, hempty v2, List.append_nil, List.append_nil] at ht
      subst ht
      have hc := (h.prefixes hm1.inv).1
      exact hc.eq_of_length (Nat.le_antisymm hc.length_le hz.length_le)

theorem readLoop_ended (h : Inflates I Enc) {mb : Nat} {z x T : List UInt8} {size fuel : Nat} (d : Dec I) (o : List UInt8)
    (he : Ended h z x T d o) : ∃ d', readLoop mb (fuel + 1) d size = .ok ([], d') ∧ Ended h z x T d' o := by
  obtain ⟨d1, e1, he1⟩ : ∃ d1, (if d.input = [] then d.fill mb else d) = d1 ∧ Ended h z x T d1 o := by
    by_cases hi : d.input = []
    · exact ⟨d.fill mb, by rw [if_pos hi], he.inv, he.seen, he.ret, he.header⟩
    · exact ⟨d, by rw [if_neg hi], he⟩
  rw [readLoop, e1]
  dsimp only
  split
  · exact ⟨d1, rfl, he1⟩
  · obtain ⟨a1, a2, a3⟩ := h.again d1.input size he1.inv
    generalize I.inflate d1.zs d1.input size = r at a1 a2 a3
    rw [a1, a2]
    exact ⟨_, rfl, a3, he1.seen, rfl, he1.header⟩

/-- All states of a decompressor on the text `T`, after `o` was given: in front of the gzip header, in the middle, at
the end. -/
inductive At (h : Inflates I Enc) (z x T : List UInt8) (d : Dec I) (o : List UInt8) : Prop where
  | front (hd : List UInt8) (inv : h.Inv z x d.zs [] [] false) (input : d.input = []) (hh : Spec.Gzip.IsHeader hd)
      (rest : d.is.rest = hd ++ T) (agree : T <+: z ∨ z <+: T) (ret : d.ret = .ok) (nothing : o = [])
      (gz : d.useGzip = true) (unread : d.readHeader = false)
  | mid (c : List UInt8) (m : Mid h z x T d c o)
  | ended (e : Ended h z x T d o)

theorem At.prefixed {h : Inflates I Enc} {z x T : List UInt8} {d : Dec I} {o : List UInt8} (ha : At h z x T d o) : o <+: x := by
  cases ha with
  | front hd inv input hh rest agree ret nothing gz unread => rw [nothing]; exact List.nil_prefix
  | mid c m => exact (h.prefixes m.inv).2
  | ended e => exact (h.prefixes e.inv).2

theorem At.empty {h : Inflates I Enc} {z x T : List UInt8} {d : Dec I} {o : List UInt8} (ha : At h z x T d o)
    (he : d.isEmpty = true) : o = x ∧ Ended h z x T d o := by
  simp only [Dec.isEmpty, decide_eq_true_eq] at he
  cases ha with
  | front hd inv input hh rest agree ret nothing gz unread => rw [ret] at he; cases he
  | mid c m => rw [m.ret] at he; cases he
  | ended e => exact ⟨(h.ended e.inv).2, e⟩

theorem at_new (h : Inflates I Enc) {z x T : List UInt8} (hz : Enc x z) (gz : Bool) (is : Src) (hd : List UInt8)
    (hhd : Spec.Gzip.IsHeader hd) (hr : is.rest = (if gz then hd else []) ++ T) (ha : T <+: z ∨ z <+: T) :
    At h z x T (Dec.new I gz is) [] := by
  cases gz with
  | true => exact .front hd (h.init hz) rfl hhd hr ha rfl rfl rfl rfl
  | false => exact .mid [] ⟨h.init hz, by simpa [Dec.new] using hr, ha, rfl, fun e => by cases e⟩

theorem readSome_at (h : Inflates I Enc) {mb : Nat} (hmb : 0 < mb) {z x T : List UInt8} {size : Nat} (hs : 0 < size)
    (hs2 : size < 2 ^ 31) (d : Dec I) (o : List UInt8) (ha : At h z x T d o) :
    (∃ out d', d.readSome mb size = .ok (out, d') ∧ out.length ≤ size ∧ At h z x T d' (o ++ out) ∧
      (out = [] → d'.isEmpty = true)) ∨
    (d.readSome mb size = .throw ∧ ¬ z <+: T ∧ d.isEmpty = false) := by
  have middle : ∀ (d : Dec I) (c : List UInt8), Mid h z x T d c o →
      (∃ out d', readLoop mb (d.is.rest.length + d.input.length + 2) d size = .ok (out, d') ∧ out.length ≤ size ∧
        At h z x T d' (o ++ out) ∧ (out = [] → d'.isEmpty = true)) ∨
      (readLoop mb (d.is.rest.length + d.input.length + 2) d size = .throw ∧ ¬ z <+: T) := by
    intro d c hm
    obtain ⟨out, d', c', e, hl, hc⟩ | ht := readLoop_mid h hmb hs (d.is.rest.length + d.input.length + 2) d c o (by omega) hm
    · refine Or.inl ⟨out, d', e, hl, ?_, ?_⟩
      · obtain ⟨_, hm'⟩ | he := hc
        · exact .mid c' hm'
        · exact .ended he
      · intro e0
        obtain ⟨hne, _⟩ | he := hc
        · exact absurd e0 hne
        · simp [Dec.isEmpty, he.ret]
    · exact Or.inr ht
  rw [Dec.readSome, if_neg (by omega)]
  cases ha with
  | front hd inv input hh rest agree ret nothing gz unread =>
    obtain ⟨k, s', e, hk, er⟩ | ⟨_, hn⟩ := Gzip.header_parses d.is
    · rw [rest] at e
      obtain rfl := Gzip.header_prefixFree _ _ _ _ hh hk e
      have e' := List.append_cancel_left e
      rw [if_pos ⟨gz, by simp [unread]⟩, er, Res.ok_bind, Res.pure_eq, Res.ok_bind]
      obtain hA | hB := middle { d with is := s', readHeader := true } []
        ⟨by rw [nothing]; exact inv, by simp [input, e'], agree, ret, fun _ => rfl⟩
      · exact Or.inl hA
      · exact Or.inr ⟨hB.1, hB.2, by simp [Dec.isEmpty, ret]⟩
    · exact absurd hh (hn hd T rest)
  | mid c m =>
    rw [if_neg (fun hc => hc.2 (m.header hc.1)), Res.pure_eq, Res.ok_bind]
    obtain hA | hB := middle d c m
    · exact Or.inl hA
    · exact Or.inr ⟨hB.1, hB.2, by simp [Dec.isEmpty, m.ret]⟩
  | ended e =>
    rw [if_neg (fun hc => hc.2 (e.header hc.1)), Res.pure_eq, Res.ok_bind]
    obtain ⟨d', e1, e2⟩ := readLoop_ended (mb := mb) (size := size) (fuel := d.is.rest.length + d.input.length + 1) h d o e
    exact Or.inl ⟨[], d', e1, Nat.zero_le _, by rw [List.append_nil]; exact .ended e2, fun _ => by simp [Dec.isEmpty, e2.ret]⟩

theorem reads_at (h : Inflates I Enc) {mb : Nat} (hmb : 0 < mb) {z x T : List UInt8} (ns : List Nat) :
    (∀ n ∈ ns, 0 < n ∧ n < 2 ^ 31) → ∀ (d : Dec I) (o : List UInt8), At h z x T d o →
    (∃ outs d', d.reads mb ns = .ok (outs, d') ∧ At h z x T d' (o ++ outs.flatten) ∧
      (outs.length = ns.length ∧ ∀ (k : Nat) (out : List UInt8) (n : Nat), outs[k]? = some out → ns[k]? = some n → out.length ≤ n) ∧
      ([] ∈ outs → d'.isEmpty = true) ∧ (d.isEmpty = true → d'.isEmpty = true) ∧
      ∀ k, outs[k]? = some [] → o ++ (outs.take k).flatten = x) ∨
    (d.reads mb ns = .throw ∧ ¬ z <+: T) := by
  induction ns with
  | nil =>
    intro _ d o ha
    exact Or.inl ⟨[], d, rfl, by simpa using ha, by simp, by simp, fun e => e, by simp⟩
  | cons n ns ih =>
    intro hn d o ha
    rw [Dec.reads]
    have h1 := hn n (by simp)
    obtain ⟨out, d1, e1, l1, a1, m1⟩ | ⟨e1, p1, p2⟩ := readSome_at h hmb h1.1 h1.2 d o ha
    · rw [e1, Res.ok_bind]
      simp only
      obtain ⟨outs, d2, e2, a2, l2, m2, m3, m4⟩ | ⟨e2, p2⟩ := ih (fun n' h' => hn n' (by simp [h'])) d1 _ a1
      · rw [e2, Res.ok_bind]
        refine Or.inl ⟨out :: outs, d2, rfl, ?_, ⟨by simp [l2.1], ?_⟩, ?_, ?_, ?_⟩
        · simpa [List.append_assoc] using a2
        · intro k o' n' h1 h2
          cases k with
          | zero => simp at h1 h2; rw [← h1, ← h2]; exact l1
          | succ k => simp at h1 h2; exact l2.2 k o' n' h1 h2
        · intro hm
          rcases List.mem_cons.1 hm with hm | hm
          · exact m3 (m1 hm.symm)
          · exact m2 hm
        · intro he
          obtain ⟨ho, hE⟩ := ha.empty he
          obtain ⟨r, hr⟩ := a1.prefixed
          rw [ho] at hr
          have : out = [] := by
            have := congrArg List.length hr
            simp at this
            exact this.1
          exact m3 (m1 this)
        · intro k hk
          cases k with
          | zero =>
            simp only [List.getElem?_cons_zero, Option.some.injEq] at hk
            rw [hk] at a1 m1
            have := (a1.empty (m1 rfl)).1
            simpa using this
          | succ k =>
            simp only [List.getElem?_cons_succ] at hk
            have := m4 k hk
            simpa [List.append_assoc] using this
      · rw [e2]; exact Or.inr ⟨rfl, p2⟩
    · rw [e1]; exact Or.inr ⟨rfl, p1⟩

theorem readAllLoop_at (h : Inflates I Enc) {mb : Nat} (hmb : 0 < mb) {z x T : List UInt8} : ∀ (fuel size : Nat),
    size ≤ fuel → size < 2 ^ 31 → ∀ (d : Dec I) (o : List UInt8), At h z x T d o →
    (∃ d', readAllLoop mb fuel d size = .ok ((x.drop o.length).take size, d') ∧ o.length + size ≤ x.length ∧
      At h z x T d' (o ++ (x.drop o.length).take size)) ∨
    (readAllLoop mb fuel d size = .throw ∧ (x.length < o.length + size ∨ ¬ z <+: T)) := by
  intro fuel
  induction fuel with
  | zero =>
    intro size hs _ d o ha
    obtain rfl : size = 0 := by omega
    refine Or.inl ⟨d, by simp [readAllLoop], ?_, by simpa using ha⟩
    have := ha.prefixed.length_le
    omega
  | succ fuel ih =>
    intro size hs hs2 d o ha
    cases size with
    | zero =>
      refine Or.inl ⟨d, by simp [readAllLoop], ?_, by simpa using ha⟩
      have := ha.prefixed.length_le
      omega
    | succ size =>
      rw [readAllLoop]
      obtain ⟨out, d1, e1, l1, a1, m1⟩ | ⟨e1, p1, p2⟩ := readSome_at h hmb (Nat.succ_pos size) hs2 d o ha
      · rw [e1, Res.ok_bind]
        simp only
        by_cases h0 : out = []
        · rw [if_pos h0]
          refine Or.inr ⟨rfl, Or.inl ?_⟩
          have := (a1.empty (m1 h0)).1
          rw [h0, List.append_nil] at this
          rw [this]; omega
        · rw [if_neg h0]
          have hp : 0 < out.length := List.length_pos_iff.2 h0
          obtain ⟨t, ht⟩ := a1.prefixed
          obtain ⟨d2, e2, l2, a2⟩ | ⟨e2, p2⟩ := ih (size + 1 - out.length) (by omega) (by omega) d1 _ a1
          · rw [e2, Res.ok_bind]
            have hx : (x.drop o.length).take (size + 1) = out ++ (x.drop (o ++ out).length).take (size + 1 - out.length) := by
              rw [← ht, List.drop_append_of_le_length (Nat.le_refl _), List.drop_length, List.nil_append]
              rw [List.append_assoc, List.drop_append_of_le_length (Nat.le_refl _), List.drop_length, List.nil_append,
                List.take_append, List.take_of_length_le l1]
            refine Or.inl ⟨d2, by rw [hx]; rfl, ?_, by rw [hx, ← List.append_assoc]; exact a2⟩
            rw [List.length_append] at l2
            omega
          · rw [e2]
            refine Or.inr ⟨rfl, p2.imp (fun hl => ?_) id⟩
            rw [List.length_append] at hl
            omega
      · rw [e1]
        exact Or.inr ⟨rfl, Or.inr p1⟩

end Verif.Zlib
