import Verif.Proof.ConfigPtr
set_option linter.unusedSimpArgs false

/-!
# C153: pointers and references into a configuration
-/
namespace Verif.Props.ConfigPtr
open Verif.Config Verif.ConfigPtr

theorem section_mem {s : St} {n : Str} {p : Nat} (h : ConfigPtr.querySection s n = some p) : ∃ sec, (n, sec) ∈ s.secs ∧ sec.id = p := by
  rw [ConfigPtr.querySection, Option.map_eq_some_iff] at h
  obtain ⟨sec, h1, h2⟩ := h
  exact ⟨sec, mapFind_mem h1, h2⟩

theorem value_mem {s : St} (hi : Inv s) {n : Str} {sec : Sec} (h : (n, sec) ∈ s.secs) (key : Str) :
    ConfigPtr.queryValue s sec.id key = .ok ((mapFind sec.ents key).map (·.id)) := by
  rw [ConfigPtr.queryValue, sec?_of_mem hi h]

/-- C153.  The addresses change nothing about what the functions do: creating a section, appending through an address, replacing a section
and loading a file give the configuration of C25, C26 and C97, and throw when that does. -/
theorem C153_same (os : List Op) (s : St) (h : run St.new os = .ok s) :
    (∀ n, Config.appendSection (forget s) n = match ConfigPtr.appendSection s n with | none => .throw | some (t, _) => .ok (forget t)) ∧
    (∀ n p key value, ConfigPtr.querySection s n = some p → appendTo (forget s) n key value = (ConfigPtr.append s p key value).bind fun t => .ok (forget t)) ∧
    (∀ n sec, appendSection2 (forget s) n sec = match replace s n sec with | none => .throw | some t => .ok (forget t)) ∧
    (∀ text, ∃ b t, ConfigPtr.load s text = .ok (b, t) ∧ Config.load (forget s) text = if b then .throw else .ok (forget t)) ∧
    (∀ n, (ConfigPtr.querySection s n).isSome = (Config.querySection (forget s) n).isSome) ∧
    (∀ n p key, ConfigPtr.querySection s n = some p → ∃ sec, Config.querySection (forget s) n = some sec ∧
      ∃ e, ConfigPtr.queryValue s p key = .ok e ∧ (sec.queryValue key = none ↔ e = none) ∧ ∀ a ∈ e, ∃ v, s.deref a = .ok v ∧ sec.queryValue key = some v) := by
  obtain ⟨hi, _⟩ := run_inv os inv_new h
  refine ⟨appendSection_forget s, ?_, ?_, load_forget hi, ?_, ?_⟩
  · intro n p key value hp
    obtain ⟨sec, hm, rfl⟩ := section_mem hp
    exact append_forget hi hm key value
  · intro n sec
    rw [appendSection2, replace, appendSection_forget]
    cases ha : ConfigPtr.appendSection s n with
    | none => rfl
    | some r =>
      obtain ⟨t, p⟩ := r
      obtain ⟨h1, _, ⟨sc, h3, rfl⟩, _⟩ := appendSection_inv (N := fun _ => False) hi ha
      show Res.ok _ = Res.ok _
      rw [forget_setEnts h1 h3]
      have : ∀ m, (copies m sec).map (fun a => (a.1, a.2.val)) = sec := by
        induction sec with
        | nil => intro m; rfl
        | cons x l ih => intro m; rw [copies, List.map_cons, ih]
      rw [this]
  · intro n
    rw [ConfigPtr.querySection, Config.querySection, forget, mapFind_map texts]
    simp
  · intro n p key hp
    obtain ⟨sec, hm, rfl⟩ := section_mem hp
    refine ⟨texts sec, ?_, _, value_mem hi hm key, ?_, ?_⟩
    · rw [Config.querySection, forget, mapFind_map texts, mapFind_of_mem hi hm]; rfl
    · rw [Section.queryValue, texts, mapFind_map Ent.val]
      simp
    · intro a ha
      rw [Option.mem_def, Option.map_eq_some_iff] at ha
      obtain ⟨x, h1, rfl⟩ := ha
      refine ⟨x.val, deref_of_mem hi hm (mapFind_mem h1), ?_⟩
      rw [Section.queryValue, texts, mapFind_map Ent.val, h1]
      rfl

/-- C153.  The address of a section stays the address of the section of that name, whatever is created, appended, replaced or loaded
afterwards, also if exceptions are thrown meanwhile. -/
theorem C153_section (os : List Op) (s : St) (h : run St.new os = .ok s) (n : Str) (p : Nat) (hp : ConfigPtr.querySection s n = some p)
    (os' : List Op) (t : St) (ht : run s os' = .ok t) : ConfigPtr.querySection t n = some p := by
  obtain ⟨hi, _⟩ := run_inv os inv_new h
  obtain ⟨hj, he⟩ := run_inv os' hi ht
  obtain ⟨sec, hm, rfl⟩ := section_mem hp
  obtain ⟨y, y1, y2, y3, _⟩ := he _ hm
  have hy : (n, y.2) ∈ t.secs := by rw [← show y.1 = n from y2]; exact y1
  rw [ConfigPtr.querySection, mapFind_of_mem hj hy, Option.map_some, y3]

/-- C153.  The address of a value stays valid and the text there stays the same, whatever happens, unless the section is replaced by
`appendSection(name, section)`. -/
theorem C153_value (os : List Op) (s : St) (h : run St.new os = .ok s) (n : Str) (p : Nat) (hp : ConfigPtr.querySection s n = some p)
    (key : Str) (e : Nat) (he : ConfigPtr.queryValue s p key = .ok (some e))
    (os' : List Op) (t : St) (ht : run s os' = .ok t) (hr : ∀ sec, Op.replace n sec ∉ os') :
    ConfigPtr.queryValue t p key = .ok (some e) ∧ t.deref e = s.deref e ∧ ∃ v, s.deref e = .ok v := by
  obtain ⟨hi, _⟩ := run_inv os inv_new h
  obtain ⟨hj, hx⟩ := run_inv os' hi ht
  obtain ⟨sec, hm, rfl⟩ := section_mem hp
  rw [value_mem hi hm, Res.ok.injEq, Option.map_eq_some_iff] at he
  obtain ⟨a, ha, rfl⟩ := he
  obtain ⟨y, y1, y2, y3, y4⟩ := hx _ hm
  have hy : (n, y.2) ∈ t.secs := by rw [← show y.1 = n from y2]; exact y1
  have hf := y4 (by rintro ⟨sc, hc⟩; exact hr sc hc) key a ha
  have d1 := deref_of_mem hi hm (mapFind_mem ha)
  have d2 := deref_of_mem hj y1 (mapFind_mem hf)
  refine ⟨?_, by rw [d1]; exact d2, a.val, d1⟩
  have := value_mem hj hy key
  rw [show y.2.id = sec.id from y3] at this
  rw [this, hf]
  rfl

/-- C153.  The only operation that can be undefined is appending through an address that no section has. -/
theorem C153_undefined (os : List Op) (s : St) (h : run St.new os = .ok s) (o : Op) :
    step s o = .ub ↔ ∃ p key value, o = .append p key value ∧ ∀ n, ConfigPtr.querySection s n ≠ some p := by
  obtain ⟨hi, _⟩ := run_inv os inv_new h
  cases o with
  | newSection name => simp [step]
  | replace name sec => simp [step]
  | load text =>
    obtain ⟨b, t, e, _⟩ := load_forget hi text
    rw [step, e]
    simp
  | append p key value =>
    have hu : ConfigPtr.append s p key value = .ub ↔ s.sec? p = none := by
      rw [ConfigPtr.append]
      cases s.sec? p with
      | none => simp
      | some sec =>
        simp only
        split
        · simp
        split <;> simp
    have hq : s.sec? p = none ↔ ∀ n, ConfigPtr.querySection s n ≠ some p := by
      constructor
      · intro hn n hp
        obtain ⟨sec, hm, rfl⟩ := section_mem hp
        rw [sec?_of_mem hi hm] at hn
        cases hn
      · intro hn
        cases hs : s.sec? p with
        | none => rfl
        | some sec =>
          obtain ⟨h1, n, hm⟩ := sec?_mem hs
          exact absurd (by rw [ConfigPtr.querySection, mapFind_of_mem hi hm, Option.map_some, h1]) (hn n)
    rw [← hu] at hq
    simp only [step]
    constructor
    · intro hs
      refine ⟨p, key, value, rfl, hq.1 ?_⟩
      revert hs
      cases ConfigPtr.append s p key value <;> simp
    · rintro ⟨p', k', v', e, hn⟩
      cases e
      rw [hq.2 hn]

/-- C153.  The result of `getValue(key)`, kept and converted later while the string given as `key` still exists: the number or the text that
was there when it was asked for; a text that is not a number is an exception. -/
theorem C153_kept (os : List Op) (s : St) (h : run St.new os = .ok s) (n : Str) (p : Nat) (hp : ConfigPtr.querySection s n = some p)
    (sec : Section) (hs : Config.querySection (forget s) n = some sec) (key : Str)
    (os' : List Op) (t : St) (ht : run s os' = .ok t) (hr : ∀ sec, Op.replace n sec ∉ os') :
    (∀ v, sec.queryValue key = some v → ∃ r, ConfigPtr.getValue s p key true = .ok r ∧ r.text t = .ok v ∧
      (∀ ty, r.getS ty t = getSigned ty v) ∧ ∀ ty, r.getU ty t = getUnsigned ty v) ∧
    (sec.queryValue key = none → ConfigPtr.getValue s p key true = .throw) := by
  obtain ⟨_, _, _, _, _, h6⟩ := C153_same os s h
  obtain ⟨sec', g1, e, g2, g3, g4⟩ := h6 n p key hp
  rw [hs] at g1
  cases g1
  constructor
  · intro v hv
    cases e with
    | none => rw [g3.2 rfl] at hv; cases hv
    | some a =>
      obtain ⟨v', d1, d2⟩ := g4 a rfl
      rw [hv] at d2
      cases d2
      obtain ⟨_, k2, _⟩ := C153_value os s h n p hp key a g2 os' t ht hr
      rw [d1] at k2
      refine ⟨⟨a, true⟩, by rw [ConfigPtr.getValue, g2]; rfl, k2, ?_, ?_⟩
      · intro ty
        rw [ResultType.getS, getSigned]
        simp only [k2, Res.ok_bind]
        rfl
      · intro ty
        rw [ResultType.getU, getUnsigned]
        simp only [k2, Res.ok_bind]
        rfl
  · intro hn
    rw [ConfigPtr.getValue, g2, g3.1 hn]
    rfl

/-- C153.  The reference returned by `getValue(key, defaultValue)`, used later while the string given as `defaultValue` still exists. -/
theorem C153_default (os : List Op) (s : St) (h : run St.new os = .ok s) (n : Str) (p : Nat) (hp : ConfigPtr.querySection s n = some p)
    (sec : Section) (hs : Config.querySection (forget s) n = some sec) (key dflt : Str)
    (os' : List Op) (t : St) (ht : run s os' = .ok t) (hr : ∀ sec, Op.replace n sec ∉ os') :
    ∃ r, getValueRef s p key = .ok r ∧ r.text t (some dflt) = .ok (sec.getValueDefStr key dflt) := by
  obtain ⟨_, _, _, _, _, h6⟩ := C153_same os s h
  obtain ⟨sec', g1, e, g2, g3, g4⟩ := h6 n p key hp
  rw [hs] at g1
  cases g1
  cases e with
  | none => exact ⟨.dflt, by rw [getValueRef, g2]; rfl, by rw [Section.getValueDefStr, g3.2 rfl]; rfl⟩
  | some a =>
    obtain ⟨v', d1, d2⟩ := g4 a rfl
    obtain ⟨_, k2, _⟩ := C153_value os s h n p hp key a g2 os' t ht hr
    rw [d1] at k2
    exact ⟨.ent a, by rw [getValueRef, g2]; rfl, by rw [Section.getValueDefStr, d2]; exact k2⟩

/-- Finding for C153.  A result of `getValue("..")` that is kept (`auto r = ..`) refers to a key that is gone when it is converted.  A
number is still right, but a text that is not a number is undefined behaviour instead of an exception. -/
theorem C153_finding_key_gone (ty : Atoi.SInt) (s : St) (r : ResultType) (hr : r.keyAlive = false) (v : Str) (hv : s.deref r.str = .ok v) (x : Option Int)
    (hx : Atoi.atoiS ty true v = .ok x) : r.getS ty s = match x with | some i => .ok i | none => .ub := by
  rw [ResultType.getS]
  simp only [hv, Res.ok_bind, hx]
  cases x with
  | none => simp [hr]
  | some i => rfl

/-- Finding for C153.  The reference returned by `getValue(key, "..")`, kept after the statement, is dangling exactly if the key is missing. -/
theorem C153_finding_default_gone (os : List Op) (s : St) (h : run St.new os = .ok s) (n : Str) (p : Nat) (hp : ConfigPtr.querySection s n = some p)
    (sec : Section) (hs : Config.querySection (forget s) n = some sec) (key : Str) :
    ∃ r, getValueRef s p key = .ok r ∧ r.text s none = match sec.queryValue key with | some v => .ok v | none => .ub := by
  obtain ⟨_, _, _, _, _, h6⟩ := C153_same os s h
  obtain ⟨sec', g1, e, g2, g3, g4⟩ := h6 n p key hp
  rw [hs] at g1
  cases g1
  cases e with
  | none => exact ⟨.dflt, by rw [getValueRef, g2]; rfl, by rw [g3.2 rfl]; rfl⟩
  | some a =>
    obtain ⟨v', d1, d2⟩ := g4 a rfl
    exact ⟨.ent a, by rw [getValueRef, g2]; rfl, by rw [d2]; exact d1⟩

/-- Finding for C153.  `appendSection(name, section)` on a section that exists makes all addresses of its values dangling, even if the values
are the same. -/
theorem C153_finding_replaced :
    ((run St.new [.newSection [97], .append 0 [107] [49]]).bind fun s => s.deref 1) = .ok [49] ∧
    ((run St.new [.newSection [97], .append 0 [107] [49], .replace [97] [([107], [49])]]).bind fun s => s.deref 1) = .ub := by
  decide +kernel

/-! Concrete cases. -/

/-- A section `a` with `k=1`, then a file that fails in its last line. -/
example : ((run St.new [.newSection [97], .append 0 [107] [49], .load [91, 97, 93, 10, 109, 61, 50, 10, 122]]).bind fun s => .ok (forget s)) =
    .ok [([], []), ([97], [([107], [49]), ([109], [50])])] := by decide +kernel
example : ((run St.new [.newSection [97], .append 0 [107] [49], .load [91, 97, 93, 10, 109, 61, 50, 10, 122]]).bind fun s => s.deref 1) = .ok [49] := by decide +kernel
example : ∃ s, run St.new [.newSection [97], .append 0 [107] [49]] = .ok s ∧ ConfigPtr.querySection s [97] = some 0 ∧ ConfigPtr.queryValue s 0 [107] = .ok (some 1) ∧
    Config.querySection (forget s) [97] = some [([107], [49])] ∧ ∃ t, run s [.load [91, 98, 93, 10]] = .ok t :=
  ⟨_, rfl, by decide, by decide, by decide, _, rfl⟩
/-- `k=x` asked for as an `int` with a key that is gone. -/
example : ∃ s, run St.new [.newSection [97], .append 0 [107] [120]] = .ok s ∧ s.deref 1 = .ok [120] ∧ Atoi.atoiS Atoi.sint32 true [120] = .ok none ∧
    ResultType.getS Atoi.sint32 s ⟨1, false⟩ = .ub ∧ ResultType.getS Atoi.sint32 s ⟨1, true⟩ = .throw :=
  ⟨_, rfl, by decide, by decide +kernel, by decide +kernel, by decide +kernel⟩

end Verif.Props.ConfigPtr

#print axioms Verif.Props.ConfigPtr.C153_same
#print axioms Verif.Props.ConfigPtr.C153_section
#print axioms Verif.Props.ConfigPtr.C153_value
#print axioms Verif.Props.ConfigPtr.C153_undefined
#print axioms Verif.Props.ConfigPtr.C153_kept
#print axioms Verif.Props.ConfigPtr.C153_default
#print axioms Verif.Props.ConfigPtr.C153_finding_key_gone
#print axioms Verif.Props.ConfigPtr.C153_finding_default_gone
#print axioms Verif.Props.ConfigPtr.C153_finding_replaced
