import Verif.Spec.ZlibSmpl
import Verif.Proof.Option
set_option linter.unusedSimpArgs false

/-! # C114: compressing a file in one call -/
namespace Verif.Props.ZlibSmpl
open Verif Verif.ZlibSmpl Verif.Spec.ZlibSmpl Verif.Opt
open Verif.Spec.Opt (OptText)

variable {z : Zip} {Enc : Bytes → Bytes → Prop}

/-- A parameter of the program. -/
def par (s : _root_.Option Bytes) (name : Bytes) : Info Val :=
  { var := { st := .text (s.getD []), isSet := s.isSome, step := setText }, mode := .is1, isMust := true, opt := name }

/-- The option object after `-d` was seen or not, and with the parameters seen. -/
def obj (b : Bool) (ps : List Bytes) (n : Int) : Opt.Option Val :=
  { infoVec := [{ var := { st := .flag b, isSet := b, step := setFlag }, mode := .is0, isMust := false, opt := [100] }]
    paramVec := [par ps[0]? [105], par ps[1]? [111]]
    remains := none, optMap := [([100], 0)], paramMode := .exact, helpOpt := [104], delimiters := [], remainsAfter := none
    nextDelimiter := n }

theorem regs_obj : Option.new.regs regs = .ok (obj false [] (-1)) := rfl

theorem step_flag (fuel : Nat) (b : Bool) (ps : List Bytes) (n : Int) (pos : Nat) (rest : List Bytes) :
    argLoop (fuel + 1) (obj b ps n) pos ([45, 100] :: rest) = argLoop fuel (obj true ps n) (pos + 1) rest := rfl

theorem step_param (fuel : Nat) (b : Bool) (ps : List Bytes) (n : Int) (pos : Nat) (a : Bytes) (rest : List Bytes)
    (ha : isOpt a = false) (hp : ps.length < 2) :
    argLoop (fuel + 1) (obj b ps n) pos (a :: rest) = argLoop fuel (obj b (ps ++ [a]) n) (pos + 1) rest := by
  rw [argLoop, if_neg (by simp [obj]), ha, if_neg (by simp)]
  match ps, hp with
  | [], _ => rfl
  | [p], _ => rfl

theorem step_many (fuel : Nat) (b : Bool) (p q : Bytes) (n : Int) (pos : Nat) (a : Bytes) (rest : List Bytes)
    (ha : isOpt a = false) : argLoop (fuel + 1) (obj b [p, q] n) pos (a :: rest) = .ok (.err, obj b [p, q] n) := by
  rw [argLoop, if_neg (by simp [obj]), ha, if_neg (by simp)]
  rfl

theorem step_bad (fuel : Nat) (b : Bool) (ps : List Bytes) (n : Int) (pos : Nat) (a : Bytes) (rest : List Bytes)
    (ha : isOpt a = true) (h : a ≠ [45, 100]) : ∃ e, e ≠ End.fin ∧ argLoop (fuel + 1) (obj b ps n) pos (a :: rest) = .ok (e, obj b ps n) := by
  rw [argLoop, if_neg (by simp [obj]), ha, if_pos rfl]
  obtain ⟨t, rfl, _⟩ := (isOpt_iff a).mp ha
  have ht : t ≠ [100] := fun e => h (by rw [e])
  by_cases hh : [104] = t
  · exact ⟨.exit, by simp, by simp [obj, hh]⟩
  · refine ⟨.err, by simp, ?_⟩
    have hf : Config.mapFind (obj b ps n).optMap t = none := by
      simp [obj, Config.mapFind, Ne.symm ht]
    simp only [List.drop_one, List.tail_cons, hf]
    rw [if_neg (by simpa [obj] using hh)]

theorem loop_spec (n : Int) : ∀ (args : List Bytes) (fuel pos : Nat) (b : Bool) (ps : List Bytes), args.length < fuel → ps.length ≤ 2 →
    (((∀ a ∈ args, a = [45, 100] ∨ ¬ OptText a) ∧ (ps ++ args.filter (fun a => decide (a ≠ [45, 100]))).length ≤ 2) →
      argLoop fuel (obj b ps n) pos args =
        .ok (.fin, obj (b || decide ([45, 100] ∈ args)) (ps ++ args.filter (fun a => decide (a ≠ [45, 100]))) n)) ∧
    (¬ ((∀ a ∈ args, a = [45, 100] ∨ ¬ OptText a) ∧ (ps ++ args.filter (fun a => decide (a ≠ [45, 100]))).length ≤ 2) →
      ∃ e o, e ≠ End.fin ∧ argLoop fuel (obj b ps n) pos args = .ok (e, o))
  | [], fuel, pos, b, ps, hf, hp => by
    obtain ⟨fuel, rfl⟩ : ∃ k, fuel = k + 1 := ⟨fuel - 1, by simp at hf; omega⟩
    simp [argLoop, hp]
  | a :: rest, fuel, pos, b, ps, hf, hp => by
    obtain ⟨fuel, rfl⟩ : ∃ k, fuel = k + 1 := ⟨fuel - 1, by simp at hf; omega⟩
    have hf' : rest.length < fuel := by simpa using hf
    by_cases hd : a = [45, 100]
    · subst hd
      rw [step_flag]
      have ih := loop_spec n rest fuel (pos + 1) true ps hf' hp
      simpa using ih
    · cases ho : isOpt a with
      | true =>
        obtain ⟨e, h1, h2⟩ := step_bad fuel b ps n pos a rest ho hd
        refine ⟨fun h => ?_, fun _ => ⟨e, _, h1, h2⟩⟩
        have := h.1 a (by simp)
        rcases this with w | w
        · exact absurd w hd
        · exact absurd ((isOpt_iff a).mp ho) w
      | false =>
        have hno : ¬ OptText a := fun w => by rw [(isOpt_iff a).mpr w] at ho; cases ho
        by_cases h2 : ps.length < 2
        · rw [step_param _ _ _ _ _ _ _ ho h2]
          have ih := loop_spec n rest fuel (pos + 1) b (ps ++ [a]) hf' (by simp; omega)
          simpa [hd, hno, Ne.symm hd, List.append_assoc] using ih
        · match ps, hp, h2 with
          | [p, q], _, _ =>
            rw [step_many _ _ _ _ _ _ _ _ ho]
            refine ⟨fun h => ?_, fun _ => ⟨.err, _, by simp, rfl⟩⟩
            have := h.2
            rw [List.filter_cons_of_pos (by simpa using hd)] at this
            simp at this
          | [], _, h => simp at h
          | [_], _, h => simp at h
          | _ :: _ :: _ :: _, h, _ => simp at h

theorem main_eq (w : World) (prog : Bytes) (args : List Bytes) : 
    (∀ d i o, Names args d i o → main z w (prog :: args) = .ok (work z w d i o)) ∧
    ((∀ d i o, ¬ Names args d i o) → main z w (prog :: args) = .ok ⟨0, none⟩) := by
  have hl := loop_spec (args.length + 1 : Nat) args (args.length + 2) 1 false [] (by omega) (by simp)
  simp only [List.nil_append, Bool.false_or] at hl
  have hp : ∀ e o, argLoop (args.length + 2) (obj false [] (args.length + 1 : Nat)) 1 args = .ok (e, o) →
      main z w (prog :: args) = (match e with
        | .exit => afterParse z w none o
        | .err => afterParse z w (some false) o
        | .fin => afterParse z w (some (checks o)) o) := by
    intro e o he
    rw [main, regs_obj, Res.ok_bind, Opt.Option.parse, if_neg (by simp), if_neg (by simp)]
    have : ({ obj false [] (-1) with nextDelimiter := ((prog :: args).length : Int) } : Opt.Option Val) = obj false [] (args.length + 1 : Nat) := rfl
    rw [this]
    simp only [List.length_cons, List.drop_one, List.tail_cons, he, Res.ok_bind]
    cases e <;> rfl
  constructor
  · intro d i o h
    rw [hp _ _ (hl.1 ⟨h.opts, by rw [h.files]; simp⟩), h.files, ← h.flag]
    rfl
  · intro h
    by_cases hc : (∀ a ∈ args, a = [45, 100] ∨ ¬ OptText a) ∧ (args.filter (fun a => decide (a ≠ [45, 100]))).length ≤ 2
    · rw [hp _ _ (hl.1 hc)]
      have hne : ∀ i o, args.filter (fun a => decide (a ≠ [45, 100])) ≠ [i, o] := fun i o e => h _ i o ⟨hc.1, e, rfl⟩
      have hlen := hc.2
      generalize args.filter (fun a => decide (a ≠ [45, 100])) = ps at hne hlen
      match ps, hne, hlen with
      | [], _, _ => rfl
      | [p], _, _ => rfl
      | [p, q], h, _ => exact absurd rfl (h p q)
      | _ :: _ :: _ :: _, _, h => simp at h
    · obtain ⟨e, o, h1, h2⟩ := hl.2 hc
      rw [hp _ _ h2]
      cases e with
      | fin => exact absurd rfl h1
      | err => rfl
      | exit => rfl

/-! ## A small codec that keeps the promises: runs of one byte -/

/-- `[k, b]` is `k` times `b`. -/
def RunEnc (x s : Bytes) : Prop := ∃ (k b : UInt8), 0 < k.toNat ∧ s = [k, b] ∧ x = List.replicate k.toNat b

/-- The codec of runs. -/
def runZip : Zip where
  compress2 x n :=
    match x with
    | [] => .bufError
    | b :: _ => if x = List.replicate (UInt8.ofNat x.length).toNat b ∧ 2 ≤ n then .ok [UInt8.ofNat x.length, b] else .bufError
  uncompress s n :=
    match s with
    | k :: b :: _ => if k.toNat = 0 then .error else if k.toNat ≤ n then .ok (List.replicate k.toNat b) else .bufError
    | _ => .error

theorem runZip_codec : Codec runZip RunEnc where
  compress := by
    intro x n out h
    match x with
    | [] => simp [runZip] at h
    | b :: t =>
      simp only [runZip] at h
      split at h
      · rename_i hx
        cases h
        refine ⟨⟨_, b, ?_, rfl, hx.1⟩, hx.2⟩
        have := congrArg List.length hx.1
        rw [List.length_replicate] at this
        rw [← this]
        simp
      · cases h
  uncompress := by
    rintro x s tail n ⟨k, b, hk, rfl, rfl⟩ hn
    rw [List.length_replicate] at hn
    simp only [runZip, List.cons_append, List.nil_append]
    rw [if_neg (by omega), if_pos hn]
  small := by
    rintro x s tail n ⟨k, b, hk, rfl, rfl⟩ hn out
    rw [List.length_replicate] at hn
    simp only [runZip, List.cons_append, List.nil_append]
    rw [if_neg (by omega), if_neg (by omega)]
    simp
  corrupt := by
    intro s n out h
    match s with
    | [] => simp [runZip] at h
    | [_] => simp [runZip] at h
    | k :: b :: t =>
      simp only [runZip] at h
      split at h
      · cases h
      · rename_i hk
        split at h
        · cases h
          exact ⟨[k, b], t, rfl, k, b, by omega, rfl, rfl⟩
        · cases h

/-! ## The two calls -/

/-- `ZlibCompress` answers 0 bytes, throws, or leaves a stream of the input that fits; and `ZlibUncompress` with enough room gives
the input back, also with more bytes behind the stream. -/
theorem C114_calls (hc : Codec z Enc) (x : Bytes) (n : Nat) :
    zlibCompress z n x = .throw ∨ zlibCompress z n x = .ok [] ∨
    ∃ out, zlibCompress z n x = .ok out ∧ Enc x out ∧ out.length ≤ n ∧
      ∀ tail m, x.length ≤ m → zlibUncompress z m (out ++ tail) = .ok x := by
  cases h : z.compress2 x n with
  | bufError => exact .inr (.inl (by simp [zlibCompress, h]))
  | error => exact .inl (by simp [zlibCompress, h])
  | ok out =>
    obtain ⟨h1, h2⟩ := hc.compress _ _ _ h
    exact .inr (.inr ⟨out, by simp [zlibCompress, h], h1, h2, fun tail m hm => by
      simp [zlibUncompress, hc.uncompress x out tail m h1 hm]⟩)

example : zlibCompress runZip 5 [7, 7, 7] = .ok [3, 7] ∧ zlibUncompress runZip 3 [3, 7, 9] = .ok [7, 7, 7] := by decide +kernel
example : zlibCompress runZip 1 [7, 7, 7] = .ok [] := by decide +kernel

/-- `ZlibUncompress` never gives anything but what a stream at the front of the input stands for, and only if it fits. -/
theorem C114_uncompress_call (hc : Codec z Enc) (s : Bytes) (n : Nat) (x : Bytes) :
    zlibUncompress z n s = .ok x ↔ x.length ≤ n ∧ ∃ a tail, s = a ++ tail ∧ Enc x a := by
  constructor
  · intro h
    have hu : z.uncompress s n = .ok x := by
      unfold zlibUncompress at h
      split at h
      · rename_i o e; cases h; exact e
      · cases h
    obtain ⟨a, tail, rfl, he⟩ := hc.corrupt _ _ _ hu
    refine ⟨?_, a, tail, rfl, he⟩
    by_cases hn : x.length ≤ n
    · exact hn
    · exact absurd hu (hc.small x a tail n he (by omega) x)
  · rintro ⟨hn, a, tail, rfl, he⟩
    simp [zlibUncompress, hc.uncompress x a tail n he hn]

/-- C114.  `ZlibUncompress` of anything else is an exception. -/
theorem C114_uncompress_refuses (hc : Codec z Enc) (s : Bytes) (n : Nat)
    (h : ∀ x a tail, s = a ++ tail → Enc x a → n < x.length) : zlibUncompress z n s = .throw := by
  cases e : zlibUncompress z n s with
  | ok x =>
    obtain ⟨h1, a, tail, h2, h3⟩ := (C114_uncompress_call hc s n x).1 e
    have := h x a tail h2 h3
    omega
  | throw => rfl
  | ub =>
    unfold zlibUncompress at e
    split at e <;> cases e

example : ∃ x, zlibUncompress runZip 3 [3, 7, 9] = .ok x := ⟨[7, 7, 7], by decide +kernel⟩

/-! ## The program -/

/-- Every command line either names an input and an output file, in any order with `-d`, or nothing is read and nothing written and
the program ends with 0. -/
theorem C114_args (w : World) (prog : Bytes) (args : List Bytes) :
    (∃ d i o, Names args d i o) ∨ main z w (prog :: args) = .ok ⟨0, none⟩ := by
  by_cases h : ∃ d i o, Names args d i o
  · exact .inl h
  · exact .inr ((main_eq w prog args).2 fun d i o hn => h ⟨d, i, o, hn⟩)

theorem names_unique {args : List Bytes} {d d' : Bool} {i i' o o' : Bytes} (h : Names args d i o) (h' : Names args d' i' o') :
    d = d' ∧ i = i' ∧ o = o' := by
  have := h.files.symm.trans h'.files
  simp at this
  exact ⟨h.flag.trans h'.flag.symm, this.1, this.2⟩

example : Names [[97], [45, 100], [98]] true [97] [98] :=
  ⟨by intro a ha; simp at ha; rcases ha with rfl | rfl | rfl <;> simp [OptText], by decide, by decide⟩

/-- The program never does anything undefined and lets no exception out. -/
theorem C114_never_undefined (w : World) (prog : Bytes) (args : List Bytes) :
    ∃ r, main z w (prog :: args) = .ok r ∧ r.code ≤ 1 := by
  rcases C114_args (z := z) w prog args with ⟨d, i, o, h⟩ | h
  · refine ⟨_, (main_eq w prog args).1 d i o h, ?_⟩
    unfold work save
    repeat' split
    all_goals simp
  · exact ⟨_, h, by simp⟩

/-- A file that cannot be mapped: 1, and nothing written. -/
theorem C114_no_input (w : World) (prog : Bytes) {args : List Bytes} {d : Bool} {i o : Bytes} (h : Names args d i o)
    (hm : w.map i = none) : main z w (prog :: args) = .ok ⟨1, none⟩ := by
  rw [(main_eq w prog args).1 d i o h]
  simp [work, hm]

example : main runZip ⟨fun _ => none, fun _ b => some b⟩ [[112], [97], [98]] = .ok ⟨1, none⟩ := by decide +kernel

/-- Without `-d`: 0 and the output file is given a stream of the input that is not longer than the input; or 1 and nothing is
written, and then zlib found no such stream. -/
theorem C114_compress (hc : Codec z Enc) (w : World) (prog : Bytes) {args : List Bytes} {i o x : Bytes}
    (h : Names args false i o) (hm : w.map i = some x) :
    (∃ out, main z w (prog :: args) = .ok ⟨0, (w.write o out).map fun c => (o, c)⟩ ∧ out ≠ [] ∧ Enc x out ∧ out.length ≤ x.length) ∨
    (main z w (prog :: args) = .ok ⟨1, none⟩ ∧ ∀ out, z.compress2 x x.length = .ok out → out = []) := by
  rw [(main_eq w prog args).1 _ i o h]
  cases he : z.compress2 x x.length with
  | bufError => exact .inr ⟨by simp [work, hm, zlibCompress, he], by simp⟩
  | error => exact .inr ⟨by simp [work, hm, zlibCompress, he], by simp⟩
  | ok out =>
    obtain ⟨h1, h2⟩ := hc.compress _ _ _ he
    by_cases h0 : out = []
    · exact .inr ⟨by simp [work, hm, zlibCompress, he, h0], fun _ e => by cases e; exact h0⟩
    · exact .inl ⟨out, by simp [work, hm, zlibCompress, he, h0, save], h0, h1, h2⟩

example : Names [[97], [98]] false [97] [98] :=
  ⟨by intro a ha; simp at ha; rcases ha with rfl | rfl <;> simp [OptText], by decide, by decide⟩

/-- With `-d`: if the input begins with a stream of `x`, and `x` is at most ten times as long as the input, the output file is given
`x`; in every other case 1 and nothing is written. -/
theorem C114_uncompress (hc : Codec z Enc) (w : World) (prog : Bytes) {args : List Bytes} {i o f : Bytes}
    (h : Names args true i o) (hm : w.map i = some f) :
    (∀ x a tail, f = a ++ tail → Enc x a → x.length ≤ 10 * f.length →
      main z w (prog :: args) = .ok ⟨0, (w.write o x).map fun c => (o, c)⟩) ∧
    ((∀ x a tail, f = a ++ tail → Enc x a → 10 * f.length < x.length) → main z w (prog :: args) = .ok ⟨1, none⟩) := by
  rw [(main_eq w prog args).1 _ i o h]
  constructor
  · intro x a tail hf he hx
    have := (C114_uncompress_call hc f (f.length * 10) x).mpr ⟨by omega, a, tail, hf, he⟩
    simp [work, hm, this, save]
  · intro hn
    cases hr : zlibUncompress z (f.length * 10) f with
    | ok x =>
      obtain ⟨h1, a, tail, hf, he⟩ := (C114_uncompress_call hc _ _ _).mp hr
      have := hn x a tail hf he
      omega
    | throw => simp [work, hm, hr]
    | ub => simp [work, hm, hr]

/-- Compressing `i` to `o` and later uncompressing `o` to `o'` gives the bytes of `i`, if they are at most ten times as many as the
compressed ones.  Finding: if they are more, the program cannot uncompress its own output. -/
theorem C114_roundtrip (hc : Codec z Enc) (w w' : World) (prog prog' : Bytes) {args args' : List Bytes} {i o o' x f : Bytes}
    (h : Names args false i o) (h' : Names args' true o o') (hm : w.map i = some x) (hw : ∀ b, w.write o b = some b)
    (hrun : main z w (prog :: args) = .ok ⟨0, some (o, f)⟩) (hm' : w'.map o = some f) :
    f.length ≤ x.length ∧
    (x.length ≤ 10 * f.length → main z w' (prog' :: args') = .ok ⟨0, (w'.write o' x).map fun c => (o', c)⟩) ∧
    (10 * f.length < x.length → main z w' (prog' :: args') = .ok ⟨1, none⟩) := by
  rcases C114_compress hc w prog h hm with ⟨out, h1, h2, h3, h4⟩ | ⟨h1, _⟩
  · rw [h1, hw] at hrun
    simp at hrun
    subst hrun
    refine ⟨h4, fun hx => (C114_uncompress hc w' prog' h' hm').1 x out [] (by simp) h3 hx, fun hx => ?_⟩
    refine (C114_uncompress hc w' prog' h' hm').2 fun y a tail hf he => ?_
    have e1 := hc.uncompress y a tail (x.length + y.length) he (by omega)
    have e2 := hc.uncompress x out [] (x.length + y.length) h3 (by omega)
    rw [List.append_nil, hf, e1] at e2
    cases e2
    exact hx
  · rw [h1] at hrun
    cases hrun

/-- Twenty-one equal bytes: compressed to two, which the program then refuses. -/
theorem C114_finding_ratio :
    main runZip ⟨fun _ => some (List.replicate 21 7), fun _ b => some b⟩ [[112], [97], [98]] = .ok ⟨0, some ([98], [21, 7])⟩ ∧
    main runZip ⟨fun _ => some [21, 7], fun _ b => some b⟩ [[112], [45, 100], [98], [99]] = .ok ⟨1, none⟩ ∧
    main runZip ⟨fun _ => some [20, 7], fun _ b => some b⟩ [[112], [45, 100], [98], [99]]
      = .ok ⟨0, some ([99], List.replicate 20 7)⟩ := by
  decide +kernel

/-- Finding: that the output could not be written is not told: whatever becomes of the write, the program ends with 0. -/
theorem C114_finding_write (w : World) (prog : Bytes) {args : List Bytes} {d : Bool} {i o : Bytes} (h : Names args d i o)
    (write' : Bytes → Bytes → _root_.Option Bytes) {c : Nat} {r : _root_.Option (Bytes × Bytes)}
    (hrun : main z w (prog :: args) = .ok ⟨c, r⟩) :
    ∃ r', main z { w with write := write' } (prog :: args) = .ok ⟨c, r'⟩ := by
  rw [(main_eq w prog args).1 _ i o h] at hrun
  rw [(main_eq _ prog args).1 _ i o h]
  unfold work save at *
  dsimp only
  repeat' split at hrun
  all_goals (injection hrun with hrun; injection hrun with e1 e2; subst e1; simp [*])

example : main runZip ⟨fun _ => some [7, 7, 7], fun _ _ => none⟩ [[112], [97], [98]] = .ok ⟨0, none⟩ := by decide +kernel

#print axioms C114_calls
#print axioms C114_uncompress_call
#print axioms C114_args
#print axioms C114_never_undefined
#print axioms C114_no_input
#print axioms C114_compress
#print axioms C114_uncompress
#print axioms C114_roundtrip
#print axioms C114_finding_ratio
#print axioms C114_finding_write
#print axioms C114_uncompress_refuses

end Verif.Props.ZlibSmpl
