import Verif.Proof.JsonOps
set_option linter.unusedSimpArgs false
/-!
# C75: JSON values behave like values
-/
namespace Verif.Props.Json
open Verif.Json Verif.JsonSpec Verif.JsonProof

theorem good_holds {e : End} {old new : Forest} (g : Good e old new) :
    (∃ st', e = .ok st' ∧ Holds st' new) ∨ ∃ st', e = .thr st' ∧ Holds st' old := by
  rcases g with ⟨st', fp, rfl, h⟩ | ⟨st', fp, rfl, h⟩
  · exact .inl ⟨st', rfl, fp, h.rep, h.nodup, h.exact', h.lt⟩
  · exact .inr ⟨st', rfl, fp, h.rep, h.nodup, h.exact', h.lt⟩

/-- Every statement either does to the values what it means, with all copies independent of their
originals and exactly the memory of the values in use, or ends with an exception and has changed
nothing. -/
theorem C75_step (st : St) (ts ts' : Forest) (op : Op) (h : Holds st ts) (hs : step ts op = some ts') :
    (∃ st', exec st op = .ok st' ∧ Holds st' ts') ∨ ∃ st', exec st op = .thr st' ∧ Holds st' ts := by
  obtain ⟨fp, h1, h2, h3, h4⟩ := h
  have H : HoldsAt st ts fp := ⟨h1, h2, h3, h4⟩
  cases op with
  | assign dst src =>
    simp only [step, Option.bind_eq_bind, Option.bind_eq_some_iff] at hs
    obtain ⟨t, hd, u, hu, e⟩ := hs
    injection e with e; subst e
    exact good_holds (assign_good H hd hu)
  | new name src =>
    simp only [step, Option.bind_eq_bind, Option.bind_eq_some_iff] at hs
    obtain ⟨u, hu, e⟩ := hs
    injection e with e; subst e
    exact good_holds (new_good H name hu)
  | newLeaf name l =>
    simp only [step] at hs
    injection hs with e; subst e
    exact good_holds (newLeaf_good H name l)
  | newStr name s =>
    simp only [step] at hs
    injection hs with e; subst e
    exact good_holds (newStr_good H name s)
  | newNode name k =>
    simp only [step] at hs
    injection hs with e; subst e
    exact good_holds (newNode_good H name k)
  | insert p pos key src =>
    simp only [step, Option.bind_eq_bind, Option.bind_eq_some_iff] at hs
    obtain ⟨t, ht, u, hu, e⟩ := hs
    cases t with
    | leaf l => simp at e
    | str s => simp at e
    | node k c =>
      simp only at e
      split at e
      · rename_i hp
        injection e with e; subst e
        exact good_holds (insert_good H ht hu pos key hp)
      · simp at e
  | remove p pos =>
    simp only [step, Option.bind_eq_bind, Option.bind_eq_some_iff] at hs
    obtain ⟨t, ht, e⟩ := hs
    cases t with
    | leaf l => simp at e
    | str s => simp at e
    | node k c =>
      simp only at e
      split at e
      · rename_i hp
        injection e with e; subst e
        exact good_holds (remove_good H ht pos hp)
      · simp at e
  | swapVars i j =>
    simp only [step, Option.bind_eq_bind, Option.bind_eq_some_iff] at hs
    obtain ⟨a, ha, b, hb, e⟩ := hs
    injection e with e; subst e
    exact good_holds (swap_good H ha hb)
  | drop i =>
    simp only [step] at hs
    split at hs
    · rename_i hi
      injection hs with e; subst e
      exact good_holds (drop_good H hi)
    · simp at hs

/-- A program: some statements succeed, others are stopped by an exception that is caught. -/
inductive Run : St → Forest → St → Forest → Prop where
  | done (st : St) (ts : Forest) : Run st ts st ts
  | ok {st st' st2 ts ts' ts2} (op : Op) (e : exec st op = .ok st') (s : step ts op = some ts')
      (r : Run st' ts' st2 ts2) : Run st ts st2 ts2
  | thr {st st' st2 ts ts2} (op : Op) (e : exec st op = .thr st') (s : (step ts op).isSome)
      (r : Run st' ts st2 ts2) : Run st ts st2 ts2

/-- After every program, whatever allocations fail, the variables have the values the statements
that succeeded mean; if no variable is left, neither is memory. -/
theorem C75_history (st st' : St) (ts ts' : Forest) (r : Run st ts st' ts') (h : Holds st ts) :
    Holds st' ts' ∧ (ts' = [] → ∀ a, st'.heap.cell a = none) := by
  have key : Holds st' ts' := by
    induction r with
    | done => exact h
    | ok op e s _ ih =>
      rcases C75_step _ _ _ op h s with ⟨x, hx, hh⟩ | ⟨x, hx, hh⟩
      · rw [hx] at e; injection e with e; exact ih (e ▸ hh)
      · rw [hx] at e; cases e
    | thr op e s _ ih =>
      obtain ⟨t, ht⟩ := Option.isSome_iff_exists.1 s
      rcases C75_step _ _ _ op h ht with ⟨x, hx, hh⟩ | ⟨x, hx, hh⟩
      · rw [hx] at e; cases e
      · rw [hx] at e; injection e with e; exact ih (e ▸ hh)
  refine ⟨key, ?_⟩
  rintro rfl a
  obtain ⟨fp, r, _, h3, _⟩ := key
  generalize st'.root = vs at r
  cases r
  cases e : st'.heap.cell a with
  | none => rfl
  | some c => exact absurd ((h3 a).1 (by simp [e])) (by simp)

/-- No statement of such a program is undefined behaviour: each next one has an end. -/
theorem C75_defined (st st' : St) (ts ts' : Forest) (r : Run st ts st' ts') (h : Holds st ts) (op : Op)
    (hs : (step ts' op).isSome) : exec st' op ≠ .ub := by
  obtain ⟨t, ht⟩ := Option.isSome_iff_exists.1 hs
  rcases C75_step _ _ _ op (C75_history st st' ts ts' r h).1 ht with ⟨x, hx, _⟩ | ⟨x, hx, _⟩ <;>
    rw [hx] <;> simp

/-- A statement throws only if memory is exhausted. -/
theorem C75_throws (st st' : St) (op : Op) (h : exec st op = .thr st') : st'.heap.quota = 0 :=
  exec_thr st st' op h

/-- The start of a program. -/
theorem C75_start (q : Nat) : Holds ⟨[], ⟨fun _ => none, 0, q⟩⟩ [] :=
  ⟨[], .nil, by simp, by simp, by simp⟩

/-- Finding: `swap` of an array with its own element makes a cycle: the variable holds the element,
the array holds itself, and when the variable is gone, the array is still there. -/
theorem C75_finding_swap_cycle :
    ∃ st : St, Holds st [("v", .node .array [("", .leaf (.bool true))])] ∧
      ∃ st', st.swap [0] [0, 0] = .ok st' ∧
        st'.root = [("v", .leaf (.bool true))] ∧ st'.heap.cell 0 = some (.node [("", .node .array 0)]) ∧
        ∃ st2, st'.drop 0 = .ok st2 ∧ st2.root = [] ∧ st2.heap.cell 0 ≠ none := by
  refine ⟨⟨[("v", .node .array 0)],
    ⟨fun a => if a = 0 then some (.node [("", .leaf (.bool true))]) else none, 1, 5⟩⟩, ?_, ?_⟩
  · refine ⟨[0], .node "v" .array 0 (fq := []) (by simp) (.leaf "" _ .nil) .nil, by simp, ?_, by simp⟩
    intro a
    by_cases h : a = 0 <;> simp [h]
  · exact ⟨_, rfl, rfl, rfl, _, rfl, rfl, by decide⟩

/-- A program: `Value a(Array()); Value x("hi"); a.push_back(x); a.push_back(a); a = a[1][0];`
with enough memory. -/
example : ∃ st, Run ⟨[], ⟨fun _ => none, 0, 100⟩⟩ [] st
    [("a", .str "hi"), ("x", .str "hi")] :=
  ⟨_, .ok (.newNode "a" .array) rfl rfl (.ok (.newStr "x" "hi") rfl rfl
    (.ok (.insert [0] 0 "" [1]) rfl rfl (.ok (.insert [0] 1 "" [0]) rfl rfl
      (.ok (.assign [0] [0, 1, 0]) rfl rfl (.done _ _)))))⟩

/-- The same with too little memory: the copy of the array into itself fails and leaves no trace. -/
example : ∃ st, Run ⟨[], ⟨fun _ => none, 0, 5⟩⟩ [] st
    [("a", .node .array [("", .str "hi")]), ("x", .str "hi")] :=
  ⟨_, .ok (.newNode "a" .array) rfl rfl (.ok (.newStr "x" "hi") rfl rfl
    (.ok (.insert [0] 0 "" [1]) rfl rfl (.thr (.insert [0] 1 "" [0]) rfl rfl (.done _ _))))⟩

end Verif.Props.Json

#print axioms Verif.Props.Json.C75_step
#print axioms Verif.Props.Json.C75_history
