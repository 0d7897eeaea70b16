import Verif.Spec.Json
set_option linter.unusedSimpArgs false
namespace Verif.JsonProof
open Verif.Json Verif.JsonSpec

abbrev Mem := Nat → Option Cell

theorem Rep.frame {m m' : Mem} {ts vs fp} (r : Rep m ts vs fp) (h : ∀ a ∈ fp, m' a = m a) :
    Rep m' ts vs fp := by
  induction r with
  | nil => exact .nil
  | leaf k l _ ih => exact .leaf k l (ih h)
  | str k s a ha _ ih =>
    exact .str k s a (by rw [h a (by simp), ha]) (ih fun b hb => h b (by simp [hb]))
  | node k kd a ha _ _ ihd ih =>
    exact .node k kd a (by rw [h a (by simp), ha]) (ihd fun b hb => h b (by simp [hb]))
      (ih fun b hb => h b (by simp [hb]))

theorem Rep.mem {m : Mem} {ts vs fp} (r : Rep m ts vs fp) : ∀ a ∈ fp, m a ≠ none := by
  induction r with
  | nil => simp
  | leaf k l _ ih => exact ih
  | str k s a ha _ ih =>
    intro b hb
    rcases List.mem_cons.1 hb with rfl | hb
    · simp [ha]
    · exact ih b hb
  | node k kd a ha _ _ ihd ih =>
    intro b hb
    rcases List.mem_cons.1 hb with rfl | hb
    · simp [ha]
    · rcases List.mem_append.1 hb with hb | hb
      · exact ihd b hb
      · exact ih b hb

theorem Rep.append {m : Mem} {ts vs fp} (r : Rep m ts vs fp) {ts' vs' fp'} (r' : Rep m ts' vs' fp') :
    Rep m (ts ++ ts') (vs ++ vs') (fp ++ fp') := by
  induction r with
  | nil => exact r'
  | leaf k l _ ih => exact .leaf k l ih
  | str k s a ha _ ih => exact .str k s a ha ih
  | node k kd a ha rd _ _ ih =>
    have := Rep.node k kd a ha rd ih
    rw [← List.append_assoc] at this
    exact this

theorem Rep.split {m : Mem} : ∀ (ts ts' : Forest) {vs fp}, Rep m (ts ++ ts') vs fp →
    ∃ vs1 vs2 fp1 fp2, vs = vs1 ++ vs2 ∧ fp = fp1 ++ fp2 ∧ Rep m ts vs1 fp1 ∧ Rep m ts' vs2 fp2 := by
  intro ts
  induction ts with
  | nil => intro ts' vs fp r; exact ⟨[], vs, [], fp, rfl, rfl, .nil, r⟩
  | cons e ts ih =>
    intro ts' vs fp r
    cases r with
    | leaf k l r =>
      obtain ⟨vs1, vs2, fp1, fp2, rfl, rfl, r1, r2⟩ := ih ts' r
      exact ⟨_ :: vs1, vs2, fp1, fp2, rfl, rfl, .leaf k l r1, r2⟩
    | str k s a ha r =>
      obtain ⟨vs1, vs2, fp1, fp2, rfl, rfl, r1, r2⟩ := ih ts' r
      exact ⟨_ :: vs1, vs2, a :: fp1, fp2, rfl, rfl, .str k s a ha r1, r2⟩
    | node k kd a ha rd r =>
      obtain ⟨vs1, vs2, fp1, fp2, rfl, rfl, r1, r2⟩ := ih ts' r
      exact ⟨_ :: vs1, vs2, _ :: (_ ++ fp1), fp2, rfl, by simp, .node k kd a ha rd r1, r2⟩

theorem Rep.length {m : Mem} {ts vs fp} (r : Rep m ts vs fp) : vs.length = ts.length := by
  induction r <;> simp_all

/-- The depth is bounded. -/
inductive Fits : Nat → Forest → Prop where
  | nil {n} : Fits n []
  | leaf {n c} (k : String) (l : Leaf) (r : Fits n c) : Fits n ((k, .leaf l) :: c)
  | str {n c} (k s : String) (r : Fits n c) : Fits n ((k, .str s) :: c)
  | node {n c d} (k : String) (kd : Kind) (rd : Fits n d) (r : Fits (n + 1) c) :
      Fits (n + 1) ((k, .node kd d) :: c)

theorem Fits.mono {n ts} (f : Fits n ts) : ∀ {n'}, n ≤ n' → Fits n' ts := by
  induction f with
  | nil => intro n' _; exact .nil
  | leaf k l _ ih => intro n' h; exact .leaf k l (ih h)
  | str k s _ ih => intro n' h; exact .str k s (ih h)
  | node k kd _ _ ihd ih =>
    intro n' h
    obtain ⟨q, rfl⟩ : ∃ q, n' = q + 1 := ⟨n' - 1, by omega⟩
    exact .node k kd (ihd (by omega)) (ih h)

theorem Rep.fits {m : Mem} {ts vs fp} (r : Rep m ts vs fp) : Fits fp.length ts := by
  induction r with
  | nil => exact .nil
  | leaf k l _ ih => exact .leaf k l ih
  | str k s a ha _ ih => exact .str k s (ih.mono (by simp))
  | node k kd a ha _ _ ihd ih =>
    rw [List.length_cons, List.length_append]
    exact .node k kd (ihd.mono (by omega)) (ih.mono (by omega))

/-- Memory without the given addresses. -/
def clear (m : Mem) (fp : List Nat) : Mem := fun a => if a ∈ fp then none else m a

theorem clear_nil (m : Mem) : clear m [] = m := by funext a; simp [clear]

theorem destroy_rep {m : Mem} {ts vs fp} (r : Rep m ts vs fp) : ∀ (fuel : Nat), Fits fuel ts → fp.Nodup →
    ∀ H : Heap, (∀ a ∈ fp, H.cell a = m a) →
      vs.foldlM (fun h e => destroyV fuel h e.2) H = some ⟨clear H.cell fp, H.next, H.quota⟩ := by
  induction r with
  | nil => intro fuel _ _ H _; simp [clear_nil]
  | leaf k l _ ih =>
    intro fuel f nd H hH
    cases f with
    | leaf _ _ f =>
      rw [List.foldlM_cons]
      simp only [destroyV, Option.bind_eq_bind, Option.bind_some]
      exact ih fuel f nd H hH
  | @str c vs fp k s a ha r ih =>
    intro fuel f nd H hH
    cases f with
    | str _ _ f =>
      rw [List.nodup_cons] at nd
      rw [List.foldlM_cons]
      have e : H.cell a = some (.str s) := by rw [hH a (by simp), ha]
      simp only [destroyV, e, Option.bind_eq_bind, Option.bind_some]
      rw [ih fuel f nd.2 ⟨put H.cell a none, H.next, H.quota⟩ ?_]
      · congr 2
        funext b
        simp only [clear, put, List.mem_cons]
        by_cases h1 : b = a <;> by_cases h2 : b ∈ fp <;> simp [h1, h2]
      · intro b hb
        have : b ≠ a := fun h => nd.1 (h ▸ hb)
        simp only [put, if_neg this]
        exact hH b (by simp [hb])
  | @node c vs fp d ws fq k kd a ha rd r ihd ih =>
    intro fuel f nd H hH
    cases f with
    | node _ _ fd f =>
      rw [List.nodup_cons, List.nodup_append] at nd
      obtain ⟨hna, ndq, ndp, hd⟩ := nd
      rw [List.mem_append, not_or] at hna
      rw [List.foldlM_cons]
      have e : H.cell a = some (.node ws) := by rw [hH a (by simp), ha]
      simp only [destroyV, e, Option.bind_eq_bind, Option.bind_some]
      rw [ihd _ fd ndq H (fun b hb => hH b (by simp [hb]))]
      simp only [Option.bind_some]
      rw [ih _ f ndp ⟨put (clear H.cell fq) a none, H.next, H.quota⟩ ?_]
      · congr 2
        funext b
        simp only [clear, put, List.mem_cons, List.mem_append]
        by_cases h1 : b = a <;> by_cases h2 : b ∈ fp <;> by_cases h3 : b ∈ fq <;> simp [h1, h2, h3]
      · intro b hb
        have h1 : b ≠ a := fun h => hna.2 (h ▸ hb)
        have h2 : b ∉ fq := fun h => hd b h b hb rfl
        simp only [put, if_neg h1, clear, if_neg h2]
        exact hH b (by simp [hb])

theorem destroyV_rep {m : Mem} {k t v fp} (r : Rep m [(k, t)] [(k, v)] fp) (fuel : Nat)
    (f : Fits fuel [(k, t)]) (nd : fp.Nodup) (H : Heap) (h : ∀ a ∈ fp, H.cell a = m a) :
    destroyV fuel H v = some ⟨clear H.cell fp, H.next, H.quota⟩ := by
  have hd := destroy_rep r fuel f nd H h
  rw [List.foldlM_cons] at hd
  cases h : destroyV fuel H v with
  | none => rw [h] at hd; simp at hd
  | some x => rw [h] at hd; simpa using hd

/-- What a copy achieves. -/
def CopiedL (ts : Forest) (H : Heap) (out : Out (List (String × Val))) : Prop :=
  (∃ vs fp H', out = .ok vs H' ∧ Rep H'.cell ts vs fp ∧ fp.Nodup ∧
    (∀ a ∈ fp, H.next ≤ a ∧ a < H'.next) ∧ (∀ a, a ∉ fp → H'.cell a = H.cell a) ∧ H.next ≤ H'.next) ∨
  ∃ H', out = .thr H' ∧ H'.cell = H.cell ∧ H.next ≤ H'.next

def CopiedV (k : String) (t : T) (H : Heap) (out : Out Val) : Prop :=
  (∃ v fp H', out = .ok v H' ∧ Rep H'.cell [(k, t)] [(k, v)] fp ∧ fp.Nodup ∧
    (∀ a ∈ fp, H.next ≤ a ∧ a < H'.next) ∧ (∀ a, a ∉ fp → H'.cell a = H.cell a) ∧ H.next ≤ H'.next) ∨
  ∃ H', out = .thr H' ∧ H'.cell = H.cell ∧ H.next ≤ H'.next

/-- Nothing behind `next`. -/
def Fresh (H : Heap) : Prop := ∀ a, H.next ≤ a → H.cell a = none

theorem copyL_cons {k t v c vs} {fp fp2 : List Nat} {fuel : Nat} {m : Mem}
    (r : Rep m [(k, t)] [(k, v)] fp) (r2 : Rep m c vs fp2) (f : Fits fuel [(k, t)])
    (hv : ∀ H : Heap, (∀ a ∈ fp, H.cell a = m a) → Fresh H → CopiedV k t H (copyV fuel H v))
    (hl : ∀ H : Heap, (∀ a ∈ fp2, H.cell a = m a) → Fresh H →
      CopiedL c H (copyL (copyV fuel) (destroyV fuel) H vs))
    (H : Heap) (h1 : ∀ a ∈ fp ++ fp2, H.cell a = m a) (hf : Fresh H) :
    CopiedL ((k, t) :: c) H (copyL (copyV fuel) (destroyV fuel) H ((k, v) :: vs)) := by
  rw [copyL]
  unfold tick
  by_cases hq : H.quota = 0
  · rw [if_pos hq]
    exact .inr ⟨H, rfl, rfl, Nat.le_refl _⟩
  · rw [if_neg hq]
    dsimp only
    rcases hv ⟨H.cell, H.next, H.quota - 1⟩ (fun a ha => h1 a (by simp [ha])) hf with
      ⟨v', fa, H1, e, rv, nd, rng, fr, le⟩ | ⟨H1, e, ec, le⟩
    · rw [e]
      dsimp only at rng fr le ⊢
      have hf1 : Fresh H1 := by
        intro a ha
        have : a ∉ fa := fun h => by have := rng a h; omega
        rw [fr a this]
        exact hf a (by omega)
      have hag : ∀ a ∈ fp2, H1.cell a = m a := by
        intro a ha
        have : a ∉ fa := by
          intro h
          have h2 := rng a h
          have h3 := h1 a (by simp [ha])
          rw [hf a h2.1] at h3
          exact Rep.mem r2 a ha h3.symm
        rw [fr a this]
        exact h1 a (by simp [ha])
      rcases hl H1 hag hf1 with ⟨vs', fb, H2, e2, rl, nd2, rng2, fr2, le2⟩ | ⟨H2, e2, ec2, le2⟩
      · rw [e2]
        dsimp only
        have disj : ∀ a ∈ fa, a ∉ fb := fun a h h' => by
          have := rng a h; have := rng2 a h'; omega
        refine .inl ⟨_, fa ++ fb, H2, rfl, ?_, ?_, ?_, ?_, by omega⟩
        · have := Rep.append (Rep.frame rv (m' := H2.cell) (fun a ha => fr2 a (disj a ha))) rl
          exact this
        · rw [List.nodup_append]
          exact ⟨nd, nd2, fun a ha b hb hab => disj a ha (hab ▸ hb)⟩
        · intro a ha
          rcases List.mem_append.1 ha with h | h
          · have := rng a h; omega
          · have := rng2 a h; omega
        · intro a ha
          rw [List.mem_append, not_or] at ha
          rw [fr2 a ha.2, fr a ha.1]
      · rw [e2]
        dsimp only
        rw [destroyV_rep rv fuel f nd H2 (fun a ha => by rw [ec2])]
        dsimp only
        refine .inr ⟨_, rfl, ?_, ?_⟩
        · funext a
          simp only [clear, ec2]
          by_cases h : a ∈ fa
          · rw [if_pos h, hf a (rng a h).1]
          · rw [if_neg h, fr a h]
        · dsimp only; omega
    · rw [e]
      exact .inr ⟨H1, rfl, ec, le⟩

theorem copyV_leaf (k : String) (l : Leaf) (fuel : Nat) (H : Heap) :
    CopiedV k (.leaf l) H (copyV fuel H (.leaf l)) := by
  refine .inl ⟨.leaf l, [], H, by cases fuel <;> rfl, .leaf k l .nil, by simp, by simp, by simp, Nat.le_refl _⟩

theorem copyV_str (k s : String) (a fuel : Nat) (H : Heap) (h : H.cell a = some (.str s)) :
    CopiedV k (.str s) H (copyV fuel H (.str a)) := by
  have e : copyV fuel H (.str a) = match alloc H (.str s) with
      | .ok b h => .ok (.str b) h
      | .thr h => .thr h
      | .ub => .ub := by
    cases fuel <;> (rw [copyV, h]; rfl)
  rw [e]
  unfold alloc
  by_cases hq : H.quota = 0
  · rw [if_pos hq]; exact .inr ⟨H, rfl, rfl, Nat.le_refl _⟩
  · rw [if_neg hq]
    refine .inl ⟨_, [H.next], _, rfl, .str k s _ (by simp [put]) .nil, by simp, ?_, ?_, ?_⟩
    · simp
    · intro b hb
      simp at hb
      simp [put, hb]
    · simp

theorem copyV_node (k : String) (kd : Kind) {m : Mem} {d ws fq} (a fuel : Nat) (r : Rep m d ws fq)
    (hl : ∀ H : Heap, (∀ a ∈ fq, H.cell a = m a) → Fresh H →
      CopiedL d H (copyL (copyV fuel) (destroyV fuel) H ws))
    (H : Heap) (h : H.cell a = some (.node ws)) (hq : ∀ a ∈ fq, H.cell a = m a) (hf : Fresh H) :
    CopiedV k (.node kd d) H (copyV (fuel + 1) H (.node kd a)) := by
  rw [copyV, h]
  unfold alloc
  dsimp only
  by_cases hz : H.quota = 0
  · rw [if_pos hz]; exact .inr ⟨H, rfl, rfl, Nat.le_refl _⟩
  · rw [if_neg hz]
    dsimp only
    have hn : H.cell H.next = none := hf _ (Nat.le_refl _)
    have c1 : ∀ b ∈ fq, put H.cell H.next (some (.node [])) b = m b := by
      intro b hb
      have : b ≠ H.next := by
        intro hc
        have := hq b hb
        rw [hc, hn] at this
        exact Rep.mem r b hb (hc ▸ this.symm)
      simp only [put, if_neg this]
      exact hq b hb
    have c2 : Fresh ⟨put H.cell H.next (some (.node [])), H.next + 1, H.quota - 1⟩ := by
      intro b hb
      dsimp only at hb ⊢
      simp only [put, if_neg (show b ≠ H.next by omega)]
      exact hf b (by omega)
    rcases hl _ c1 c2 with ⟨vs', fb, H2, e2, rl, nd2, rng2, fr2, le2⟩ | ⟨H2, e2, ec2, le2⟩
    · rw [e2]
      dsimp only at rng2 fr2 le2 ⊢
      have hnb : H.next ∉ fb := fun hh => by have := rng2 _ hh; omega
      refine .inl ⟨_, H.next :: (fb ++ []), _, rfl, ?_, ?_, ?_, ?_, ?_⟩
      · refine .node k kd H.next (ws := vs') (by simp [put]) ?_ .nil
        refine Rep.frame rl (fun b hb => ?_)
        have : b ≠ H.next := fun hc => hnb (hc ▸ hb)
        simp only [put, if_neg this]
      · simp [hnb, nd2]
      · intro b hb
        dsimp only
        rw [List.append_nil, List.mem_cons] at hb
        rcases hb with rfl | hb
        · omega
        · have := rng2 b hb; omega
      · intro b hb
        rw [List.append_nil, List.mem_cons, not_or] at hb
        simp only [put, if_neg hb.1]
        rw [fr2 b hb.2]
        simp only [put, if_neg hb.1]
      · dsimp only; omega
    · rw [e2]
      dsimp only at le2 ec2 ⊢
      refine .inr ⟨_, rfl, ?_, ?_⟩
      · funext b
        simp only [put, ec2]
        by_cases hb : b = H.next
        · simp [hb, hn]
        · simp [hb]
      · dsimp only; omega

theorem copyL_rep {m : Mem} {ts vs fp} (r : Rep m ts vs fp) : ∀ (fuel : Nat), Fits fuel ts →
    ∀ H : Heap, (∀ a ∈ fp, H.cell a = m a) → Fresh H →
      CopiedL ts H (copyL (copyV fuel) (destroyV fuel) H vs) := by
  induction r with
  | nil =>
    intro fuel _ H _ _
    exact .inl ⟨[], [], H, rfl, .nil, by simp, by simp, by simp, Nat.le_refl _⟩
  | leaf k l r ih =>
    intro fuel f H hH hf
    cases f with
    | leaf _ _ f =>
      exact copyL_cons (fp := []) (Rep.leaf k l .nil) r (.leaf k l .nil)
        (fun H _ _ => copyV_leaf k l fuel H) (ih fuel f) H (by simpa using hH) hf
  | str k s a ha r ih =>
    intro fuel f H hH hf
    cases f with
    | str _ _ f =>
      exact copyL_cons (fp := [a]) (Rep.str k s a ha .nil) r (.str k s .nil)
        (fun H h _ => copyV_str k s a fuel H (by rw [h a (by simp), ha])) (ih fuel f) H
        (by simpa using hH) hf
  | @node c vs fp d ws fq k kd a ha rd r ihd ih =>
    intro fuel f H hH hf
    cases f with
    | node _ _ fd f =>
      refine copyL_cons (fp := a :: (fq ++ [])) (Rep.node k kd a ha rd .nil) r (.node k kd fd .nil)
        (fun H h hf => copyV_node k kd a _ rd (ihd _ fd) H (by rw [h a (by simp), ha])
          (fun b hb => h b (by simp [hb])) hf) (ih _ f) H (by simpa using hH) hf

theorem copyV_rep {m : Mem} {k t v fp} (r : Rep m [(k, t)] [(k, v)] fp) (fuel : Nat)
    (f : Fits fuel [(k, t)]) (H : Heap) (h : ∀ a ∈ fp, H.cell a = m a) (hf : Fresh H) :
    CopiedV k t H (copyV fuel H v) := by
  cases r with
  | leaf _ l _ => exact copyV_leaf k l fuel H
  | str _ s a ha _ => exact copyV_str k s a fuel H (by rw [h a (by simp), ha])
  | node _ kd a ha rd r =>
    cases f with
    | node _ _ fd _ =>
      exact copyV_node k kd a _ rd (copyL_rep rd _ fd) H (by rw [h a (by simp), ha])
        (fun b hb => h b (by simp [hb])) hf

end Verif.JsonProof
