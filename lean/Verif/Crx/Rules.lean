import Verif.Crx.Lang
/-!
# The transducer of all rules
-/
namespace Verif.Crx

/-- What the compiled rule number `k` accepts. -/
def ruleLang (upper : Nat → Bool) (k : Nat) (r : Rule) : Lang := fun s => ∃ x, seqLang upper r.body x ∧ s = x ++ [.bound, .rule k]

structure RInv (upper : Nat → Bool) (one : Int) (s : RSt) (den : Nat → List Lab → Prop) (done : List Rule) : Prop where
  ok : Den s.trans.initial s.trans.edges s.trans.next den
  finals : ∀ f ∈ s.trans.finals, f < s.trans.next
  accepts : ∀ u, (∃ f ∈ s.trans.finals, den f u) ↔ ∃ k r, done[k]? = some r ∧ ruleLang upper k r u
  weights : s.weights = done.map (Rule.value one)
  root : ∀ v, den s.trans.initial v → v = []

theorem compileRule_inv {upper : Nat → Bool} {one : Int} {s s' : RSt} {den : Nat → List Lab → Prop} {done : List Rule} (h : RInv upper one s den done) (r : Rule)
    (hr : compileRule upper one r s = some s') : ∃ den', RInv upper one s' den' (done ++ [r]) := by
  unfold compileRule at hr
  obtain ⟨den1, h1⟩ := At.insertNew h.ok h.ok.pos
  cases hc : compileSeq upper r.body (insertNew (s.trans, s.trans.initial)) with
  | none => rw [hc] at hr; cases hr
  | some x =>
    rw [hc] at hr
    simp only [Option.map_some, Option.some.injEq] at hr
    subst hr
    obtain ⟨den2, h2⟩ := compileSeq_ext upper r.body h1.here x hc
    obtain ⟨den3, h3⟩ := h2.here.single .bound (by simp)
    obtain ⟨den4, h4⟩ := h3.here.single (.rule s.weights.length) (by simp)
    have h5 := ((h1.trans h2).trans h3).trans h4
    have hfin : (setFinal (insertSingle (.rule s.weights.length) (insertSingle .bound x))).finals = (insertSingle (.rule s.weights.length) (insertSingle .bound x)).2 :: s.trans.finals := by
      unfold setFinal; dsimp only; rw [h5.finals]
    have hlen : s.weights.length = done.length := by rw [h.weights]; simp
    refine ⟨den4, h5.ok, ?_, ?_, ?_, ?_⟩
    · dsimp only
      rw [hfin]
      intro f hf
      rcases List.mem_cons.1 hf with rfl | hf
      · exact h5.lt
      · exact Nat.lt_of_lt_of_le (h.finals f hf) h5.grow
    · intro u
      dsimp only
      rw [hfin]
      simp only [List.mem_cons, exists_eq_or_imp]
      have e1 : (∃ f ∈ s.trans.finals, den4 f u) ↔ ∃ k r, done[k]? = some r ∧ ruleLang upper k r u := by
        rw [← h.accepts]
        constructor
        · rintro ⟨f, hf, hu⟩; exact ⟨f, hf, by rw [h5.old f (h.finals f hf)] at hu; exact hu⟩
        · rintro ⟨f, hf, hu⟩; exact ⟨f, hf, by rw [h5.old f (h.finals f hf)]; exact hu⟩
      have e2 : ∀ u, ruleLang upper done.length r u → den4 (insertSingle (.rule s.weights.length) (insertSingle .bound x)).2 u := by
        rintro u ⟨y, hy, rfl⟩
        rw [h5.exit]
        refine ⟨[], y ++ [.bound, .rule done.length], h.ok.zero, ?_, rfl⟩
        refine ⟨y ++ [.bound], [.rule done.length], by simp, ⟨y, [.bound], rfl, ⟨[], y, rfl, rfl, hy⟩, rfl⟩, by rw [hlen]⟩
      constructor
      · rintro (hu | hu)
        · rw [h5.exit] at hu
          obtain ⟨v, z, hv, ⟨a, b, rfl, ⟨c, d, rfl, ⟨e, y, rfl, he, hy⟩, hd⟩, hb⟩, rfl⟩ := hu
          rw [show e = [] from he, hd, hb]
          rw [h.root v hv]
          exact ⟨done.length, r, by simp, y, hy, by simp [hlen]⟩
        · obtain ⟨k, r', hk, hu⟩ := e1.1 hu
          exact ⟨k, r', by rw [List.getElem?_append_left (by rw [List.getElem?_eq_some_iff] at hk; exact hk.1)]; exact hk, hu⟩
      · rintro ⟨k, r', hk, hu⟩
        by_cases e : k < done.length
        · rw [List.getElem?_append_left e] at hk
          exact Or.inr (e1.2 ⟨k, r', hk, hu⟩)
        · have : k = done.length := by
            rw [List.getElem?_eq_some_iff] at hk
            obtain ⟨hk, _⟩ := hk
            simp at hk
            omega
          subst this
          simp at hk
          subst hk
          exact Or.inl (e2 u hu)
    · dsimp only
      rw [h.weights, List.map_append]
      rfl
    · intro v hv
      have e : (setFinal (insertSingle (.rule s.weights.length) (insertSingle .bound x))).initial = s.trans.initial := h5.initial
      dsimp only at hv
      rw [e, h5.old _ h.ok.pos] at hv
      exact h.root v hv

theorem compileRules_inv {upper : Nat → Bool} {one : Int} (rs : List Rule) {s s' : RSt} {den : Nat → List Lab → Prop} {done : List Rule}
    (h : RInv upper one s den done) (hr : compileRules upper one rs s = some s') : ∃ den', RInv upper one s' den' (done ++ rs) := by
  induction rs generalizing s den done with
  | nil =>
    rw [compileRules] at hr
    injection hr with hr
    subst hr
    exact ⟨den, by simpa using h⟩
  | cons r rs ih =>
    rw [compileRules] at hr
    cases hc : compileRule upper one r s with
    | none => rw [hc] at hr; cases hr
    | some s1 =>
      rw [hc] at hr
      simp only [Option.bind_some] at hr
      obtain ⟨den1, h1⟩ := compileRule_inv h r hc
      obtain ⟨den2, h2⟩ := ih h1 hr
      exact ⟨den2, by simpa using h2⟩

/-- What the transducer accepts before it is minimised. -/
theorem compileRules_accepts {upper : Nat → Bool} {one : Int} {rs : List Rule} {s : RSt} (h : compileRules upper one rs {} = some s) :
    (∀ u, s.trans.Accepts u ↔ ∃ k r, rs[k]? = some r ∧ ruleLang upper k r u) ∧ s.weights = rs.map (Rule.value one) := by
  obtain ⟨den, h1⟩ := compileRules_inv rs (s := {}) (den := fun q u => q = 0 ∧ u = []) (done := []) {
    ok := empty_at.ok
    finals := fun f hf => by cases hf
    accepts := fun u => by simp
    weights := rfl
    root := fun v hv => hv.2 } h
  rw [List.nil_append] at h1
  refine ⟨fun u => ?_, h1.weights⟩
  rw [← h1.accepts]
  unfold Trans.Accepts
  constructor
  · rintro ⟨f, hf, hp⟩; exact ⟨f, hf, (h1.ok.iff (h1.finals f hf) u).2 hp⟩
  · rintro ⟨f, hf, hp⟩; exact ⟨f, hf, (h1.ok.iff (h1.finals f hf) u).1 hp⟩

/-! ## Errors -/

theorem selectMark_iff (s : Text) (k : Caps.Mark) : selectMark s = some k ↔ Selects s k := by
  unfold selectMark Selects
  simp only [List.mem_cons, Prod.mk.injEq, List.not_mem_nil, or_false]
  by_cases e1 : s = []
  · subst e1; cases k <;> simp
  by_cases e2 : s = t!"AA"
  · subst e2; cases k <;> simp
  by_cases e3 : s = t!"Aa"
  · subst e3; cases k <;> simp
  by_cases e4 : s = t!"aa"
  · subst e4; cases k <;> simp
  by_cases e5 : s = t!"dix"
  · subst e5; cases k <;> simp
  simp [e1, e2, e3, e4, e5]

theorem timesOpt_ok {f : Trans × Nat → Option (Trans × Nat)} (hf : ∀ x, (f x).isSome = true) (n : Nat) (x : Trans × Nat) : (timesOpt f n x).isSome = true := by
  induction n generalizing x with
  | zero => rfl
  | succ n ih =>
    rw [timesOpt]
    obtain ⟨y, hy⟩ := Option.isSome_iff_exists.1 (hf x)
    rw [hy]
    exact ih y

theorem doStep_finals (s : StepT) (x : Trans × Nat) : (doStep s x).1.finals = x.1.finals := by
  have h1 : ∀ a, (insertSingle a x).1.finals = x.1.finals := by
    intro a; unfold insertSingle; split <;> rfl
  have h2 : ∀ t p q a, (link t p q a).finals = t.finals := by
    intro t p q a; unfold link; split <;> rfl
  cases s with
  | one a => exact h1 a
  | plus a => simp only [doStep, h2, h1]
  | star a => simp only [doStep, h2]; rfl

theorem doSteps_finals (ss : List StepT) (x : Trans × Nat) : (ss.foldl (fun x s => doStep s x) x).1.finals = x.1.finals := by
  induction ss generalizing x with
  | nil => rfl
  | cons s ss ih => rw [List.foldl_cons, ih, doStep_finals]

theorem insertTrans_finals {c : Trans} {x y : Trans × Nat} (h : insertTrans c x = some y) : y.1.finals = x.1.finals := by
  unfold insertTrans at h
  split at h
  · injection h with h; rw [← h]
  · cases h

theorem timesOpt_finals {c : Trans} (n : Nat) {x y : Trans × Nat} (h : timesOpt (insertTrans c) n x = some y) : y.1.finals = x.1.finals := by
  induction n generalizing x with
  | zero => rw [timesOpt] at h; injection h with h; rw [h]
  | succ n ih =>
    rw [timesOpt, Option.bind_eq_some_iff] at h
    obtain ⟨z, h1, h2⟩ := h
    rw [ih h2, insertTrans_finals h1]

theorem link_finals (t : Trans) (p q : Nat) (a : Option Lab) : (link t p q a).finals = t.finals := by unfold link; split <;> rfl

mutual
theorem compileNode_finals (upper : Nat → Bool) : (c : Node) → (x y : Trans × Nat) → compileNode upper c x = some y → y.1.finals = x.1.finals
  | .word m, x, y, h => by
    rw [compileNode] at h
    obtain ⟨_, k, _, rfl⟩ := compileMatch_some h
    exact doSteps_finals _ _
  | .start, x, y, h => by
    rw [compileNode] at h
    injection h with h
    rw [← h]
    exact doStep_finals (.one (.inp nullBoundary)) x
  | .or cs, x, y, h => by
    rw [compileNode] at h
    exact compileOr_finals upper x.2 cs x y h
  | .rep lo hi cs, x, y, h => by
    rw [compileNode] at h
    split at h
    · cases h
    split at h
    · cases h
    simp only [Option.bind_eq_some_iff] at h
    obtain ⟨c, _, z, h1, c', _, h2⟩ := h
    rw [timesOpt_finals _ h2, timesOpt_finals _ h1]

theorem compileSeq_finals (upper : Nat → Bool) : (cs : List Node) → (x y : Trans × Nat) → compileSeq upper cs x = some y → y.1.finals = x.1.finals
  | [], x, y, h => by rw [compileSeq] at h; injection h with h; rw [h]
  | c :: cs, x, y, h => by
    rw [compileSeq, Option.bind_eq_some_iff] at h
    obtain ⟨z, h1, h2⟩ := h
    rw [compileSeq_finals upper cs z y h2, compileNode_finals upper c x z h1]

theorem compileOr_finals (upper : Nat → Bool) (p : Nat) : (cs : List Node) → (x y : Trans × Nat) → compileOr upper p cs x = some y → y.1.finals = x.1.finals
  | [], x, y, h => by rw [compileOr] at h; injection h with h; rw [h]
  | c :: cs, x, y, h => by
    rw [compileOr, Option.bind_eq_some_iff] at h
    obtain ⟨z, h1, h2⟩ := h
    rw [compileOr_finals upper p cs _ y h2]
    have h3 : z.1.finals = x.1.finals := (compileNode_finals upper c (insertNew (x.1, p)) z h1).trans rfl
    split
    · exact h3
    · rw [link_finals, h3]
end

mutual
theorem compileNode_isSome (upper : Nat → Bool) : (c : Node) → (x : Trans × Nat) → ((compileNode upper c x).isSome = true ↔ c.Ok)
  | .word m, x => by
    rw [compileNode, Node.Ok]
    constructor
    · intro h
      obtain ⟨y, hy⟩ := Option.isSome_iff_exists.1 h
      obtain ⟨h1, k, h2, _⟩ := compileMatch_some hy
      exact ⟨h1.1, h1.2, k, (selectMark_iff _ _).1 h2⟩
    · rintro ⟨h1, h2, k, h3⟩
      exact compileMatch_ok x ⟨h1, h2⟩ ((selectMark_iff _ _).2 h3)
  | .start, x => by rw [compileNode, Node.Ok]; simp
  | .or cs, x => by
    rw [compileNode, Node.Ok]
    exact compileOr_isSome upper x.2 cs x
  | .rep lo hi cs, x => by
    rw [compileNode, Node.Ok]
    have ih := compileSeq_isSome upper cs ({}, 0)
    by_cases e1 : lo < 0 ∨ hi < 0
    · rw [if_pos e1]
      simp only [Option.isSome_none, Bool.false_eq_true, false_iff]
      omega
    rw [if_neg e1]
    by_cases e2 : lo > hi
    · rw [if_pos e2]
      simp only [Option.isSome_none, Bool.false_eq_true, false_iff]
      omega
    rw [if_neg e2]
    have e3 : (0 ≤ lo ∧ lo ≤ hi ∧ AllOk cs) ↔ AllOk cs := ⟨fun h => h.2.2, fun h => ⟨by omega, by omega, h⟩⟩
    rw [e3, ← ih]
    cases hc : compileSeq upper cs ({}, 0) with
    | none => simp
    | some c =>
      have hf : c.1.finals = [] := compileSeq_finals upper cs _ c hc
      have hsf : (setFinal c).finals = [c.2] := by simp [setFinal, hf]
      have hins : ∀ (d : Trans) (f : Nat), d.finals = [f] → ∀ x, (insertTrans d x).isSome = true := by
        intro d f hd x
        unfold insertTrans
        rw [hd]
        rfl
      obtain ⟨z, hz⟩ := Option.isSome_iff_exists.1 (timesOpt_ok (hins _ _ hsf) lo.toNat x)
      have ho : ∃ d f, optional (setFinal c) = some d ∧ d.finals = [f] := by
        unfold optional
        rw [hsf]
        exact ⟨_, _, rfl, rfl⟩
      obtain ⟨d, f, ho, hd⟩ := ho
      simp only [Option.bind_some, Option.isSome_some, iff_true]
      rw [hz]
      simp only [Option.bind_some]
      rw [ho]
      simp only [Option.bind_some]
      exact timesOpt_ok (hins d f hd) _ _

theorem compileSeq_isSome (upper : Nat → Bool) : (cs : List Node) → (x : Trans × Nat) → ((compileSeq upper cs x).isSome = true ↔ AllOk cs)
  | [], x => by rw [compileSeq, AllOk]; simp
  | c :: cs, x => by
    rw [compileSeq, AllOk, ← compileNode_isSome upper c x]
    cases hc : compileNode upper c x with
    | none => simp
    | some y => simp [compileSeq_isSome upper cs y]

theorem compileOr_isSome (upper : Nat → Bool) (p : Nat) : (cs : List Node) → (x : Trans × Nat) → ((compileOr upper p cs x).isSome = true ↔ AllOk cs)
  | [], x => by rw [compileOr, AllOk]; simp
  | c :: cs, x => by
    rw [compileOr, AllOk, ← compileNode_isSome upper c (insertNew (x.1, p))]
    cases hc : compileNode upper c (insertNew (x.1, p)) with
    | none => simp
    | some y =>
      simp only [Option.bind_some, Option.isSome_some, true_and]
      exact compileOr_isSome upper p cs _
end

theorem compileRules_isSome (upper : Nat → Bool) (one : Int) (rs : List Rule) (s : RSt) : (compileRules upper one rs s).isSome = true ↔ ∀ r ∈ rs, AllOk r.body := by
  induction rs generalizing s with
  | nil => simp [compileRules]
  | cons r rs ih =>
    rw [compileRules, List.forall_mem_cons, ← compileSeq_isSome upper r.body (insertNew (s.trans, s.trans.initial))]
    unfold compileRule
    cases compileSeq upper r.body (insertNew (s.trans, s.trans.initial)) with
    | none => simp
    | some x => simp [ih]

/-- **C73** The rules can be compiled exactly if no `match` has contradictory attributes or an unknown `select`, and the bounds of each `repeat` are in order. -/
theorem C73_compiles (upper : Nat → Bool) (one : Int) (minimize : Trans → Trans) (rs : List Rule) :
    (compile upper one minimize rs).isSome = true ↔ ∀ r ∈ rs, AllOk r.body := by
  unfold compile
  rw [Option.isSome_map]
  exact compileRules_isSome upper one rs {}

end Verif.Crx
