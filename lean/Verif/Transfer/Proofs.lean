import Verif.Transfer.Spec
namespace Verif.Transfer

theorem beginsWith_iff (h n : Text) : beginsWith h n = true ↔ n <+: h := by
  induction h generalizing n with
  | nil => cases n <;> simp [beginsWith]
  | cons a h ih =>
    cases n with
    | nil => simp [beginsWith]
    | cons b n =>
      simp only [beginsWith, List.cons_prefix_cons]
      by_cases hab : a = b
      · simp [hab, ih]
      · simp [hab, Ne.symm hab]

theorem endsWith_iff (h n : Text) : endsWith h n = true ↔ n <:+ h := by
  simp [endsWith, beginsWith_iff]

theorem contains_iff (h n : Text) : contains h n = true ↔ n <:+: h := by
  induction h with
  | nil => simp [contains]
  | cons a h ih => simp [contains, beginsWith_iff, ih, List.infix_cons_iff]

/-! ### Word-bound blanks -/

/-- A word-bound blank as the interpreter handles it: nothing, or a text that begins with `[`. -/
def WbOk (t : Text) : Prop := t = [] ∨ t.head? = some '['

theorem combine_ok {a b : Text} (ha : WbOk a) (hb : WbOk b) : ∃ c, combineWblanks a b = .ok c ∧ WbOk c := by
  unfold combineWblanks
  by_cases h1 : a = []
  · exact ⟨b, by simp [h1], hb⟩
  by_cases h2 : b = []
  · exact ⟨a, by simp [h1, h2], ha⟩
  rw [if_neg h1, if_neg h2]
  obtain ⟨a', rfl⟩ : ∃ a', a = '[' :: a' := by
    cases a with
    | nil => exact absurd rfl h1
    | cons x a' => rcases ha with h | h <;> simp at h; exact ⟨a', by rw [h]⟩
  dsimp only
  split
  · rename_i he
    have hlen : 2 ≤ ('[' :: a').length := by
      have := (endsWith_iff _ _).1 he
      simpa using this.length_le
    split
    · rename_i hl
      have : ∃ n, ('[' :: a').length - 2 = n + 1 := ⟨('[' :: a').length - 3, by omega⟩
      obtain ⟨n, hn⟩ := this
      rw [hn, List.take_succ_cons]
      rw [if_neg (by simp)]
      split
      · exact ⟨_, rfl, Or.inr (by simp)⟩
      · exact ⟨_, rfl, Or.inr (by simp)⟩
    · rename_i hl
      have h2' : ('[' :: a').length = 2 := by omega
      have := (endsWith_iff _ _).1 he
      have := this.eq_of_length (by simp [h2'])
      simp at this
  · exact ⟨_, rfl, Or.inr (by simp)⟩

/-! ### What an evaluation may change -/

theorem InOrder.nil (t : Text) : InOrder [] t := trivial

theorem InOrder.prepend {bs : List Text} {t : Text} (h : InOrder bs t) (p : Text) : InOrder bs (p ++ t) := by
  cases bs with
  | nil => trivial
  | cons b bs =>
    obtain ⟨x, y, rfl, h⟩ := h
    exact ⟨p ++ x, y, by simp, h⟩

theorem InOrder.append {bs cs : List Text} {t u : Text} (h : InOrder bs t) (h' : InOrder cs u) :
    InOrder (bs ++ cs) (t ++ u) := by
  induction bs generalizing t with
  | nil => exact h'.prepend t
  | cons b bs ih =>
    obtain ⟨x, y, rfl, h⟩ := h
    exact ⟨x, y ++ u, by simp, ih h⟩

theorem InOrder.extend {bs : List Text} {t : Text} (h : InOrder bs t) (p : Text) : InOrder bs (t ++ p) := by
  simpa using h.append (InOrder.nil p)

/-- All word-bound blanks of the state are empty or begin with `[`. -/
structure TSt.WbsOk (s : TSt) : Prop where
  heap : ∀ w ∈ s.heap, WbOk w.wb
  vars : ∀ n, WbOk (s.varWb n)
  out : WbOk s.outWb

/-- What the evaluation of an expression with value `t` may do. -/
structure Facts (s : TSt) (t : Text) (s' : TSt) : Prop where
  heap : s'.heap = s.heap
  word : s'.word = s.word
  vars : s'.vars = s.vars
  out : s'.out = s.out
  inOut : s'.inOut = s.inOut
  inLetVar : s'.inLetVar = s.inLetVar
  varVal : s'.varVal = s.varVal
  varWb : s.inLetVar = false → s'.varWb = s.varWb
  blanks : ∃ used, s.blanks = used ++ s'.blanks ∧ InOrder used t ∧ (s.inOut = false → used = [])
  wbs : s.WbsOk → s'.WbsOk

theorem Facts.refl (s : TSt) (t : Text) : Facts s t s :=
  ⟨rfl, rfl, rfl, rfl, rfl, rfl, rfl, fun _ => rfl, ⟨[], by simp, trivial, fun _ => rfl⟩, id⟩

theorem Facts.trans {s s1 s2 : TSt} {t u : Text} (h : Facts s t s1) (h' : Facts s1 u s2) : Facts s (t ++ u) s2 := by
  obtain ⟨b1, e1, i1, f1⟩ := h.blanks
  obtain ⟨b2, e2, i2, f2⟩ := h'.blanks
  exact ⟨by rw [h'.heap, h.heap], by rw [h'.word, h.word], by rw [h'.vars, h.vars], by rw [h'.out, h.out],
    by rw [h'.inOut, h.inOut], by rw [h'.inLetVar, h.inLetVar], by rw [h'.varVal, h.varVal],
    fun hl => by rw [h'.varWb (by rw [h.inLetVar, hl]), h.varWb hl],
    ⟨b1 ++ b2, by rw [e1, e2]; simp, i1.append i2, fun ho => by simp [f1 ho, f2 (by rw [h.inOut, ho])]⟩,
    fun hw => h'.wbs (h.wbs hw)⟩

theorem Facts.weaken {s s1 : TSt} {t : Text} (h : Facts s t s1) (p q : Text) : Facts s (p ++ t ++ q) s1 :=
  { h with
    blanks := by
      obtain ⟨b, e, i, f⟩ := h.blanks
      exact ⟨b, e, (i.prepend p).extend q, f⟩ }

/-- Changing only `outWb` (well) and `inLu` afterwards. -/
theorem Facts.post {s s1 : TSt} {t : Text} (h : Facts s t s1) (o : Text) (b : Bool) (ho : s1.WbsOk → WbOk o) :
    Facts s t { s1 with outWb := o, inLu := b } :=
  { h with wbs := fun hw => ⟨(h.wbs hw).heap, (h.wbs hw).vars, ho (h.wbs hw)⟩ }

theorem Facts.pre {s s1 : TSt} {t : Text} (o : Text) (b : Bool) (ho : WbOk o)
    (h : Facts { s with outWb := o, inLu := b } t s1) : Facts s t s1 :=
  { h with wbs := fun hw => h.wbs ⟨hw.heap, hw.vars, ho⟩ }

theorem ok_bind_eq {α β : Type} {o : Outcome α} {f : α → Outcome β} {b : β} (h : o.bind f = .ok b) :
    ∃ a, o = .ok a ∧ f a = .ok b := by
  cases o <;> simp [Outcome.bind] at h; exact ⟨_, rfl, h⟩

theorem ok_map_eq {α β : Type} {o : Outcome α} {f : α → β} {b : β} (h : o.map f = .ok b) :
    ∃ a, o = .ok a ∧ f a = b := by
  cases o <;> simp [Outcome.map] at h; exact ⟨_, rfl, h⟩

theorem wordAt_mem {s : TSt} {pos : Int} {i : Nat} {w : TWord} (h : s.wordAt pos = some (i, w)) :
    s.heap[i]? = some w ∧ w ∈ s.heap := by
  unfold TSt.wordAt at h
  split at h
  · simp at h
  split at h
  · simp at h
  split at h
  · rename_i j hj
    simp only [Option.map_eq_some_iff, Prod.mk.injEq] at h
    obtain ⟨w', hw, rfl, rfl⟩ := h
    exact ⟨hw, List.mem_of_getElem? hw⟩
  · simp at h

theorem addWblank_facts {env : TEnv} {part wb : Text} {s s' : TSt} {t : Text}
    (h : addWblank env part wb s = .ok s') (hwb : s.WbsOk → WbOk wb) : Facts s t s' := by
  unfold addWblank at h
  split at h
  · split at h
    · obtain ⟨c, hc, rfl⟩ := ok_map_eq h
      exact { Facts.refl s t with
        wbs := fun hw => by
          obtain ⟨c', hc', ok⟩ := combine_ok hw.out (hwb hw)
          rw [hc] at hc'; cases hc'
          exact ⟨hw.heap, hw.vars, ok⟩ }
    · split at h
      · rename_i hlet
        obtain ⟨c, hc, rfl⟩ := ok_map_eq h
        exact { Facts.refl s t with
          varWb := fun hl => by simp [hl] at hlet
          wbs := fun hw => by
            obtain ⟨c', hc', ok⟩ := combine_ok (hw.vars s.varVal) (hwb hw)
            rw [hc] at hc'; cases hc'
            refine ⟨hw.heap, fun n => ?_, hw.out⟩
            simp only [upd]; split
            · exact ok
            · exact hw.vars n }
      · cases h; exact Facts.refl s t
  · cases h; exact Facts.refl s t

theorem evalSimple_facts {env : TEnv} {e : Simple} {s s' : TSt} {t : Text} (u : Text)
    (h : evalSimple env e s = .ok (t, s')) : Facts s u s' := by
  cases e with
  | clip pos sd part q linkTo =>
    simp only [evalSimple] at h
    split at h
    · cases h; exact Facts.refl _ _
    · rename_i i w hw
      split at h
      · cases h; exact Facts.refl _ _
      split at h
      · cases h; exact Facts.refl _ _
      · obtain ⟨s1, h1, h2⟩ := ok_map_eq h
        cases h2
        exact addWblank_facts h1 fun hs => hs.heap _ (wordAt_mem hw).2
  | lit v => cases h; exact Facts.refl _ _
  | var n =>
    simp only [evalSimple] at h
    split at h
    · obtain ⟨c, hc, h2⟩ := ok_map_eq h
      cases h2
      exact { Facts.refl s _ with
        wbs := fun hw => by
          obtain ⟨c', hc', ok⟩ := combine_ok hw.out (hw.vars n)
          rw [hc] at hc'; cases hc'
          exact ⟨hw.heap, hw.vars, ok⟩ }
    · cases h; exact Facts.refl _ _

theorem luText_facts {s s1 : TSt} {t : Text} (h : Facts s t s1) (wb : Text) : Facts s (luText wb t) s1 := by
  unfold luText
  split
  · rename_i ht; rw [ht] at h; exact h
  split
  · simpa using h.weaken [] ['$']
  · simpa using h.weaken (wb ++ ['^']) ['$']

theorem mluText_facts {s s1 : TSt} {t : Text} (h : Facts s t s1) (wb : Text) : Facts s (mluText wb t) s1 := by
  unfold mluText
  split
  · rename_i ht; rw [ht] at h; exact h
  · simpa using h.weaken (wb ++ ['^']) ['$']

theorem finishLu_facts {env : TEnv} {s s1 s2 : TSt} {t u : Text} (hf : Facts s t s1)
    (h : finishLu env t { s1 with inLu := false } = .ok (u, s2)) : Facts s u s2 := by
  have h0 : Facts s t { s1 with inLu := false } := hf.post s1.outWb false (fun hw => hw.out)
  unfold finishLu at h
  split at h
  · split at h
    · cases h; exact luText_facts h0 _
    · simp at h
    · split at h
      · simp at h
      · rename_i i _ _ w hw
        cases h
        exact luText_facts (hf.post w.wb false (fun hs => hs.heap _ (List.mem_of_getElem? hw))) _
  · cases h; exact luText_facts h0 _

theorem finishMlu_facts {env : TEnv} {s s1 s2 : TSt} {t u : Text} (hf : Facts s t s1)
    (h : finishMlu env t s1 = .ok (u, s2)) : Facts s u s2 := by
  unfold finishMlu at h
  split at h
  · split at h
    · split at h
      · simp at h
      · rename_i i _ _ w hw
        cases h
        exact mluText_facts (hf.post w.wb s1.inLu (fun hs => hs.heap _ (List.mem_of_getElem? hw))) _
    · simp at h
  · cases h; exact mluText_facts hf _

mutual
theorem evalExpr_facts (env : TEnv) : (e : Expr) → ∀ {s s' : TSt} {t : Text},
    evalExpr env e s = .ok (t, s') → Facts s t s'
  | .simple e, s, s', t, h => evalSimple_facts _ (by simpa [evalExpr] using h)
  | .litTag v, s, s', t, h => by simp only [evalExpr] at h; cases h; exact Facts.refl _ _
  | .blank, s, s', t, h => by
    simp only [evalExpr] at h
    split at h
    · cases h; exact Facts.refl _ _
    · rename_i b bs hb
      by_cases ho : s.inOut = true
      · simp only [ho, if_true] at h
        cases h
        exact { Facts.refl s t with
          inOut := ho.symm ▸ rfl
          blanks := ⟨[t], by simp [hb], ⟨[], [], by simp, trivial⟩, fun h => by simp [ho] at h⟩
          wbs := fun hw => ⟨hw.heap, hw.vars, hw.out⟩ }
      · simp only [ho] at h
        cases h; exact Facts.refl _ _
  | .getCaseFrom pos param, s, s', t, h => by
    simp only [evalExpr] at h
    split at h
    · cases h; exact Facts.refl _ _
    · obtain ⟨⟨d, s1⟩, h1, h2⟩ := ok_map_eq h
      cases h2
      exact evalSimple_facts _ h1
  | .luCount, s, s', t, h => by simp [evalExpr] at h
  | .caseOf pos sd part, s, s', t, h => by
    simp only [evalExpr] at h
    split at h <;> (cases h; exact Facts.refl _ _)
  | .concat es, s, s', t, h => evalList_facts env es (by simpa [evalExpr] using h)
  | .lu es, s, s', t, h => by
    simp only [evalExpr] at h
    obtain ⟨⟨u, s1⟩, h1, h2⟩ := ok_bind_eq h
    exact finishLu_facts ((evalList_facts env es h1).pre [] true (Or.inl rfl)) h2
  | .mlu lus, s, s', t, h => by
    simp only [evalExpr] at h
    obtain ⟨⟨u, s1⟩, h1, h2⟩ := ok_bind_eq h
    exact finishMlu_facts ((evalMlu_facts env lus h1).pre [] true (Or.inl rfl)) h2
  | .chunk name namefrom caseVar items, s, s', t, h => by
    simp only [evalExpr] at h
    obtain ⟨nm, _, h⟩ := ok_bind_eq h
    obtain ⟨⟨u, s1⟩, h1, h2⟩ := ok_map_eq h
    cases h2
    have := (evalChunk_facts env items h1).weaken ('^' :: nm) ['}', '$']
    simpa using this
  | .tags _, s, s', t, h => by simp [evalExpr] at h
  | .unknown, s, s', t, h => by simp [evalExpr] at h
theorem evalList_facts (env : TEnv) : (es : List Expr) → ∀ {s s' : TSt} {t : Text},
    evalList env es s = .ok (t, s') → Facts s t s'
  | [], s, s', t, h => by simp only [evalList] at h; cases h; exact Facts.refl _ _
  | e :: es, s, s', t, h => by
    simp only [evalList] at h
    obtain ⟨⟨a, s1⟩, h1, h⟩ := ok_bind_eq h
    obtain ⟨⟨b, s2⟩, h2, h3⟩ := ok_map_eq h
    cases h3
    exact (evalExpr_facts env e h1).trans (evalList_facts env es h2)
theorem evalMlu_facts (env : TEnv) : (ls : List (List Expr)) → ∀ {first : Bool} {s s' : TSt} {t : Text},
    evalMlu env ls first s = .ok (t, s') → Facts s t s'
  | [], first, s, s', t, h => by simp only [evalMlu] at h; cases h; exact Facts.refl _ _
  | l :: ls, first, s, s', t, h => by
    simp only [evalMlu] at h
    obtain ⟨⟨a, s1⟩, h1, h⟩ := ok_bind_eq h
    obtain ⟨⟨b, s2⟩, h2, h3⟩ := ok_map_eq h
    cases h3
    have := ((evalList_facts env l h1).weaken
      (if first = false ∧ a ≠ [] ∧ a.head? ≠ some '#' then ['+'] else []) []).trans (evalMlu_facts env ls h2)
    simpa using this
theorem evalTags_facts (env : TEnv) : (ls : List (List Expr)) → ∀ {s s' : TSt} {t : Text},
    evalTags env ls s = .ok (t, s') → Facts s t s'
  | [], s, s', t, h => by simp only [evalTags] at h; cases h; exact Facts.refl _ _
  | l :: ls, s, s', t, h => by
    simp only [evalTags] at h
    obtain ⟨⟨a, s1⟩, h1, h⟩ := ok_bind_eq h
    obtain ⟨⟨b, s2⟩, h2, h3⟩ := ok_map_eq h
    cases h3
    exact (evalList_facts env l h1).trans (evalTags_facts env ls h2)
theorem evalChunk_facts (env : TEnv) : (es : List Expr) → ∀ {s s' : TSt} {t : Text},
    evalChunk env es s = .ok (t, s') → Facts s t s'
  | [], s, s', t, h => by simp only [evalChunk] at h; cases h; exact Facts.refl _ _
  | e :: es, s, s', t, h => by
    by_cases he : ∃ ts, e = .tags ts
    · obtain ⟨ts, rfl⟩ := he
      simp only [evalChunk] at h
      obtain ⟨⟨a, s1⟩, h1, h⟩ := ok_bind_eq h
      obtain ⟨⟨b, s2⟩, h2, h3⟩ := ok_map_eq h
      cases h3
      have := ((evalTags_facts env ts h1).weaken [] ['{']).trans (evalChunk_facts env es h2)
      simpa using this
    · rw [evalChunk.eq_3 env s e es (fun ts h => he ⟨ts, h⟩)] at h
      obtain ⟨⟨a, s1⟩, h1, h⟩ := ok_bind_eq h
      obtain ⟨⟨b, s2⟩, h2, h3⟩ := ok_map_eq h
      cases h3
      exact (evalExpr_facts env e h1).trans (evalChunk_facts env es h2)
end

/-! ### Values do not depend on the word-bound blanks being collected -/

/-- The two states differ at most in `outWb` and `inLu`. -/
def Sim (s s' : TSt) : Prop := s' = { s with outWb := s'.outWb, inLu := s'.inLu }

theorem Sim.refl (s : TSt) : Sim s s := rfl

theorem Sim.symm {s s' : TSt} (h : Sim s s') : Sim s' s := by
  cases s; cases s'; simp_all [Sim]

theorem Sim.trans {a b c : TSt} (h : Sim a b) (h' : Sim b c) : Sim a c := by
  cases a; cases b; cases c; simp_all [Sim]

theorem Sim.reset {s s' : TSt} (h : Sim s s') (o : Text) (b : Bool) :
    { s' with outWb := o, inLu := b } = { s with outWb := o, inLu := b } := by
  cases s; cases s'; simp_all [Sim]

theorem Facts.sim {s s' : TSt} {t : Text} (h : Facts s t s') (ho : s.inOut = false) (hl : s.inLetVar = false) :
    Sim s s' := by
  obtain ⟨used, e, _, f⟩ := h.blanks
  have hb : s'.blanks = s.blanks := by rw [e, f ho]; rfl
  have h1 := h.heap; have h2 := h.word; have h3 := h.vars; have h4 := h.out; have h5 := h.inOut
  have h6 := h.inLetVar; have h7 := h.varVal; have h8 := h.varWb hl
  cases s; cases s'; simp_all [Sim]

theorem addWblank_sim {env : TEnv} {part wb : Text} {s s1 : TSt} (h : Sim s s1) (hl : s.inLetVar = false)
    (hw : s1.WbsOk) (hb : WbOk wb) : ∃ s2, addWblank env part wb s1 = .ok s2 ∧ Sim s s2 := by
  have hl1 : s1.inLetVar = false := by rw [h]; exact hl
  unfold addWblank
  split
  · split
    · obtain ⟨c, hc, _⟩ := combine_ok hw.out hb
      refine ⟨{ s1 with outWb := c }, by rw [hc]; rfl, ?_⟩
      cases s; cases s1; simp_all [Sim]
    · split
      · simp_all
      · exact ⟨s1, rfl, h⟩
  · exact ⟨s1, rfl, h⟩

theorem evalSimple_sim {env : TEnv} {e : Simple} {s s1 s' : TSt} {t : Text} (h : Sim s s1) (hl : s.inLetVar = false)
    (hw : s1.WbsOk) (he : evalSimple env e s = .ok (t, s')) : ∃ s2, evalSimple env e s1 = .ok (t, s2) ∧ Sim s s2 := by
  have hwa : ∀ p, s1.wordAt p = s.wordAt p := by intro p; rw [h]; rfl
  cases e with
  | clip pos sd part q linkTo =>
    simp only [evalSimple, hwa] at he ⊢
    split at he
    · cases he; exact ⟨s1, rfl, h⟩
    · rename_i i w hiw
      split at he
      · rename_i h'; cases he; exact ⟨s1, by rw [if_pos h'], h⟩
      rename_i h'
      split at he
      · rename_i h''; cases he; simp only [h', if_false, h'', if_true]; exact ⟨s1, rfl, h⟩
      · rename_i h''
        obtain ⟨s2, h2, _⟩ := ok_map_eq he
        simp only [h', if_false, h'']
        obtain ⟨s3, h3, hs⟩ := addWblank_sim (env := env) (part := part) h hl hw
          (hw.heap w (by have := (wordAt_mem hiw).2; rw [h]; exact this))
        refine ⟨s3, ?_, hs⟩
        rw [h3]; simp_all
  | lit v => simp only [evalSimple] at he ⊢; cases he; exact ⟨s1, rfl, h⟩
  | var n =>
    simp only [evalSimple] at he ⊢
    have hv : s1.vars = s.vars := by rw [h]
    split at he
    · rename_i hk
      obtain ⟨c, hc, h2⟩ := ok_map_eq he
      obtain ⟨c', hc', _⟩ := combine_ok hw.out (hw.vars n)
      refine ⟨{ s1 with outWb := c' }, ?_, ?_⟩
      · rw [if_pos hk, hc']; simp only [Outcome.map, hv]; simp_all
      · clear hc hc' h2 he hk; cases s; cases s1; simp_all [Sim]
    · rename_i hk
      cases he
      exact ⟨s1, by rw [if_neg hk, hv], h⟩

theorem Facts.inOut_false {s s' : TSt} {t : Text} (h : Facts s t s') : s'.inOut = s.inOut := h.inOut

/-- The combined statement proved by induction over expressions. -/
abbrev SimStmt (f : TSt → Outcome (Text × TSt)) : Prop :=
  ∀ {s s1 s' : TSt} {t : Text}, Sim s s1 → s.inOut = false → s.inLetVar = false → s.WbsOk → s1.WbsOk →
    f s = .ok (t, s') → ∃ s2, f s1 = .ok (t, s2) ∧ Sim s s2

theorem SimStmt.seq {f g : TSt → Outcome (Text × TSt)} (hf : SimStmt f) (hg : SimStmt g)
    (ff : ∀ {s s' : TSt} {t : Text}, f s = .ok (t, s') → Facts s t s') (mk : Text → Text → Text) :
    SimStmt fun s => (f s).bind fun (a, s1) => (g s1).map fun (b, s2) => (mk a b, s2) := by
  intro s s1 s' t h ho hl hw hw1 he
  obtain ⟨⟨a, s2⟩, h1, he⟩ := ok_bind_eq he
  obtain ⟨⟨b, s3⟩, h2, h3⟩ := ok_map_eq he
  cases h3
  obtain ⟨s4, h4, hs4⟩ := hf h ho hl hw hw1 h1
  have F := ff h1
  have F4 := ff h4
  have hs2 : Sim s s2 := F.sim ho hl
  obtain ⟨s5, h5, hs5⟩ := hg (hs2.symm.trans hs4) (by rw [F.inOut, ho]) (by rw [F.inLetVar, hl])
    (F.wbs hw) (F4.wbs hw1) h2
  exact ⟨s5, by simp only [h4, Outcome.bind, h5, Outcome.map], hs2.trans hs5⟩

mutual
theorem evalExpr_sim (env : TEnv) : (e : Expr) → SimStmt (evalExpr env e)
  | .simple e, s, s1, s', t, h, ho, hl, hw, hw1, he => by
    simp only [evalExpr] at he ⊢; exact evalSimple_sim h hl hw1 he
  | .litTag v, s, s1, s', t, h, ho, hl, hw, hw1, he => by
    simp only [evalExpr] at he ⊢; cases he; exact ⟨s1, rfl, h⟩
  | .blank, s, s1, s', t, h, ho, hl, hw, hw1, he => by
    have hb : s1.blanks = s.blanks := by rw [h]
    have ho1 : s1.inOut = false := by rw [h]; exact ho
    simp only [evalExpr, hb, ho, ho1] at he ⊢
    split at he <;> (cases he; exact ⟨s1, rfl, h⟩)
  | .getCaseFrom pos param, s, s1, s', t, h, ho, hl, hw, hw1, he => by
    have hwa : ∀ p, s1.wordAt p = s.wordAt p := by intro p; rw [h]; rfl
    simp only [evalExpr, hwa] at he ⊢
    split at he
    · cases he; exact ⟨s1, rfl, h⟩
    · obtain ⟨⟨d, s2⟩, h1, h2⟩ := ok_map_eq he
      cases h2
      obtain ⟨s3, h3, hs3⟩ := evalSimple_sim h hl hw1 h1
      exact ⟨s3, by rw [h3]; rfl, hs3⟩
  | .luCount, s, s1, s', t, h, ho, hl, hw, hw1, he => by simp [evalExpr] at he
  | .caseOf pos sd part, s, s1, s', t, h, ho, hl, hw, hw1, he => by
    have hwa : ∀ p, s1.wordAt p = s.wordAt p := by intro p; rw [h]; rfl
    simp only [evalExpr, hwa] at he ⊢
    split at he <;> (cases he; exact ⟨s1, rfl, h⟩)
  | .concat es, s, s1, s', t, h, ho, hl, hw, hw1, he => by
    simp only [evalExpr] at he ⊢; exact evalList_sim env es h ho hl hw hw1 he
  | .lu es, s, s1, s', t, h, ho, hl, hw, hw1, he => by
    have F := evalExpr_facts env _ he
    simp only [evalExpr] at he ⊢
    rw [h.reset [] true, he]; exact ⟨s', rfl, F.sim ho hl⟩
  | .mlu lus, s, s1, s', t, h, ho, hl, hw, hw1, he => by
    have F := evalExpr_facts env _ he
    simp only [evalExpr] at he ⊢
    rw [h.reset [] true, he]; exact ⟨s', rfl, F.sim ho hl⟩
  | .chunk name namefrom caseVar items, s, s1, s', t, h, ho, hl, hw, hw1, he => by
    have hn : chunkName env name namefrom caseVar s1 = chunkName env name namefrom caseVar s := by
      rw [h]; rfl
    simp only [evalExpr, hn] at he ⊢
    obtain ⟨nm, h0, he⟩ := ok_bind_eq he
    obtain ⟨⟨u, s2⟩, h1, h2⟩ := ok_map_eq he
    cases h2
    obtain ⟨s3, h3, hs3⟩ := evalChunk_sim env items h ho hl hw hw1 h1
    exact ⟨s3, by rw [h0]; simp only [Outcome.bind, h3, Outcome.map], hs3⟩
  | .tags _, s, s1, s', t, h, ho, hl, hw, hw1, he => by simp [evalExpr] at he
  | .unknown, s, s1, s', t, h, ho, hl, hw, hw1, he => by simp [evalExpr] at he
theorem evalList_sim (env : TEnv) : (es : List Expr) → SimStmt (evalList env es)
  | [], s, s1, s', t, h, ho, hl, hw, hw1, he => by
    simp only [evalList] at he ⊢; cases he; exact ⟨s1, rfl, h⟩
  | e :: es, s, s1, s', t, h, ho, hl, hw, hw1, he => by
    simp only [evalList] at he ⊢
    exact SimStmt.seq (evalExpr_sim env e) (evalList_sim env es) (evalExpr_facts env e) (fun a b => a ++ b)
      h ho hl hw hw1 he
theorem evalMlu_sim (env : TEnv) : (ls : List (List Expr)) → ∀ first, SimStmt (evalMlu env ls first)
  | [], first, s, s1, s', t, h, ho, hl, hw, hw1, he => by
    simp only [evalMlu] at he ⊢; cases he; exact ⟨s1, rfl, h⟩
  | l :: ls, first, s, s1, s', t, h, ho, hl, hw, hw1, he => by
    simp only [evalMlu] at he ⊢
    obtain ⟨⟨a, s2⟩, h1, he⟩ := ok_bind_eq he
    obtain ⟨⟨b, s3⟩, h2, h3⟩ := ok_map_eq he
    cases h3
    obtain ⟨s4, h4, hs4⟩ := evalList_sim env l h ho hl hw hw1 h1
    have F := evalList_facts env l h1
    have F4 := evalList_facts env l h4
    have hs2 : Sim s s2 := F.sim ho hl
    obtain ⟨s5, h5, hs5⟩ := evalMlu_sim env ls _ (hs2.symm.trans hs4) (by rw [F.inOut, ho]) (by rw [F.inLetVar, hl])
      (F.wbs hw) (F4.wbs hw1) h2
    exact ⟨s5, by simp only [h4, Outcome.bind, h5, Outcome.map], hs2.trans hs5⟩
theorem evalTags_sim (env : TEnv) : (ls : List (List Expr)) → SimStmt (evalTags env ls)
  | [], s, s1, s', t, h, ho, hl, hw, hw1, he => by
    simp only [evalTags] at he ⊢; cases he; exact ⟨s1, rfl, h⟩
  | l :: ls, s, s1, s', t, h, ho, hl, hw, hw1, he => by
    simp only [evalTags] at he ⊢
    exact SimStmt.seq (evalList_sim env l) (evalTags_sim env ls) (evalList_facts env l) (fun a b => a ++ b)
      h ho hl hw hw1 he
theorem evalChunk_sim (env : TEnv) : (es : List Expr) → SimStmt (evalChunk env es)
  | [], s, s1, s', t, h, ho, hl, hw, hw1, he => by
    simp only [evalChunk] at he ⊢; cases he; exact ⟨s1, rfl, h⟩
  | e :: es, s, s1, s', t, h, ho, hl, hw, hw1, he => by
    by_cases hn : ∃ ts, e = .tags ts
    · obtain ⟨ts, rfl⟩ := hn
      simp only [evalChunk] at he ⊢
      exact SimStmt.seq (evalTags_sim env ts) (evalChunk_sim env es) (evalTags_facts env ts)
        (fun a b => a ++ '{' :: b) h ho hl hw hw1 he
    · rw [evalChunk.eq_3 env s e es (fun ts h => hn ⟨ts, h⟩)] at he
      rw [evalChunk.eq_3 env s1 e es (fun ts h => hn ⟨ts, h⟩)]
      exact SimStmt.seq (evalExpr_sim env e) (evalChunk_sim env es) (evalExpr_facts env e) (fun a b => a ++ b)
        h ho hl hw hw1 he
end

end Verif.Transfer
