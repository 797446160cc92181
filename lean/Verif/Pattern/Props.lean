import Verif.Pattern.Run
import Verif.Bil.Props
/-!
# C72: the rule that is used is the first one whose pattern the words fit
-/
namespace Verif.Pattern
open Verif.Bil (Step)

theorem mem_numbered (rules : List (List Text)) (c r : Nat) (cs : List Text) :
    (r, cs) ∈ numbered c rules ↔ ∃ k ns, r = k + c ∧ rules[k]? = some ns ∧ cs = ns.reverse := by
  induction rules generalizing c with
  | nil => simp [numbered]
  | cons ns rules ih =>
    rw [numbered, List.mem_cons, ih]
    constructor
    · rintro (h | ⟨k, ms, h1, h2, h3⟩)
      · injection h with h1 h2
        exact ⟨0, ns, by omega, rfl, h2⟩
      · exact ⟨k + 1, ms, by omega, by simpa using h2, h3⟩
    · rintro ⟨k, ms, h1, h2, h3⟩
      cases k with
      | zero =>
        simp only [List.getElem?_cons_zero, Option.some.injEq] at h2
        left
        rw [h1, h3, h2, Nat.zero_add]
      | succ k =>
        right
        exact ⟨k, ms, by omega, by simpa using h2, h3⟩

theorem all2_fits (cats : List (Text × List CatItem)) (ns : List Text) (ess : List (List Step)) :
    All2 (fun n es => ∃ is, lookupCat cats n = some is ∧ ∃ i ∈ is, ∃ w : Word, es = w.events ∧ i.Fits w) ns ess ↔ FitsRead cats ns ess := by
  constructor
  · intro h
    induction h with
    | nil => exact ⟨[], rfl, rfl, fun i h => by simp at h⟩
    | @cons n es ns ess h _ ih =>
      obtain ⟨ws, h1, h2, h3⟩ := ih
      obtain ⟨is, h4, i, h5, w, h6, h7⟩ := h
      refine ⟨w :: ws, by rw [List.map_cons, ← h1, h6], by simp [h2], fun j hj hj' => ?_⟩
      cases j with
      | zero => exact ⟨is, (lookupCat_iff _ _ _).1 h4, i, h5, h7⟩
      | succ j => exact h3 j (by simpa using hj) (by simpa using hj')
  · rintro ⟨ws, rfl, h1, h2⟩
    induction ns generalizing ws with
    | nil =>
      cases ws with
      | nil => exact .nil
      | cons _ _ => simp at h1
    | cons n ns ih =>
      cases ws with
      | nil => simp at h1
      | cons w ws =>
        obtain ⟨is, h4, i, h5, h7⟩ := h2 0 (by simp) (by simp)
        refine .cons ⟨is, (lookupCat_iff _ _ _).2 h4, i, h5, w, rfl, h7⟩ (ih ws (by simpa using h1) (fun j hj hj' => ?_))
        exact h2 (j + 1) (by simpa using hj) (by simpa using hj')

/-- The rules whose number follows the words, in the transducer. -/
def Follows (m : Trans) (ess : List (List Step)) (r : Nat) : Prop := ∃ u, ReadsAll ess.reverse u ∧ m.Accepts (u ++ [.rule r])

section
variable (minimize : Trans → Trans) (hm : ∀ t, Minimal t (minimize t)) (cats : List (Text × List CatItem)) (hp : ∀ c ∈ cats, ∀ i ∈ c.2, i.Plain)
  (rules : List (List Text)) (m : Trans) (hc : compile minimize cats rules = some m)
include hm hp hc

theorem compile_accepts : ∃ t, Minimal t m ∧
    (∀ u, t.Accepts u → ∃ k ns v, rules[k]? = some ns ∧ PatLang (fun n s => ∃ is, lookupCat cats n = some is ∧ (defCat minimize is).Accepts s) ns.reverse v ∧ u = v ++ [.rule (k + 1)]) ∧
    (∀ k ns, rules[k]? = some ns → ∃ r' ≤ k + 1, ∀ v, PatLang (fun n s => ∃ is, lookupCat cats n = some is ∧ (defCat minimize is).Accepts s) ns.reverse v → t.Accepts (v ++ [.rule r'])) := by
  unfold compile at hc
  cases hx : procRules (fun n => (lookupCat cats n).map (defCat minimize)) 1 {} rules with
  | none => rw [hx] at hc; cases hc
  | some s =>
    rw [hx] at hc
    injection hc with hc
    subst hc
    obtain ⟨h1, h2⟩ := procRules_accepts (fun n c hn => by
      cases hl : lookupCat cats n with
      | none => rw [hl] at hn; cases hn
      | some is =>
        rw [hl] at hn
        injection hn with hn
        exact hn ▸ defCat_ok minimize hm cats hp hl) rules s hx
    have hC : (fun n s => ∃ c, Option.map (defCat minimize) (lookupCat cats n) = some c ∧ c.Accepts s) =
        fun n s => ∃ is, lookupCat cats n = some is ∧ (defCat minimize is).Accepts s := by
      funext n s
      cases lookupCat cats n <;> simp
    rw [hC] at h1 h2
    refine ⟨s.trans, hm _, fun u hu => ?_, fun k ns hk => h2 (k + 1) ns.reverse ((mem_numbered _ _ _ _).2 ⟨k, ns, rfl, hk, rfl⟩)⟩
    obtain ⟨r, cs, v, h3, h4, h5⟩ := h1 u hu
    obtain ⟨k, ns, h6, h7, h8⟩ := (mem_numbered _ _ _ _).1 h3
    subst h6 h8
    exact ⟨k, ns, v, h7, h4, h5⟩

/-- The labels of the whole. -/
def RuleSym (cats : List (Text × List CatItem)) : Sym → Prop
  | .tag t => t ∈ alphabet cats
  | _ => True

omit hp hc hm in
theorem catSym_rule {cats : List (Text × List CatItem)} {a : Sym} (h : CatSym cats a) : RuleSym cats a := by
  cases a <;> first | exact trivial | exact h

omit hp hc hm in
theorem PatLang.symbols {C : Text → List Sym → Prop} {P : Sym → Prop} (hC : ∀ n s, C n s → ∀ a ∈ s, P a) (h1 : ∀ c, P (.chr c)) {ns : List Text}
    {u : List Sym} (h : PatLang C ns u) : ∀ a ∈ u, P a := by
  induction h with
  | nil => simp
  | cons _ hc hb ih =>
    intro a ha
    simp only [List.mem_append, List.mem_cons, List.mem_nil_iff, or_false] at ha
    rcases ha with ((ha | ha) | ha | ha) | ha
    · exact ih a ha
    · rcases hb with rfl | ⟨_, rfl⟩
      · simp at ha
      · rw [List.mem_singleton.1 ha]; exact h1 _
    · rw [ha]; exact h1 _
    · exact hC _ _ hc a ha
    · rw [ha]; exact h1 _

theorem compile_runs : Runs m (alphabet cats) := by
  obtain ⟨t, h1, h2, _⟩ := compile_accepts minimize hm cats hp rules m hc
  refine ⟨h1.noEmpty, fun p t' q he => ?_⟩
  refine h1.labels (P := RuleSym cats) (fun u hu => ?_) _ he _ rfl
  obtain ⟨k, ns, v, _, h4, h5⟩ := h2 u hu
  subst h5
  intro a ha
  rcases List.mem_append.1 ha with ha | ha
  · exact PatLang.symbols (P := RuleSym cats) (fun n s hs a ha => by
      obtain ⟨is, h6, f, _, h7⟩ := hs
      exact catSym_rule (Labels.path (defCat_labels minimize hm cats hp h6) h7 a ha)) (fun _ => trivial) h4 a ha
  · rw [List.mem_singleton.1 ha]; exact trivial

/-- A rule follows only words that fit its pattern; words that fit a pattern are followed by its rule or an earlier one. -/
theorem compile_follows (ess : List (List Step)) (he : ∀ es ∈ ess, .char '$' ∉ es ∧ .tag t!"<ANY_CHAR>" ∉ es) :
    (∀ r, Follows m ess r → ∃ k ns, r = k + 1 ∧ rules[k]? = some ns ∧ FitsRead cats ns ess) ∧
    (∀ k ns, rules[k]? = some ns → FitsRead cats ns ess → ∃ r ≤ k + 1, Follows m ess r) := by
  obtain ⟨t, h1, h2, h3⟩ := compile_accepts minimize hm cats hp rules m hc
  have hC : ∀ n s, (∃ is, lookupCat cats n = some is ∧ (defCat minimize is).Accepts s) → .chr '$' ∉ s := by
    rintro n s ⟨is, h4, f, _, h5⟩ h6
    exact Labels.path (defCat_labels minimize hm cats hp h4) h5 _ h6 rfl
  have hw : ∀ n, ∀ es ∈ ess, ((∃ s, Reads es s ∧ ∃ is, lookupCat cats n = some is ∧ (defCat minimize is).Accepts s) ↔
      ∃ is, lookupCat cats n = some is ∧ ∃ i ∈ is, ∃ w : Word, es = w.events ∧ i.Fits w) := by
    intro n es hes
    constructor
    · rintro ⟨s, h4, is, h5, h6⟩
      obtain ⟨n', h7⟩ := lookupCat_mem h5
      exact ⟨is, h5, (C72_category_partial minimize hm is (hp _ h7) es (he es hes).2).1 ⟨s, h4, h6⟩⟩
    · rintro ⟨is, h5, h6⟩
      obtain ⟨n', h7⟩ := lookupCat_mem h5
      obtain ⟨s, h4, h8⟩ := (C72_category_partial minimize hm is (hp _ h7) es (he es hes).2).2 h6
      exact ⟨s, h4, is, h5, h8⟩
  have hmi := fun ns : List Text => match_iff _ hC ns.reverse ess.reverse (fun es hes => (he es (List.mem_reverse.1 hes)).1)
  constructor
  · rintro r ⟨u, h4, h5⟩
    obtain ⟨k, ns, v, h6, h7, h8⟩ := h2 _ ((h1.same _).1 h5)
    obtain ⟨h9, h10⟩ := List.append_inj' h8 rfl
    injection h10 with h10
    injection h10 with h10
    subst h9
    refine ⟨k, ns, h10, h6, (all2_fits cats ns ess).1 ?_⟩
    have h11 := ((hmi ns).1 ⟨u, h4, h7⟩).reverse
    rw [List.reverse_reverse, List.reverse_reverse] at h11
    exact h11.imp (fun n _ es hes => (hw n es hes).1)
  · intro k ns hk hf
    obtain ⟨r', h4, h5⟩ := h3 k ns hk
    have h6 := (((all2_fits cats ns ess).2 hf).imp (fun n _ es hes => (hw n es hes).2)).reverse
    obtain ⟨u, h7, h8⟩ := (hmi ns).2 h6
    exact ⟨r', h4, u, h7, (h1.same _).2 (h5 u h8)⟩

end

/-! ## The choice of a rule -/

theorem ruleOf_some {m : Trans} {q r : Nat} : ruleOf m q = some r ↔
    (∃ f ∈ m.finals, (q, some (.rule r), f) ∈ m.edges) ∧ ∀ r', (∃ f ∈ m.finals, (q, some (.rule r'), f) ∈ m.edges) → r ≤ r' := by
  have key : ∀ r, r ∈ (m.edges.filterMap (fun e => match e.2.1 with
    | some (.rule r) => if e.1 = q ∧ e.2.2 ∈ m.finals then some r else none
    | _ => none)) ↔ ∃ f ∈ m.finals, (q, some (.rule r), f) ∈ m.edges := by
    intro r
    simp only [List.mem_filterMap]
    constructor
    · rintro ⟨⟨p, a, f⟩, h1, h2⟩
      dsimp only at h2
      split at h2
      · split at h2
        · rename_i hx
          injection h2 with h2
          obtain ⟨rfl, h3⟩ := hx
          subst h2
          exact ⟨f, h3, h1⟩
        · cases h2
      · cases h2
    · rintro ⟨f, h1, h2⟩
      exact ⟨_, h2, by simp [h1]⟩
  unfold ruleOf
  rw [List.min?_eq_some_iff]
  constructor
  · rintro ⟨h1, h2⟩
    exact ⟨(key r).1 h1, fun r' h => h2 r' ((key r').2 h)⟩
  · rintro ⟨h1, h2⟩
    exact ⟨(key r).2 h1, fun r' h => h2 r' ((key r').1 h)⟩

theorem ruleOf_exists {m : Trans} {q r : Nat} (h : ∃ f ∈ m.finals, (q, some (.rule r), f) ∈ m.edges) : ∃ r' ≤ r, ruleOf m q = some r' := by
  cases hx : ruleOf m q with
  | some r' => exact ⟨r', (ruleOf_some.1 hx).2 r h, rfl⟩
  | none =>
    exfalso
    obtain ⟨f, h1, h2⟩ := h
    unfold ruleOf at hx
    rw [List.min?_eq_none_iff, List.filterMap_eq_nil_iff] at hx
    have := hx _ h2
    simp [h1] at this

theorem follows_iff {m : Trans} {known : List Text} (h : Runs m known) (events : Text → Outcome (List Step)) (ws : List Text) (ess : List (List Step))
    (hw : ws.map events = ess.map .ok) (r : Nat) :
    (∃ q ∈ (matcher m known events).after ws, ∃ f ∈ m.finals, (q, some (.rule r), f) ∈ m.edges) ↔ Follows m ess r := by
  have ha := mem_after h events ws.reverse ess.reverse (by rw [List.map_reverse, hw, List.map_reverse])
  rw [List.reverse_reverse] at ha
  constructor
  · rintro ⟨q, h1, f, h2, h3⟩
    obtain ⟨u, h4, h5⟩ := (ha q).1 h1
    exact ⟨u, h4, f, h2, h5.append (.step h3 (.nil _))⟩
  · rintro ⟨u, h1, f, h2, h3⟩
    obtain ⟨q, h4, h5⟩ := h3.split
    obtain ⟨f', h6, h7⟩ := (path_cons h.noEmpty).1 h5
    rw [path_nil h.noEmpty] at h7
    subst h7
    exact ⟨q, (ha q).2 ⟨u, h1, h4⟩, f', h2, h6⟩

theorem classify_some {m : Trans} {known : List Text} {events : Text → Outcome (List Step)} {S : List Nat} {r : Nat} :
    (matcher m known events).classify S [] = some r ↔
    (∃ q ∈ S, ∃ f ∈ m.finals, (q, some (.rule r), f) ∈ m.edges) ∧ ∀ r', (∃ q ∈ S, ∃ f ∈ m.finals, (q, some (.rule r'), f) ∈ m.edges) → r ≤ r' := by
  unfold matcher
  dsimp only
  rw [List.min?_eq_some_iff]
  simp only [List.mem_filter, List.mem_filterMap, List.not_mem_nil, not_false_eq_true, decide_true, and_true]
  constructor
  · rintro ⟨⟨q, h1, h2⟩, h3⟩
    refine ⟨⟨q, h1, (ruleOf_some.1 h2).1⟩, ?_⟩
    rintro r' ⟨q', h4, h5⟩
    obtain ⟨r'', h6, h7⟩ := ruleOf_exists h5
    have := h3 r'' ⟨q', h4, h7⟩
    omega
  · rintro ⟨⟨q, h1, h2⟩, h3⟩
    constructor
    · obtain ⟨r', h4, h5⟩ := ruleOf_exists h2
      have := h3 r' ⟨q, h1, (ruleOf_some.1 h5).1⟩
      have e : r' = r := by omega
      exact ⟨q, h1, e ▸ h5⟩
    · rintro r' ⟨q', h4, h5⟩
      exact h3 r' ⟨q', h4, (ruleOf_some.1 h5).1⟩

theorem classify_none {m : Trans} {known : List Text} {events : Text → Outcome (List Step)} {S : List Nat} :
    (matcher m known events).classify S [] = none ↔ ∀ r, ¬ ∃ q ∈ S, ∃ f ∈ m.finals, (q, some (.rule r), f) ∈ m.edges := by
  constructor
  · rintro h r ⟨q, h1, h2⟩
    obtain ⟨r', _, h4⟩ := ruleOf_exists h2
    unfold matcher at h
    dsimp only at h
    rw [List.min?_eq_none_iff, List.filter_eq_nil_iff] at h
    exact h r' (List.mem_filterMap.2 ⟨q, h1, h4⟩) (by simp)
  · intro h
    cases hx : (matcher m known events).classify S [] with
    | none => rfl
    | some r => exact absurd (classify_some.1 hx).1 (h r)

/-- **C72, the rule.** The rule that is used for a sequence of words is the first one, in the order of the file, whose pattern they fit; no rule is used if they fit
none. -/
theorem C72_rule_partial (minimize : Trans → Trans) (hm : ∀ t, Minimal t (minimize t)) (cats : List (Text × List CatItem)) (hp : ∀ c ∈ cats, ∀ i ∈ c.2, i.Plain)
    (rules : List (List Text)) (m : Trans) (hc : compile minimize cats rules = some m) (events : Text → Outcome (List Step)) (ws : List Text)
    (ess : List (List Step)) (hw : ws.map events = ess.map .ok) (he : ∀ es ∈ ess, .char '$' ∉ es ∧ .tag t!"<ANY_CHAR>" ∉ es) :
    (∀ r, (matcher m (alphabet cats) events).classify ((matcher m (alphabet cats) events).after ws) [] = some r ↔ FirstRule cats rules ess r) ∧
    ((matcher m (alphabet cats) events).classify ((matcher m (alphabet cats) events).after ws) [] = none ↔ ∀ ns ∈ rules, ¬ FitsRead cats ns ess) := by
  have hr := compile_runs minimize hm cats hp rules m hc
  obtain ⟨h1, h2⟩ := compile_follows minimize hm cats hp rules m hc ess he
  constructor
  · intro r
    rw [classify_some]
    simp only [follows_iff hr events ws ess hw]
    constructor
    · rintro ⟨h3, h4⟩
      obtain ⟨k, ns, h5, h6, h7⟩ := h1 r h3
      refine ⟨⟨k, ns, h5, h6, h7⟩, fun k' ns' hk' hns' hf => ?_⟩
      obtain ⟨r', h8, h9⟩ := h2 k' ns' hns' hf
      have := h4 r' h9
      omega
    · rintro ⟨⟨k, ns, h5, h6, h7⟩, h3⟩
      have least : ∀ r', Follows m ess r' → r ≤ r' := by
        intro r' hr'
        obtain ⟨k', ns', h8, h9, h10⟩ := h1 r' hr'
        apply Nat.le_of_not_lt
        intro hlt
        exact h3 k' ns' (by omega) h9 h10
      obtain ⟨r', h8, h9⟩ := h2 k ns h6 h7
      have := least r' h9
      have e : r' = r := by omega
      exact ⟨e ▸ h9, least⟩
  · rw [classify_none]
    simp only [follows_iff hr events ws ess hw]
    constructor
    · intro h ns hns hf
      obtain ⟨k, hk⟩ := List.getElem?_of_mem hns
      obtain ⟨r', _, h9⟩ := h2 k ns hk hf
      exact h r' h9
    · intro h r hf
      obtain ⟨k, ns, _, h6, h7⟩ := h1 r hf
      exact h ns (List.mem_of_getElem? h6) h7

/-- **C72, rejected rules.** When some rules have been rejected for the words, a rule that is used all the same is not one of those, and they fit its pattern. -/
theorem C72_banned_partial (minimize : Trans → Trans) (hm : ∀ t, Minimal t (minimize t)) (cats : List (Text × List CatItem)) (hp : ∀ c ∈ cats, ∀ i ∈ c.2, i.Plain)
    (rules : List (List Text)) (m : Trans) (hc : compile minimize cats rules = some m) (events : Text → Outcome (List Step)) (ws : List Text)
    (ess : List (List Step)) (hw : ws.map events = ess.map .ok) (he : ∀ es ∈ ess, .char '$' ∉ es ∧ .tag t!"<ANY_CHAR>" ∉ es) (banned : List Nat) (r : Nat)
    (h : (matcher m (alphabet cats) events).classify ((matcher m (alphabet cats) events).after ws) banned = some r) :
    r ∉ banned ∧ ∃ k ns, r = k + 1 ∧ rules[k]? = some ns ∧ FitsRead cats ns ess := by
  have hr := compile_runs minimize hm cats hp rules m hc
  obtain ⟨h1, _⟩ := compile_follows minimize hm cats hp rules m hc ess he
  have h' : ((((matcher m (alphabet cats) events).after ws).filterMap (ruleOf m)).filter (fun r => decide (r ∉ banned))).min? = some r := h
  rw [List.min?_eq_some_iff] at h'
  have h2 := h'.1
  simp only [List.mem_filter, List.mem_filterMap, decide_eq_true_eq] at h2
  obtain ⟨⟨q, h3, h4⟩, h5⟩ := h2
  exact ⟨h5, h1 r ((follows_iff hr events ws ess hw r).1 ⟨q, h3, (ruleOf_some.1 h4).1⟩)⟩

end Verif.Pattern
