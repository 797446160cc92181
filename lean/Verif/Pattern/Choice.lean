import Verif.Pattern.Props
import Verif.Pattern.Exist
/-!
# C72: the automaton is one for which the longest match is used; what is not matched
-/
namespace Verif.Pattern
open Verif.Bil (Step)

/-! ## Files of rules that are accepted -/

theorem glob_inhabited {α : Type} (x : α) (p : List (Option α)) : ∃ s, Glob p s ∧ ∀ a ∈ s, a = x ∨ some a ∈ p := by
  induction p with
  | nil => exact ⟨[], .nil, by simp⟩
  | cons o p ih =>
    obtain ⟨s, h1, h2⟩ := ih
    cases o with
    | none => exact ⟨[x] ++ s, .many (by simp) h1, fun a ha => by
        rcases List.mem_append.1 ha with ha | ha
        · exact Or.inl (List.mem_singleton.1 ha)
        · rcases h2 a ha with h | h
          · exact Or.inl h
          · exact Or.inr (by simp [h])⟩
    | some b => exact ⟨b :: s, .one h1, fun a ha => by
        rcases List.mem_cons.1 ha with rfl | ha
        · exact Or.inr (by simp)
        · rcases h2 a ha with h | h
          · exact Or.inl h
          · exact Or.inr (by simp [h])⟩

theorem fits_inhabited (i : CatItem) (hi : i.Plain) : ∃ w : Word, i.Fits w ∧ .tag t!"<ANY_CHAR>" ∉ w.events := by
  have hl : ∀ l : Text, Step.tag t!"<ANY_CHAR>" ∉ l.map Step.char := by intro l; simp
  unfold CatItem.Fits Word.events
  split
  · obtain ⟨l, h1, _⟩ := glob_inhabited 'a' (lemmaPat i.lem)
    obtain ⟨ts, h2, h3⟩ := glob_inhabited t!"<a>" (tagsPat i.tags)
    refine ⟨⟨l, ts⟩, ⟨h1, h2⟩, ?_⟩
    simp only [List.mem_append, not_or, List.mem_map, not_exists, not_and]
    refine ⟨fun _ _ => by simp, fun t ht e => ?_⟩
    injection e with e
    subst e
    rcases h3 _ ht with h | h
    · simp at h
    · simp only [tagsPat, List.mem_map] at h
      obtain ⟨u, h4, h5⟩ := h
      split at h5
      · cases h5
      · injection h5 with h5
        have : u = t!"ANY_CHAR" := by
          have h6 : t!"<" ++ u ++ t!">" = t!"<" ++ t!"ANY_CHAR" ++ t!">" := by rw [h5]; rfl
          exact List.append_cancel_left (List.append_cancel_right h6)
        exact hi.tags.2.2 (this ▸ h4)
  · obtain ⟨l, h1, _⟩ := glob_inhabited 'a' (lemmaPat i.name)
    exact ⟨⟨l, []⟩, ⟨h1, rfl⟩, by simp⟩

theorem defCat_finals (minimize : Trans → Trans) (hm : ∀ t, Minimal t (minimize t)) (is : List CatItem) (hi : ∀ i ∈ is, i.Plain) (hne : is ≠ []) :
    (defCat minimize is).finals ≠ [] := by
  cases is with
  | nil => exact absurd rfl hne
  | cons i is =>
    obtain ⟨w, h1, h2⟩ := fits_inhabited i (hi i (by simp))
    obtain ⟨s, _, f, h3, _⟩ := (C72_category_partial minimize hm (i :: is) hi w.events h2).2 ⟨i, by simp, w, rfl, h1⟩
    intro e
    rw [e] at h3
    simp at h3

theorem insertTrans_some (t : Trans) (p : Nat) (c : Trans) (h : c.finals ≠ []) : ∃ y, insertTrans t p c = some y := by
  unfold insertTrans
  split
  · contradiction
  · exact ⟨_, rfl⟩
  · exact ⟨_, rfl⟩

theorem patternItems_some (cats : Text → Option Trans) (ns : List Text) (h : ∀ n ∈ ns, ∃ c, cats n = some c ∧ c.finals ≠ []) (s : RSt) (p : Nat) :
    ∃ x, patternItems cats s p ns = some x := by
  induction ns generalizing s p with
  | nil => exact ⟨_, rfl⟩
  | cons n ns ih =>
    rw [patternItems]
    have h1 : ∃ x, patternItem cats s p n = some x := by
      unfold patternItem
      split
      · exact ⟨_, rfl⟩
      · obtain ⟨c, h2, h3⟩ := h n (by simp)
        rw [h2]
        obtain ⟨y, hy⟩ := insertTrans_some (openWord s.trans p).1 (openWord s.trans p).2 c h3
        dsimp only
        rw [hy]
        exact ⟨_, rfl⟩
    obtain ⟨x, hx⟩ := h1
    rw [hx]
    exact ih (fun n hn => h n (by simp [hn])) _ _

/-- **C72, reading.** A file of rules can be read if each category that a pattern uses is defined, with at least one item. -/
theorem C72_compiles (minimize : Trans → Trans) (hm : ∀ t, Minimal t (minimize t)) (cats : List (Text × List CatItem)) (hp : ∀ c ∈ cats, ∀ i ∈ c.2, i.Plain)
    (rules : List (List Text)) (h : ∀ ns ∈ rules, ∀ n ∈ ns, ∃ is, Defined cats n is ∧ is ≠ []) : ∃ m, compile minimize cats rules = some m := by
  have key : ∀ (rules : List (List Text)) (c : Nat) (s : RSt), (∀ ns ∈ rules, ∀ n ∈ ns, ∃ is, lookupCat cats n = some is ∧ is ≠ []) →
      ∃ s', procRules (fun n => (lookupCat cats n).map (defCat minimize)) c s rules = some s' := by
    intro rules
    induction rules with
    | nil => intro c s _; exact ⟨s, rfl⟩
    | cons ns rules ih =>
      intro c s h
      rw [procRules]
      obtain ⟨x, hx⟩ := patternItems_some (fun n => (lookupCat cats n).map (defCat minimize)) ns (fun n hn => by
        obtain ⟨is, h1, h2⟩ := h ns (by simp) n hn
        obtain ⟨n', h3⟩ := lookupCat_mem h1
        exact ⟨_, by rw [h1]; rfl, defCat_finals minimize hm is (hp _ h3) h2⟩) s 0
      unfold pattern
      rw [hx]
      exact ih _ _ (fun ns hn => h ns (by simp [hn]))
  obtain ⟨s, hs⟩ := key rules 1 {} (fun ns hns n hn => by
    obtain ⟨is, h1, h2⟩ := h ns hns n hn
    exact ⟨is, (lookupCat_iff _ _ _).2 h1, h2⟩)
  exact ⟨_, by unfold compile; rw [hs]; rfl⟩

/-! ## The longest match -/

theorem step_nil (m : Trans) (a : Sym) : step m [] a = [] := by
  unfold step
  rw [List.map_eq_nil_iff, List.filter_eq_nil_iff]
  simp

theorem stepOne_nil (m : Trans) (known : List Text) (e : Step) : stepOne m known [] e = [] := by
  cases e with
  | char c => simp [stepOne, step_nil]
  | tag t => unfold stepOne; split <;> simp [step_nil]

theorem foldl_nil (m : Trans) (known : List Text) (es : List Step) : es.foldl (stepOne m known) [] = [] := by
  induction es with
  | nil => rfl
  | cons e es ih => rw [List.foldl_cons, stepOne_nil, ih]

theorem PatLang.head {C : Text → List Sym → Prop} {ns : List Text} {u : List Sym} (h : PatLang C ns u) : u = [] ∨ ∃ v, u = .chr '^' :: v := by
  induction h with
  | nil => exact Or.inl rfl
  | @cons n ns u b s hp _ hb ih =>
    right
    rcases ih with rfl | ⟨v, rfl⟩
    · rcases hb with rfl | ⟨h, _⟩
      · exact ⟨s ++ [.chr '$'], by simp⟩
      · exact absurd (hp.nonempty.2 rfl) h
    · exact ⟨v ++ b ++ .chr '^' :: s ++ [.chr '$'], by simp⟩

theorem classify_none_of {m : Trans} {known : List Text} {events : Text → Outcome (List Step)} {S : List Nat} (banned : List Nat)
    (h : ∀ q ∈ S, ∀ r f, (q, some (.rule r), f) ∉ m.edges) : (matcher m known events).classify S banned = none := by
  have : S.filterMap (ruleOf m) = [] := by
    rw [List.filterMap_eq_nil_iff]
    intro q hq
    cases hx : ruleOf m q with
    | none => rfl
    | some r =>
      obtain ⟨f, _, h2⟩ := (ruleOf_some.1 hx).1
      exact absurd h2 (h q hq r f)
  unfold matcher
  dsimp only
  rw [this]
  rfl

/-- **C72, the automaton.** With patterns of at least one word each, the automaton is as C16 assumes (the longest match, from left to right, is used): nothing is matched
before the first word or after a blank, and no pattern begins with a blank. -/
theorem C72_automaton_partial (minimize : Trans → Trans) (hm : ∀ t, Minimal t (minimize t)) (cats : List (Text × List CatItem)) (hp : ∀ c ∈ cats, ∀ i ∈ c.2, i.Plain)
    (rules : List (List Text)) (hne : ∀ ns ∈ rules, ns ≠ []) (m : Trans) (hc : compile minimize cats rules = some m) (events : Text → Outcome (List Step)) :
    (matcher m (alphabet cats) events).Ok := by
  obtain ⟨t, h1, h2, _⟩ := compile_accepts minimize hm cats hp rules m hc
  exact {
    deadWord := fun S w hS => by
      have e : S = [] := List.isEmpty_iff.1 hS
      subst e
      unfold matcher
      dsimp only
      split
      · rw [step_nil, foldl_nil, step_nil]; rfl
      · rfl
    deadBlank := fun S hS => by
      have e : S = [] := List.isEmpty_iff.1 hS
      subst e
      have : (matcher m (alphabet cats) events).blank [] = step m [] (.chr ' ') := rfl
      rw [this, step_nil]; rfl
    deadClassify := fun S b hS => by
      have e : S = [] := List.isEmpty_iff.1 hS
      subst e
      exact classify_none_of b (by simp)
    initAlive := rfl
    initBlank := by
      have : step m [m.initial] (.chr ' ') = [] := by
        rw [List.eq_nil_iff_forall_not_mem]
        intro q hq
        obtain ⟨p, h3, h4⟩ := mem_step.1 hq
        rw [List.mem_singleton] at h3
        subst h3
        obtain ⟨_, v, f, _, h5, h6⟩ := h1.useful _ h4
        obtain ⟨k, ns, w, _, h7, h8⟩ := h2 _ ((h1.same _).1 ⟨f, h6, .step h4 h5⟩)
        rcases h7.head with rfl | ⟨x, rfl⟩
        · simp at h8
        · simp at h8
      show (step m [m.initial] (.chr ' ')).isEmpty = true
      rw [this]; rfl
    cleared := rfl
    initClassify := fun b => classify_none_of b (fun q hq r f he => by
      have hq' : q = m.initial := List.mem_singleton.1 hq
      subst hq'
      obtain ⟨_, v, f, _, h5, h6⟩ := h1.useful _ he
      obtain ⟨k, ns, w, h9, h7, h8⟩ := h2 _ ((h1.same _).1 ⟨f, h6, .step he h5⟩)
      have hns := hne ns (List.mem_of_getElem? h9)
      rcases h7.head with rfl | ⟨x, rfl⟩
      · exact hns (by have := h7.nonempty.2 rfl; simpa using this)
      · simp at h8)
    blankClassify := fun S b => classify_none_of b (fun q hq r f he => by
      obtain ⟨p, _, h4⟩ := mem_step.1 hq
      obtain ⟨u, _, _, h5, _, _⟩ := h1.useful _ h4
      obtain ⟨_, v, f', _, h6, h7⟩ := h1.useful _ he
      obtain ⟨k, ns, w, _, h8, h9⟩ := h2 _ ((h1.same _).1 ⟨f', h7, h5.append (.step h4 (.step he h6))⟩)
      have hw : ∀ a ∈ w, ∀ k, a ≠ .rule k := by
        refine PatLang.symbols (P := fun a => ∀ k, a ≠ .rule k) (fun n s hs a ha k e => ?_) (fun c k => by simp) h8
        obtain ⟨is, h10, f, _, h11⟩ := hs
        have := Labels.path (defCat_labels minimize hm cats hp h10) h11 a ha
        rw [e] at this
        exact this
      have hv : v = [] := by
        rcases List.eq_nil_or_concat v with h | ⟨v', x, h⟩
        · exact h
        · exfalso
          subst h
          have h10 : (u ++ .chr ' ' :: .rule r :: v') ++ [x] = w ++ [.rule (k + 1)] := by
            rw [← h9]; simp
          obtain ⟨h11, _⟩ := List.append_inj' h10 rfl
          exact hw (.rule r) (by rw [← h11]; simp) r rfl
      subst hv
      have h10 : (u ++ [.chr ' ']) ++ [.rule r] = w ++ [.rule (k + 1)] := by rw [← h9]; simp
      obtain ⟨h11, _⟩ := List.append_inj' h10 rfl
      subst h11
      rcases h8.last with h | h
      · simp at h
      · rw [List.getLast?_concat] at h; simp at h) }

/-- **C72, longest match.** The rule that C16 speaks of, for the words of the input: the first one whose pattern the first `k` words fit, where no more words
fit a pattern. -/
theorem C72_longest_partial (minimize : Trans → Trans) (hm : ∀ t, Minimal t (minimize t)) (cats : List (Text × List CatItem)) (hp : ∀ c ∈ cats, ∀ i ∈ c.2, i.Plain)
    (rules : List (List Text)) (m : Trans) (hc : compile minimize cats rules = some m) (events : Text → Outcome (List Step)) (ws : List Text)
    (ess : List (List Step)) (hw : ws.map events = ess.map .ok) (he : ∀ es ∈ ess, .char '$' ∉ es ∧ .tag t!"<ANY_CHAR>" ∉ es) (k r : Nat) :
    (matcher m (alphabet cats) events).Longest [] ws k r ↔
    1 ≤ k ∧ k ≤ ws.length ∧ FirstRule cats rules (ess.take k) r ∧ ∀ k', k < k' → k' ≤ ws.length → ∀ ns ∈ rules, ¬ FitsRead cats ns (ess.take k') := by
  have hx := fun k => C72_rule_partial minimize hm cats hp rules m hc events (ws.take k) (ess.take k) (by rw [List.map_take, hw, List.map_take])
    (fun es hes => he es (List.mem_of_mem_take hes))
  unfold Transfer.Matcher.Longest
  constructor
  · rintro ⟨h1, h2, h3, h4⟩
    exact ⟨h1, h2, ((hx k).1 r).1 h3, fun k' h5 h6 => (hx k').2.1 (h4 k' h5 h6)⟩
  · rintro ⟨h1, h2, h3, h4⟩
    exact ⟨h1, h2, ((hx k).1 r).2 h3, fun k' h5 h6 => (hx k').2.2 (h4 k' h5 h6)⟩

end Verif.Pattern
