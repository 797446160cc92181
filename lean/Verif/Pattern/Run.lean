import Verif.Pattern.Symbols
import Verif.Transfer.LoopProps
/-!
# What the automaton does with words
-/
namespace Verif.Pattern
open Verif.Bil (Step)

theorem mem_step {m : Trans} {S : List Nat} {a : Sym} {q : Nat} : q ∈ step m S a ↔ ∃ p ∈ S, (p, some a, q) ∈ m.edges := by
  unfold step
  simp only [List.mem_map, List.mem_filter, decide_eq_true_eq]
  constructor
  · rintro ⟨⟨p, b, r⟩, ⟨h1, h2, h3⟩, rfl⟩
    dsimp only at *
    subst h3
    exact ⟨p, h2, h1⟩
  · rintro ⟨p, h1, h2⟩
    exact ⟨_, ⟨h2, h1, rfl⟩, rfl⟩

/-- No empty labels, and no tags that are not known. -/
structure Runs (m : Trans) (known : List Text) : Prop where
  noEmpty : ∀ e ∈ m.edges, e.2.1 ≠ none
  tags : ∀ p t q, (p, some (.tag t), q) ∈ m.edges → t ∈ known

theorem mem_stepOne {m : Trans} {known : List Text} (h : Runs m known) {S : List Nat} {e : Step} {q : Nat} :
    q ∈ stepOne m known S e ↔ ∃ p ∈ S, ∃ a, Can e a ∧ (p, some a, q) ∈ m.edges := by
  have two : ∀ x y : Sym, (q ∈ step m S x ++ step m S y ↔ ∃ p ∈ S, ∃ a, (a = x ∨ a = y) ∧ (p, some a, q) ∈ m.edges) := by
    intro x y
    simp only [List.mem_append, mem_step]
    constructor
    · rintro (⟨p, h1, h2⟩ | ⟨p, h1, h2⟩)
      · exact ⟨p, h1, x, Or.inl rfl, h2⟩
      · exact ⟨p, h1, y, Or.inr rfl, h2⟩
    · rintro ⟨p, h1, a, rfl | rfl, h2⟩
      · exact Or.inl ⟨p, h1, h2⟩
      · exact Or.inr ⟨p, h1, h2⟩
  cases e with
  | char c => exact two _ _
  | tag t =>
    unfold stepOne
    dsimp only
    split
    · exact two _ _
    · rename_i hk
      rw [mem_step]
      constructor
      · rintro ⟨p, h1, h2⟩; exact ⟨p, h1, _, Or.inr rfl, h2⟩
      · rintro ⟨p, h1, a, rfl | rfl, h2⟩
        · exact absurd (h.tags _ _ _ h2) hk
        · exact ⟨p, h1, h2⟩

theorem path_nil {m : Trans} (h : ∀ e ∈ m.edges, e.2.1 ≠ none) {p q : Nat} : Path m.edges p [] q ↔ p = q := by
  constructor
  · intro hp
    cases hp with
    | nil => rfl
    | eps he _ => exact absurd rfl (h _ he)
  · rintro rfl; exact .nil _

theorem path_cons {m : Trans} (h : ∀ e ∈ m.edges, e.2.1 ≠ none) {p q : Nat} {a : Sym} {s : List Sym} :
    Path m.edges p (a :: s) q ↔ ∃ r, (p, some a, r) ∈ m.edges ∧ Path m.edges r s q := by
  constructor
  · intro hp
    cases hp with
    | eps he _ => exact absurd rfl (h _ he)
    | step he hp => exact ⟨_, he, hp⟩
  · rintro ⟨r, h1, h2⟩; exact .step h1 h2

theorem mem_word {m : Trans} {known : List Text} (h : Runs m known) (es : List Step) (S : List Nat) (q : Nat) :
    q ∈ es.foldl (stepOne m known) S ↔ ∃ p ∈ S, ∃ s, Reads es s ∧ Path m.edges p s q := by
  induction es generalizing S with
  | nil =>
    constructor
    · intro hq; exact ⟨q, hq, [], .nil, .nil _⟩
    · rintro ⟨p, h1, s, h2, h3⟩
      cases h2
      rw [path_nil h.noEmpty] at h3
      exact h3 ▸ h1
  | cons e es ih =>
    rw [List.foldl_cons, ih]
    constructor
    · rintro ⟨p, h1, s, h2, h3⟩
      obtain ⟨p', h4, a, h5, h6⟩ := (mem_stepOne h).1 h1
      exact ⟨p', h4, a :: s, .cons h5 h2, .step h6 h3⟩
    · rintro ⟨p, h1, s, h2, h3⟩
      cases h2 with
      | cons hc hr =>
        obtain ⟨r, h4, h5⟩ := (path_cons h.noEmpty).1 h3
        exact ⟨r, (mem_stepOne h).2 ⟨p, h1, _, hc, h4⟩, _, hr, h5⟩

/-- What can be read for words (backwards). -/
inductive ReadsAll : List (List Step) → List Sym → Prop where
  | nil : ReadsAll [] []
  | cons {es : List Step} {ess : List (List Step)} {u b s : List Sym} : ReadsAll ess u → Reads es s → b = (if ess = [] then [] else [.chr ' ']) →
      ReadsAll (es :: ess) (u ++ b ++ .chr '^' :: s ++ [.chr '$'])

theorem mem_matcher_word {m : Trans} {known : List Text} (h : Runs m known) (events : Text → Outcome (List Step)) (w : Text) (es : List Step)
    (hw : events w = .ok es) (S : List Nat) (q : Nat) :
    q ∈ (matcher m known events).word S w ↔ ∃ p ∈ S, ∃ s, Reads es s ∧ Path m.edges p (.chr '^' :: s ++ [.chr '$']) q := by
  unfold matcher
  dsimp only
  rw [hw]
  dsimp only
  rw [mem_step]
  constructor
  · rintro ⟨p, h1, h2⟩
    obtain ⟨p1, h3, s, h4, h5⟩ := (mem_word h es _ p).1 h1
    obtain ⟨p2, h6, h7⟩ := mem_step.1 h3
    exact ⟨p2, h6, s, h4, Path.step h7 (h5.append (.step h2 (.nil _)))⟩
  · rintro ⟨p, h1, s, h2, h3⟩
    rw [List.cons_append] at h3
    obtain ⟨p1, h4, h5⟩ := (path_cons h.noEmpty).1 h3
    obtain ⟨p2, h6, h7⟩ := h5.split
    obtain ⟨p3, h8, h9⟩ := (path_cons h.noEmpty).1 h7
    rw [path_nil h.noEmpty] at h9
    subst h9
    exact ⟨p2, (mem_word h es _ p2).2 ⟨p1, mem_step.2 ⟨p, h1, h4⟩, s, h2, h6⟩, h8⟩

theorem after_snoc {σ : Type} (m : Transfer.Matcher σ) (ws : List Text) (h : ws ≠ []) (w : Text) : m.after (ws ++ [w]) = m.word (m.blank (m.after ws)) w := by
  cases ws with
  | nil => exact absurd rfl h
  | cons x ws => simp [Transfer.Matcher.after]

/-- The states after words (backwards). -/
theorem mem_after {m : Trans} {known : List Text} (h : Runs m known) (events : Text → Outcome (List Step)) (ws : List Text) (ess : List (List Step))
    (hw : ws.map events = ess.map .ok) (q : Nat) :
    q ∈ (matcher m known events).after ws.reverse ↔ ∃ u, ReadsAll ess u ∧ Path m.edges m.initial u q := by
  induction ws generalizing ess q with
  | nil =>
    have : ess = [] := by cases ess with
      | nil => rfl
      | cons _ _ => simp at hw
    subst this
    simp only [List.reverse_nil, Transfer.Matcher.after]
    have : (matcher m known events).init = [m.initial] := rfl
    rw [this, List.mem_singleton]
    constructor
    · rintro rfl; exact ⟨[], .nil, .nil _⟩
    · rintro ⟨u, h1, h2⟩
      cases h1
      exact ((path_nil h.noEmpty).1 h2).symm
  | cons w ws ih =>
    cases ess with
    | nil => simp at hw
    | cons es ess =>
      simp only [List.map_cons, List.cons.injEq] at hw
      have key : ∀ S : List Nat, (∀ p, p ∈ S ↔ ∃ u, ReadsAll ess u ∧ Path m.edges m.initial (u ++ if ess = [] then [] else [.chr ' ']) p) →
          (q ∈ (matcher m known events).word S w ↔ ∃ u, ReadsAll (es :: ess) u ∧ Path m.edges m.initial u q) := by
        intro S hS
        rw [mem_matcher_word h events w es hw.1]
        constructor
        · rintro ⟨p, h1, s, h2, h3⟩
          obtain ⟨u, h4, h5⟩ := (hS p).1 h1
          have h6 := h5.append h3
          rw [← List.append_assoc] at h6
          exact ⟨_, .cons h4 h2 rfl, h6⟩
        · rintro ⟨u, h1, h2⟩
          cases h1 with
          | cons h3 h4 hb =>
            subst hb
            rw [List.append_assoc] at h2
            obtain ⟨p, h5, h6⟩ := h2.split
            exact ⟨p, (hS p).2 ⟨_, h3, h5⟩, _, h4, h6⟩
      by_cases hn : ws = []
      · subst hn
        have : ess = [] := by cases ess with
          | nil => rfl
          | cons _ _ => simp at hw
        subst this
        refine key [m.initial] (fun p => ?_)
        rw [List.mem_singleton]
        constructor
        · rintro rfl; exact ⟨[], .nil, .nil _⟩
        · rintro ⟨u, h1, h2⟩
          cases h1
          exact ((path_nil h.noEmpty).1 h2).symm
      · have he : ess ≠ [] := by
          rintro rfl
          simp at hw
          exact hn hw.2
        rw [List.reverse_cons, after_snoc _ _ (by simpa using hn)]
        refine key _ (fun p => ?_)
        rw [if_neg he]
        have : (matcher m known events).blank ((matcher m known events).after ws.reverse) = step m ((matcher m known events).after ws.reverse) (.chr ' ') := rfl
        rw [this, mem_step]
        constructor
        · rintro ⟨p', h1, h2⟩
          obtain ⟨u, h3, h4⟩ := (ih ess hw.2 p').1 h1
          exact ⟨u, h3, h4.append (.step h2 (.nil _))⟩
        · rintro ⟨u, h1, h2⟩
          obtain ⟨p', h3, h4⟩ := h2.split
          obtain ⟨p'', h5, h6⟩ := (path_cons h.noEmpty).1 h4
          rw [path_nil h.noEmpty] at h6
          subst h6
          exact ⟨p', (ih ess hw.2 p').2 ⟨u, h1, h3⟩, h5⟩

/-! ## Words and patterns -/

/-- Two lists of the same length, with related elements. -/
inductive All2 {α β : Type} (R : α → β → Prop) : List α → List β → Prop where
  | nil : All2 R [] []
  | cons {a : α} {b : β} {x : List α} {y : List β} : R a b → All2 R x y → All2 R (a :: x) (b :: y)

theorem All2.append {α β : Type} {R : α → β → Prop} {x z : List α} {y w : List β} (h : All2 R x y) (h' : All2 R z w) : All2 R (x ++ z) (y ++ w) := by
  induction h with
  | nil => exact h'
  | cons h _ ih => exact .cons h ih

theorem All2.reverse {α β : Type} {R : α → β → Prop} {x : List α} {y : List β} (h : All2 R x y) : All2 R x.reverse y.reverse := by
  induction h with
  | nil => exact .nil
  | cons h _ ih => rw [List.reverse_cons, List.reverse_cons]; exact ih.append (.cons h .nil)

theorem All2.imp {α β : Type} {R Q : α → β → Prop} {x : List α} {y : List β} (h : All2 R x y) (hi : ∀ a ∈ x, ∀ b ∈ y, R a b → Q a b) : All2 Q x y := by
  induction h with
  | nil => exact .nil
  | cons h _ ih => exact .cons (hi _ (by simp) _ (by simp) h) (ih (fun a ha b hb => hi a (by simp [ha]) b (by simp [hb])))

/-- The last part of a sequence, without `d`, is determined. -/
theorem unique_prefix {d : Sym} (x y A B : List Sym) (hx : d ∉ x) (hy : d ∉ y) (hA : A = [] ∨ A.head? = some d) (hB : B = [] ∨ B.head? = some d)
    (h : x ++ A = y ++ B) : x = y ∧ A = B := by
  induction x generalizing y with
  | nil =>
    cases y with
    | nil => exact ⟨rfl, h⟩
    | cons b y =>
      simp only [List.mem_cons, not_or] at hy
      rw [List.nil_append] at h
      subst h
      rcases hA with hA | hA
      · simp at hA
      · simp at hA; exact absurd hA.symm hy.1
  | cons a x ih =>
    simp only [List.mem_cons, not_or] at hx
    cases y with
    | nil =>
      rw [List.nil_append] at h
      subst h
      rcases hB with hB | hB
      · simp at hB
      · simp at hB; exact absurd hB.symm hx.1
    | cons b y =>
      simp only [List.mem_cons, not_or] at hy
      simp only [List.cons_append, List.cons.injEq] at h
      obtain ⟨h1, h2⟩ := ih y hx.2 hy.2 h.2
      exact ⟨by rw [h.1, h1], h2⟩

theorem unique_suffix {d : Sym} (x y A B : List Sym) (hx : d ∉ x) (hy : d ∉ y) (hA : A = [] ∨ A.getLast? = some d) (hB : B = [] ∨ B.getLast? = some d)
    (h : A ++ x = B ++ y) : x = y ∧ A = B := by
  have h' := congrArg List.reverse h
  rw [List.reverse_append, List.reverse_append] at h'
  obtain ⟨h1, h2⟩ := unique_prefix _ _ _ _ (by simpa using hx) (by simpa using hy) (by simpa using hA) (by simpa using hB) h'
  exact ⟨List.reverse_inj.1 h1, List.reverse_inj.1 h2⟩

theorem PatLang.last {C : Text → List Sym → Prop} {ns : List Text} {u : List Sym} (h : PatLang C ns u) : u = [] ∨ u.getLast? = some (.chr '$') := by
  cases h with
  | nil => exact Or.inl rfl
  | cons => exact Or.inr List.getLast?_concat

theorem ReadsAll.last {ess : List (List Step)} {u : List Sym} (h : ReadsAll ess u) : u = [] ∨ u.getLast? = some (.chr '$') := by
  cases h with
  | nil => exact Or.inl rfl
  | cons => exact Or.inr List.getLast?_concat

theorem reads_noEnd {es : List Step} {s : List Sym} (h : Reads es s) (he : .char '$' ∉ es) : .chr '$' ∉ s := by
  induction h with
  | nil => simp
  | cons hc _ ih =>
    simp only [List.mem_cons, not_or] at he ⊢
    exact ⟨fun e => he.1 (can_chr (e ▸ hc)).symm, ih he.2⟩

theorem PatLang.nonempty {C : Text → List Sym → Prop} {ns : List Text} {u : List Sym} (h : PatLang C ns u) : ns = [] ↔ u = [] := by
  cases h with
  | nil => simp
  | cons => simp

theorem ReadsAll.nonempty {ess : List (List Step)} {u : List Sym} (h : ReadsAll ess u) : ess = [] ↔ u = [] := by
  cases h with
  | nil => simp
  | cons => simp

/-- Something that can be read for the words is in a pattern, if and only if each word can be read in its category. -/
theorem match_iff (C : Text → List Sym → Prop) (hC : ∀ n s, C n s → .chr '$' ∉ s) (ns : List Text) (ess : List (List Step)) (he : ∀ es ∈ ess, .char '$' ∉ es) :
    (∃ u, ReadsAll ess u ∧ PatLang C ns u) ↔ All2 (fun n es => ∃ s, Reads es s ∧ C n s) ns ess := by
  constructor
  · rintro ⟨u, h1, h2⟩
    induction h2 generalizing ess with
    | nil => rw [h1.nonempty.2 rfl]; exact .nil
    | @cons n ns u b s hp hc hb ih =>
      generalize hx : u ++ b ++ Sym.chr '^' :: s ++ [.chr '$'] = x at h1
      cases h1 with
      | nil => simp at hx
      | @cons es ess u' b' s' h3 h4 hb' =>
        have h5 := List.append_cancel_right hx
        rw [List.append_assoc, List.append_assoc] at h5
        have hbb : .chr '$' ∉ b := by rcases hb with rfl | ⟨_, rfl⟩ <;> simp
        have hbb' : .chr '$' ∉ b' := by rw [hb']; split <;> simp
        obtain ⟨h6, h7⟩ := unique_suffix (d := .chr '$') _ _ _ _
          (by simp only [List.mem_append, List.mem_cons, not_or]; exact ⟨hbb, by simp, hC _ _ hc⟩)
          (by simp only [List.mem_append, List.mem_cons, not_or]; exact ⟨hbb', by simp, reads_noEnd h4 (he es (by simp))⟩) hp.last h3.last h5
        subst h7
        have h8 : s = s' := by
          have hb2 : b' = [] ∨ b' = [.chr ' '] := by rw [hb']; split <;> simp
          rcases hb with rfl | ⟨_, rfl⟩ <;> rcases hb2 with rfl | rfl <;> simp at h6 <;> exact h6
        subst h8
        exact .cons ⟨s, h4, hc⟩ (ih ess (fun es hes => he es (by simp [hes])) h3)
  · intro h
    induction h with
    | nil => exact ⟨[], .nil, .nil⟩
    | @cons n es ns ess h _ ih =>
      obtain ⟨s, h1, h2⟩ := h
      obtain ⟨u, h3, h4⟩ := ih (fun es hes => he es (by simp [hes]))
      refine ⟨_, .cons h3 h1 rfl, .cons h4 h2 ?_⟩
      by_cases hx : ess = []
      · exact Or.inl (by rw [if_pos hx])
      · refine Or.inr ⟨fun e => hx ?_, by rw [if_neg hx]⟩
        exact h3.nonempty.2 (h4.nonempty.1 e)

end Verif.Pattern
