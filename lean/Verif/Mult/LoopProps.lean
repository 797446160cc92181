import Verif.Mult.Props
/-!
# C71: the whole program
-/
namespace Verif.Mult
open Verif.Transfer (Tok tokensOf Matcher Actions LoopSt Greedy)

/-! ## Specification -/

variable {σ : Type}

/-- The automaton after the words, with blanks between them. -/
def Automaton.after (A : Automaton σ) : List Text → σ
  | [] => A.init
  | w :: ws => ws.foldl (fun s w => A.word (A.blank s) w) (A.word A.init w)

/-- What is assumed of the pattern automaton, as for the other programs: a dead state stays dead and accepts nothing; patterns are sequences of
words with blanks between them. -/
structure Automaton.Ok (A : Automaton σ) : Prop where
  deadWord : ∀ s w, A.dead s = true → A.dead (A.word s w) = true
  deadBlank : ∀ s, A.dead s = true → A.dead (A.blank s) = true
  deadFinal : ∀ s, A.dead s = true → A.final s = false
  initAlive : A.dead A.init = false
  initBlank : A.dead (A.blank A.init) = true
  cleared : A.dead A.cleared = true
  initFinal : A.final A.init = false
  blankFinal : ∀ s, A.final (A.blank s) = false

/-- A pattern matches the first `k` words, and none matches more. -/
def Longest (A : Automaton σ) (ws : List Text) (k : Nat) : Prop :=
  1 ≤ k ∧ k ≤ ws.length ∧ A.final (A.after (ws.take k)) = true ∧ ∀ k', k < k' → k' ≤ ws.length → A.final (A.after (ws.take k')) = false

/-- No pattern matches. -/
def NoMatch (A : Automaton σ) (ws : List Text) : Prop := ∀ k, 1 ≤ k → k ≤ ws.length → A.final (A.after (ws.take k)) = false

/-- What is written for words each with a blank after it: from left to right, the longest sequence of words that a pattern matches is written in every
combination of the translations of its words, with the blanks between them in each; a word that no pattern begins with is written in
every translation (and not at all if the dictionary gives nothing); the blank after it follows. -/
inductive Translated (A : Automaton σ) (dict : Text → Text) (alts : Text → List Text) : List (Text × Text) → Text → Prop where
  | done : Translated A dict alts [] []
  | rule {ws : List (Text × Text)} {k : Nat} {b out : Text} : Longest A (ws.map (·.1)) k → (ws.map (·.2))[k - 1]? = some b →
      Translated A dict alts (ws.drop k) out →
      Translated A dict alts ws
        (written ((choices (((ws.map (·.1)).take k).map alts)).map (fun c => renderWords c ((ws.map (·.2)).take (k - 1)))) ++ b ++ out)
  | plain {w b : Text} {ws : List (Text × Text)} {out : Text} : NoMatch A (((w, b) :: ws).map (·.1)) → Translated A dict alts ws out →
      Translated A dict alts ((w, b) :: ws)
        ((if dict w = [] then [] else written ((alts w).map (fun a => t!"^" ++ a ++ t!"$"))) ++ b ++ out)

/-! ## What is written -/

theorem infix_split {p x y : Text} {c : Char} (hc : c ∉ p) (h : p <:+: x ++ c :: y) : p <:+: x ∨ p <:+: y := by
  induction x with
  | nil =>
    rcases List.infix_cons_iff.1 h with hp | hp
    · cases p with
      | nil => exact .inl (List.nil_infix)
      | cons d p =>
        rw [List.cons_prefix_cons] at hp
        exact absurd (by simp [hp.1]) hc
    · exact .inr hp
  | cons d x ih =>
    rw [List.cons_append] at h
    rcases List.infix_cons_iff.1 h with hp | hp
    · left
      have : p <+: d :: x := by
        have hl : p.length ≤ (d :: x).length := by
          rcases Nat.lt_or_ge (d :: x).length p.length with hlt | hge
          · exfalso
            have h1 : (d :: x) ++ [c] <+: p := by
              have h2 : (d :: x) ++ [c] <+: d :: (x ++ c :: y) := ⟨y, by simp⟩
              exact List.prefix_of_prefix_length_le h2 hp (by simp only [List.length_append, List.length_cons, List.length_nil] at hlt ⊢; omega)
            exact hc (h1.subset (by simp))
          · exact hge
        exact List.prefix_of_prefix_length_le hp ⟨c :: y, by simp⟩ hl
      exact this.isInfix
    · rcases ih hp with h1 | h1
      · exact .inl (List.infix_cons_iff.2 (.inr h1))
      · exact .inr h1

theorem renderWords_bar (c bs : List Text) (hc : ∀ w ∈ c, ¬ t!"[|]" <:+: w) (hb : ∀ b ∈ bs, ¬ t!"[|]" <:+: b) :
    ¬ t!"[|]" <:+: renderWords c bs := by
  induction c generalizing bs with
  | nil => simp [renderWords]
  | cons w c ih =>
    intro h
    have ih := ih (bs.drop 1) (fun x hx => hc x (List.mem_cons_of_mem _ hx)) (fun x hx => hb x (List.mem_of_mem_drop hx))
    have e : renderWords (w :: c) bs = [] ++ '^' :: (w ++ '$' :: ((if c = [] then [] else bs.headD []) ++ renderWords c (bs.drop 1))) := by
      simp [renderWords]
    rw [e] at h
    rcases infix_split (by decide) h with h | h
    · simp at h
    rcases infix_split (by decide) h with h | h
    · exact hc w List.mem_cons_self h
    cases c with
    | nil => simp [renderWords] at h
    | cons v c =>
      have hb0 : ¬ t!"[|]" <:+: bs.headD [] := by
        cases bs with
        | nil => simp
        | cons b bs => exact hb b List.mem_cons_self
      have e2 : renderWords (v :: c) (bs.drop 1) = '^' :: (v ++ '$' :: ((if c = [] then [] else (bs.drop 1).headD []) ++ renderWords c ((bs.drop 1).drop 1))) := by
        simp [renderWords]
      rw [if_neg (by simp), e2] at h
      rcases infix_split (by decide) h with h | h
      · exact hb0 h
      · apply ih
        rw [e2]
        exact List.infix_cons_iff.2 (.inr h)

theorem written_two (as : List Text) (h : as.length ≠ 1) : written as = t!"[{]" ++ List.intercalate t!"[|]" as ++ t!".[][}]" := by
  match as with
  | [] => rfl
  | [a] => simp at h
  | a :: b :: as => rfl

theorem bar_intercalate (a b : Text) (as : List Text) : t!"[|]" <:+: List.intercalate t!"[|]" (a :: b :: as) := by
  refine ⟨a, List.intercalate t!"[|]" (b :: as), ?_⟩
  simp [List.intercalate, List.intersperse]

theorem acceptAll_eq (dict : Text → Text) (alts : Text → List Text) (ws : List Text) (h : ∀ w ∈ ws, acceptions (dict w) = .ok (alts w)) :
    acceptAll dict ws = .ok (ws.map alts) := by
  induction ws with
  | nil => rfl
  | cons w ws ih =>
    simp only [acceptAll, h w List.mem_cons_self, ih (fun x hx => h x (List.mem_cons_of_mem _ hx)), Outcome.bind_ok, Outcome.pure_eq,
      List.map_cons]

theorem splitLoop_ne (s cur : Text) (res r : List Text) (h : splitLoop s cur res = .ok r) : r ≠ [] := by
  have hp : ∀ n (res : List Text) w, push n res w ≠ [] := by
    intro n res w
    unfold push
    split
    · split <;> simp
    · simp
  fun_induction splitLoop s cur res with
  | case1 cur res => simp only [Outcome.ok.injEq] at h; subst h; exact hp _ _ _
  | case2 => cases h
  | case3 _ _ _ _ ih => exact ih h
  | case4 _ _ _ _ ih => exact ih h
  | case5 _ _ _ _ _ _ ih => exact ih h

theorem acceptions_ne (s : Text) (r : List Text) (h : acceptions s = .ok r) : r ≠ [] := by
  unfold acceptions at h
  cases hs : splitLoop (if s.head? = some '@' then s.drop 1 else s) [] [] with
  | ok R =>
    rw [hs] at h
    simp only [Outcome.map_ok, Outcome.ok.injEq] at h
    subst h
    rw [keepMarked_eq]
    have := splitLoop_ne _ _ _ _ hs
    split
    · rename_i h2
      intro hn
      rw [hn] at h2
      simp at h2
    · exact this
  | fail => rw [hs] at h; cases h
  | diverge => rw [hs] at h; cases h
  | ub => rw [hs] at h; cases h

/-- What a rule writes. -/
theorem applyRule_eq (dict : Text → Text) (alts : Text → List Text) (ws bs : List Text) (k : Nat) (h : ∀ w ∈ ws, acceptions (dict w) = .ok (alts w))
    (ha : ∀ w ∈ ws, ∀ a ∈ alts w, ¬ t!"[|]" <:+: a) (hb : ∀ b ∈ bs, ¬ t!"[|]" <:+: b) :
    applyRule dict ws bs k =
      .ok (written ((choices ((ws.take k).map alts)).map (fun c => renderWords c (bs.take (k - 1))))) := by
  unfold applyRule
  rw [acceptAll_eq dict alts _ (fun w hw => h w (List.mem_of_mem_take hw))]
  have hne : ∀ l ∈ (ws.take k).map alts, l ≠ [] := by
    intro l hl
    obtain ⟨w, hw, rfl⟩ := List.mem_map.1 hl
    exact acceptions_ne _ _ (h w (List.mem_of_mem_take hw))
  simp only [Outcome.bind_ok, Outcome.pure_eq, writeMultiple_eq _ hne, Bool.false_eq_true, if_false, List.nil_append, Outcome.ok.injEq]
  have hcn := choices_ne _ hne
  cases hc : choices ((ws.take k).map alts) with
  | nil => exact absurd hc hcn
  | cons c cs =>
    cases cs with
    | nil =>
      have hnb : ¬ t!"[|]" <:+: renderWords c (bs.take (k - 1)) := by
        apply renderWords_bar
        · intro w hw
          have hcm : c ∈ choices ((ws.take k).map alts) := by rw [hc]; simp
          obtain ⟨h1, h2⟩ := (C71_choices _ _).1 hcm
          obtain ⟨i, hi, rfl⟩ := List.mem_iff_getElem.1 hw
          have h3 := h2 i hi (by omega)
          rw [List.getElem_map] at h3
          exact ha _ (List.mem_of_mem_take (List.getElem_mem _)) _ h3
        · intro b hb2; exact hb b (List.mem_of_mem_take hb2)
      have e : List.intercalate t!"[|]" [renderWords c (bs.take (k - 1))] = renderWords c (bs.take (k - 1)) := by simp [List.intercalate]
      simp only [List.map_cons, List.map_nil, e]
      rw [if_neg (fun hx => hnb ((hasBar_iff _).1 hx))]
      rfl
    | cons d cs =>
      simp only [List.map_cons]
      rw [if_pos ((hasBar_iff _).2 (bar_intercalate _ _ _)), written_two _ (by simp)]

theorem writeOne_eq (a : List Text) (h : a ≠ []) : writeOne a = List.intercalate t!"[|]" (a.map (fun a => t!"^" ++ a ++ t!"$")) := by
  have : barred (a.map (fun a => t!"^" ++ a ++ t!"$")) = t!"[|]" ++ writeOne a := by
    cases a with
    | nil => exact absurd rfl h
    | cons x a => simp [barred, writeOne, List.flatMap_map]
  rw [barred_intercalate _ (by simpa using h)] at this
  exact (List.append_cancel_left this).symm

/-- What is written for a word that no rule matches. -/
theorem plainWord_eq (dict : Text → Text) (alts : Text → List Text) (w : Text) (h : acceptions (dict w) = .ok (alts w)) :
    plainWord dict w = .ok (if dict w = [] then [] else written ((alts w).map (fun a => t!"^" ++ a ++ t!"$"))) := by
  unfold plainWord
  split
  · rfl
  · have hne := acceptions_ne _ _ h
    rw [h, Outcome.map_ok, writeOne_eq _ hne]
    cases hA : alts w with
    | nil => exact absurd hA hne
    | cons a as =>
      cases as with
      | nil => simp [written, List.intercalate]
      | cons b as =>
        rw [written_two _ (by simp)]
        simp

/-! ## The loop -/

/-- The automaton for the common loop. -/
def Automaton.matcher (A : Automaton σ) : Matcher σ where
  init := A.init
  cleared := A.cleared
  word := A.word
  blank := A.blank
  dead := A.dead
  classify s _ := if A.final s then some 0 else none

/-- The actions for the common loop: rules are never rejected. -/
def actions (dict : Text → Text) : Actions Unit where
  dflt := plainWord dict
  apply _ ws bs k _ := (applyRule dict ws bs k).map (fun o => (-1, o, ()))

/-- The states of the two loops. -/
structure Sim (s : St σ) (l : LoopSt σ Unit) : Prop where
  ms : l.ms = s.ms
  tmpword : l.tmpword = s.tmpword
  tmpblank : l.tmpblank = s.tmpblank
  last : l.last = s.last
  rule : l.rule.isSome = s.isRule
  num : s.isRule = true → l.lastLword = s.numwords
  pos : l.pos = s.pos
  hi : l.hi = s.hi
  out : l.out = s.out

theorem sim_readNext (A : Automaton σ) (toks : List Tok) {s : St σ} {l : LoopSt σ Unit} (h : Sim s l) :
    (∃ s' l', readNext A toks s = .inl s' ∧ Transfer.readNext A.matcher toks l = .inl l' ∧ Sim s' l') ∨
    (∃ t, readNext A toks s = .inr t ∧ Transfer.readNext A.matcher toks l = .inr t) := by
  obtain ⟨h1, h2, h3, h4, h5, h6, h7, h8, h9⟩ := h
  rcases s with ⟨ms, tmpword, tmpblank, last, isRule, numwords, pos, hi, out⟩
  rcases l with ⟨lms, ltmpword, ltmpblank, llast, lprev, lrule, lnum, lbanned, lpos, lhi, lvars, lout⟩
  simp only at h1 h2 h3 h4 h5 h6 h7 h8 h9
  subst h1 h2 h3 h4 h7 h8 h9
  simp only [readNext, Transfer.readNext, Automaton.matcher]
  by_cases hf : A.final lms = true
  · simp only [hf, if_true]
    cases ht : (toks[lpos]?).getD (.eof []) with
    | word w => exact .inl ⟨_, _, rfl, rfl, ⟨rfl, rfl, rfl, rfl, rfl, fun _ => rfl, rfl, rfl, rfl⟩⟩
    | blank b => exact .inl ⟨_, _, rfl, rfl, ⟨rfl, rfl, rfl, rfl, rfl, fun _ => rfl, rfl, rfl, rfl⟩⟩
    | eof e =>
      simp only
      split
      · exact .inl ⟨_, _, rfl, rfl, ⟨rfl, rfl, rfl, rfl, rfl, fun _ => rfl, rfl, rfl, rfl⟩⟩
      · exact .inr ⟨_, rfl, rfl⟩
  · simp only [hf, Bool.false_eq_true, if_false]
    cases ht : (toks[lpos]?).getD (.eof []) with
    | word w => exact .inl ⟨_, _, rfl, rfl, ⟨rfl, rfl, rfl, rfl, h5, h6, rfl, rfl, rfl⟩⟩
    | blank b => exact .inl ⟨_, _, rfl, rfl, ⟨rfl, rfl, rfl, rfl, h5, h6, rfl, rfl, rfl⟩⟩
    | eof e =>
      simp only
      split
      · exact .inl ⟨_, _, rfl, rfl, ⟨rfl, rfl, rfl, rfl, h5, h6, rfl, rfl, rfl⟩⟩
      · exact .inr ⟨_, rfl, rfl⟩

theorem sim_dead (A : Automaton σ) (dict : Text → Text) (toks : List Tok) {s : St σ} {l : LoopSt σ Unit} (h : Sim s l) :
    (∃ s' l', handleDead A dict s = .ok s' ∧ Transfer.handleDead A.matcher (actions dict) toks l = .ok l' ∧ Sim s' l') ∨
    (handleDead A dict s = .fail ∧ Transfer.handleDead A.matcher (actions dict) toks l = .fail) ∨
    (handleDead A dict s = .diverge ∧ Transfer.handleDead A.matcher (actions dict) toks l = .diverge) ∨
    (handleDead A dict s = .ub ∧ Transfer.handleDead A.matcher (actions dict) toks l = .ub) := by
  obtain ⟨h1, h2, h3, h4, h5, h6, h7, h8, h9⟩ := h
  rcases s with ⟨ms, tmpword, tmpblank, last, isRule, numwords, pos, hi, out⟩
  rcases l with ⟨lms, ltmpword, ltmpblank, llast, lprev, lrule, lnum, lbanned, lpos, lhi, lvars, lout⟩
  simp only at h1 h2 h3 h4 h5 h6 h7 h8 h9
  subst h1 h2 h3 h4 h7 h8 h9
  cases lrule with
  | some r =>
    simp only [Option.isSome_some] at h5
    subst h5
    have h6 := h6 rfl
    subst h6
    simp only [handleDead, Transfer.handleDead, if_true, actions]
    cases applyRule dict ltmpword ltmpblank lnum with
    | ok o =>
      left
      exact ⟨_, _, rfl, rfl, ⟨rfl, rfl, rfl, rfl, rfl, fun hx => (by cases hx), rfl, rfl, rfl⟩⟩
    | fail => exact .inr (.inl ⟨rfl, rfl⟩)
    | diverge => exact .inr (.inr (.inl ⟨rfl, rfl⟩))
    | ub => exact .inr (.inr (.inr ⟨rfl, rfl⟩))
  | none =>
    simp only [Option.isSome_none] at h5
    subst h5
    simp only [handleDead, Transfer.handleDead, Bool.false_eq_true, if_false, actions]
    cases ltmpword with
    | cons w ws =>
      simp only
      cases plainWord dict w with
      | ok o =>
        left
        exact ⟨_, _, rfl, rfl, ⟨rfl, rfl, rfl, rfl, rfl, fun hx => (by cases hx), rfl, rfl, rfl⟩⟩
      | fail => exact .inr (.inl ⟨rfl, rfl⟩)
      | diverge => exact .inr (.inr (.inl ⟨rfl, rfl⟩))
      | ub => exact .inr (.inr (.inr ⟨rfl, rfl⟩))
    | nil =>
      left
      cases ltmpblank with
      | cons b bs => exact ⟨_, _, rfl, rfl, ⟨rfl, rfl, rfl, rfl, rfl, fun hx => (by cases hx), rfl, rfl, rfl⟩⟩
      | nil => exact ⟨_, _, rfl, rfl, ⟨rfl, rfl, rfl, rfl, rfl, fun hx => (by cases hx), rfl, rfl, rfl⟩⟩

/-- The two loops do the same. -/
theorem run_eq (A : Automaton σ) (dict : Text → Text) (toks : List Tok) (n : Nat) {s : St σ} {l : LoopSt σ Unit} (h : Sim s l) :
    run A dict toks n s = Transfer.loopRun A.matcher (actions dict) toks n l := by
  induction n generalizing s l with
  | zero => rfl
  | succ n ih =>
    have hd : A.matcher.dead l.ms = A.dead s.ms := by rw [h.ms]; rfl
    simp only [run, Transfer.loopRun, Transfer.loopStep, hd]
    cases A.dead s.ms with
    | false =>
      simp only [Bool.false_eq_true, if_false, Outcome.map_ok]
      rcases sim_readNext A toks h with ⟨s', l', e1, e2, h'⟩ | ⟨t, e1, e2⟩
      · simp only [e1, e2]; exact ih h'
      · simp only [e1, e2]
    | true =>
      simp only [if_true]
      rcases sim_dead A dict toks h with ⟨s1, l1, e1, e2, h1⟩ | ⟨e1, e2⟩ | ⟨e1, e2⟩ | ⟨e1, e2⟩
      · rw [e1, e2]
        simp only [Outcome.map_ok]
        rcases sim_readNext A toks h1 with ⟨s', l', e1, e2, h'⟩ | ⟨t, e1, e2⟩
        · simp only [e1, e2]; exact ih h'
        · simp only [e1, e2]
      · rw [e1, e2]; rfl
      · rw [e1, e2]; rfl
      · rw [e1, e2]; rfl

theorem matcher_ok {A : Automaton σ} (h : A.Ok) : A.matcher.Ok where
  deadWord := h.deadWord
  deadBlank := h.deadBlank
  deadClassify s _ hs := by simp [Automaton.matcher, h.deadFinal s hs]
  initAlive := h.initAlive
  initBlank := h.initBlank
  cleared := h.cleared
  initClassify _ := by simp [Automaton.matcher, h.initFinal]
  blankClassify s _ := by simp [Automaton.matcher, h.blankFinal]

theorem actions_local (dict : Text → Text) : (actions dict).Local := by
  intro r ws bs k v _ _
  simp only [actions, applyRule, List.take_take, Nat.min_self]

theorem after_eq (A : Automaton σ) (ws : List Text) : A.matcher.after ws = A.after ws := by
  cases ws <;> rfl

theorem classify_some (A : Automaton σ) (s : σ) (b : List Nat) (r : Nat) : A.matcher.classify s b = some r ↔ A.final s = true ∧ r = 0 := by
  simp only [Automaton.matcher]
  split
  · rename_i h; simp [h, eq_comm]
  · rename_i h; simp [h]

theorem classify_none (A : Automaton σ) (s : σ) (b : List Nat) : A.matcher.classify s b = none ↔ A.final s = false := by
  simp only [Automaton.matcher]
  split
  · rename_i h; simp [h]
  · rename_i h; simpa using h

theorem longest_iff (A : Automaton σ) (ws : List Text) (k : Nat) : A.matcher.Longest [] ws k 0 ↔ Longest A ws k := by
  simp only [Matcher.Longest, Longest, after_eq, classify_some, classify_none, and_true]

theorem noMatch_iff (A : Automaton σ) (ws : List Text) : A.matcher.NoMatch [] ws ↔ NoMatch A ws := by
  simp only [Matcher.NoMatch, NoMatch, after_eq, classify_none]

/-- What is assumed of the dictionary and the text. -/
structure Clean (dict : Text → Text) (alts : Text → List Text) (ws : List (Text × Text)) : Prop where
  translations : ∀ w ∈ ws, acceptions (dict w.1) = .ok (alts w.1)
  words : ∀ w ∈ ws, ∀ a ∈ alts w.1, ¬ t!"[|]" <:+: a
  blanks : ∀ w ∈ ws, ¬ t!"[|]" <:+: w.2

theorem Clean.drop {dict : Text → Text} {alts : Text → List Text} {ws : List (Text × Text)} (h : Clean dict alts ws) (k : Nat) :
    Clean dict alts (ws.drop k) :=
  ⟨fun w hw => h.translations w (List.mem_of_mem_drop hw), fun w hw => h.words w (List.mem_of_mem_drop hw),
    fun w hw => h.blanks w (List.mem_of_mem_drop hw)⟩

theorem exists_translated (A : Automaton σ) (dict : Text → Text) (alts : Text → List Text) (n : Nat) (ws : List (Text × Text)) (hn : ws.length ≤ n) :
    ∃ out, Translated A dict alts ws out := by
  induction n generalizing ws with
  | zero =>
    have : ws = [] := by cases ws <;> simp_all
    subst this
    exact ⟨[], .done⟩
  | succ n ih =>
    cases ws with
    | nil => exact ⟨[], .done⟩
    | cons w ws =>
      rcases Transfer.longest_or_none A.matcher [] ((w :: ws).map (·.1)) with ⟨k, r, h⟩ | h
      · have hr : r = 0 := ((classify_some _ _ _ _).1 h.2.2.1).2
        subst hr
        have hL := (longest_iff A _ k).1 h
        have hk1 := hL.1
        have hk2 := hL.2.1
        obtain ⟨out, ho⟩ := ih ((w :: ws).drop k) (by simp at hn ⊢; omega)
        have hb : ((w :: ws).map (·.2))[k - 1]? = some (((w :: ws).map (·.2))[k - 1]'(by simp at hk2 ⊢; omega)) :=
          List.getElem?_eq_getElem _
        exact ⟨_, .rule hL hb ho⟩
      · obtain ⟨out, ho⟩ := ih ws (by simpa using hn)
        exact ⟨_, .plain ((noMatch_iff A _).1 h) ho⟩

theorem greedy_of_translated {A : Automaton σ} {dict : Text → Text} {alts : Text → List Text} {ws : List (Text × Text)} {out : Text}
    (h : Translated A dict alts ws out) (hc : Clean dict alts ws) : Greedy A.matcher (actions dict) true false [] () ws out := by
  induction h with
  | done => exact .done
  | @rule ws k b out hL hb _ ih =>
    refine .rule (n := -1) ((longest_iff A _ k).2 hL) ?_ (by omega) hb (ih (hc.drop k))
    have hmem : ∀ w ∈ (ws.map (·.1)).take k, acceptions (dict w) = .ok (alts w) := by
      intro w hw
      obtain ⟨q, hq, rfl⟩ := List.mem_map.1 (List.mem_of_mem_take hw)
      exact hc.translations q hq
    simp only [actions]
    rw [applyRule_eq dict alts _ _ k hmem]
    · rw [Outcome.map_ok, List.take_take, List.take_take, Nat.min_self, Nat.min_self]
    · intro w hw
      obtain ⟨q, hq, rfl⟩ := List.mem_map.1 (List.mem_of_mem_take hw)
      exact hc.words q hq
    · intro b hb
      obtain ⟨q, hq, rfl⟩ := List.mem_map.1 (List.mem_of_mem_take hb)
      exact hc.blanks q hq
  | @plain w b ws out hN _ ih =>
    exact .dflt ((noMatch_iff A _).2 hN) (plainWord_eq dict alts w (hc.translations _ List.mem_cons_self)) (ih (hc.drop 1))

/-- **C71** (part: no blank or translation has `[|]` in it, and the translations can be told apart).  On every stream the program ends, and what it
has written is the first blank and the translation described by `Translated`. -/
theorem C71_program_partial {A : Automaton σ} (hA : A.Ok) (dict : Text → Text) (alts : Text → List Text) (b : Text) (ws : List (Text × Text))
    (hb : Quiet b) (hws : ∀ w ∈ ws, Quiet w.1 ∧ Quiet w.2) (hc : Clean dict alts ws) :
    ∃ out, Translated A dict alts ws out ∧ Writes A dict (stream b ws) (b ++ out) := by
  obtain ⟨out, ho⟩ := exists_translated A dict alts ws.length ws (Nat.le_refl _)
  refine ⟨out, ho, tokensOf b ws, C71_tokens b ws hb hws, ?_⟩
  obtain ⟨n, hn⟩ := Transfer.C16_longest_match_partial (matcher_ok hA) (actions_local dict) b ws () (greedy_of_translated ho hc)
  refine ⟨n, ?_⟩
  rw [← hn]
  exact run_eq A dict _ n ⟨rfl, rfl, rfl, rfl, rfl, fun hx => (by cases hx), rfl, rfl, rfl⟩

/-! ## Examples -/

/-- An automaton for the one pattern of two words. -/
def twoWords : Automaton (Option Nat) where
  init := some 0
  cleared := none
  word s _ := match s with | some 0 => some 1 | some 2 => some 3 | _ => none
  blank s := match s with | some 1 => some 2 | _ => none
  dead s := s.isNone
  final s := decide (s = some 3)

theorem twoWords_ok : twoWords.Ok where
  deadWord s w h := by simp only [twoWords, Option.isNone_iff_eq_none] at h ⊢; subst h; rfl
  deadBlank s h := by simp only [twoWords, Option.isNone_iff_eq_none] at h ⊢; subst h; rfl
  deadFinal s h := by simp only [twoWords, Option.isNone_iff_eq_none] at h ⊢; subst h; rfl
  initAlive := rfl
  initBlank := rfl
  cleared := rfl
  initFinal := rfl
  blankFinal s := by
    simp only [twoWords]
    split <;> rfl

/-- A dictionary. -/
def exDict (w : Text) : Text := if w = t!"a" then t!"x/y" else if w = t!"b" then t!"u/v" else if w = t!"n" then [] else '@' :: w

/-- The hypotheses are met: a pattern with two ambiguous words, and a word without a pattern. -/
example : Writes twoWords exDict (stream t!"[<p>]" [(t!"a", t!" "), (t!"b", t!" "), (t!"a", t!"[</p>]")])
    t!"[<p>][{]^x$ ^u$[|]^x$ ^v$[|]^y$ ^u$[|]^y$ ^v$.[][}] [{]^x$[|]^y$.[][}][</p>]" :=
  ⟨_, by rfl, 20, by decide +kernel⟩

/-- **C71, violation.** One variant is enclosed as if there were several when a blank is `[|]`. -/
theorem C71_bar_violation : Writes twoWords exDict (stream [] [(t!"c", t!"[|]"), (t!"d", [])]) t!"[{]^c$[|]^d$.[][}]" :=
  ⟨_, by rfl, 20, by decide +kernel⟩

/-- **C71, violation.** A blank that is not closed: the program does not end, and writes nothing. -/
theorem C71_open_violation (n : Nat) : readTokens n t!"^a$ [b" = .diverge := by
  rcases n with _ | _ | _ | n <;> rfl

/-- **C71, violation.** A translation that ends in a backslash: the program reads past its end. -/
theorem C71_backslash_violation : acceptions t!"a\\" = .ub := by decide +kernel

end Verif.Mult
