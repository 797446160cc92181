import Verif.Inter.Spec
import Verif.Inter.Local
import Verif.Chunk.Word
import Verif.Pattern.Words
/-!
# C75: apertium-interchunk does what the rules say
-/
namespace Verif.Inter
open Verif.Transfer
open Verif.Stream
open Verif.Token (Part renderParts IcWord IcStream)
open Verif.Chunk (Piece)
open Verif.Pattern (FirstRule FitsRead Trans Minimal)

/-! ## Patterns, for any kind of words -/

section
variable {U : Type} {minimize : Trans → Trans} (hm : ∀ t, Minimal t (minimize t)) {p : Whole.Program} (hp : ∀ c ∈ p.cats, ∀ i ∈ c.2, i.Plain) {m : Trans}
  (hc : Pattern.compile minimize p.cats (p.rules.map (·.1)) = some m) {tok : U → Text} {steps : U → List Bil.Step} {events : Text → Outcome (List Bil.Step)} {Fine : U → Prop}
  (he : ∀ u, Fine u → events (tok u) = .ok (steps u) ∧ .char '$' ∉ steps u ∧ .tag t!"<ANY_CHAR>" ∉ steps u)
include hm hp hc he

theorem pattern_noMatch (us : List U) (h : ∀ u ∈ us, Fine u) : (Pattern.matcher m (Pattern.alphabet p.cats) events).NoMatch [] (us.map tok) ↔
    ∀ k, 1 ≤ k → k ≤ us.length → ∀ j : Nat, ¬ ∃ rule : List Text × List Instr, p.rules[j]? = some rule ∧ FitsRead p.cats rule.1 ((us.take k).map steps) := by
  unfold Matcher.NoMatch
  rw [List.length_map]
  refine forall_congr' fun k => forall_congr' fun h1 => forall_congr' fun h2 => ?_
  have hf : ∀ u ∈ us.take k, Fine u := fun w hw => h w (List.mem_of_mem_take hw)
  rw [← List.map_take, (Pattern.C72_rule_partial minimize hm p.cats hp _ m hc events ((us.take k).map tok) ((us.take k).map steps) (by
    rw [List.map_map, List.map_map]
    exact List.map_congr_left fun u hu => (he u (hf u hu)).1) (by
    intro es hes
    obtain ⟨u, hu, rfl⟩ := List.mem_map.1 hes
    exact (he u (hf u hu)).2)).2]
  constructor
  · rintro h3 j ⟨rule, h4, h5⟩
    exact h3 rule.1 (List.mem_map.2 ⟨rule, List.mem_of_getElem? h4, rfl⟩) h5
  · intro h3 ns hns h5
    obtain ⟨rule, hr, rfl⟩ := List.mem_map.1 hns
    obtain ⟨j, hj⟩ := List.getElem?_of_mem hr
    exact h3 j ⟨rule, hj, h5⟩

theorem pattern_longest (us : List U) (h : ∀ u ∈ us, Fine u) (k r : Nat) : (Pattern.matcher m (Pattern.alphabet p.cats) events).Longest [] (us.map tok) k r ↔
    1 ≤ k ∧ k ≤ us.length ∧ (∃ i, r = i + 1 ∧ (∃ rule : List Text × List Instr, p.rules[i]? = some rule ∧ FitsRead p.cats rule.1 ((us.take k).map steps)) ∧
      ∀ j, j < i → ¬ ∃ rule : List Text × List Instr, p.rules[j]? = some rule ∧ FitsRead p.cats rule.1 ((us.take k).map steps)) ∧
      ∀ k', k < k' → k' ≤ us.length → ∀ j : Nat, ¬ ∃ rule : List Text × List Instr, p.rules[j]? = some rule ∧ FitsRead p.cats rule.1 ((us.take k').map steps) := by
  rw [Pattern.C72_longest_partial minimize hm p.cats hp _ m hc events (us.map tok) (us.map steps) (by
    rw [List.map_map, List.map_map]
    exact List.map_congr_left fun u hu => (he u (h u hu)).1) (by
    intro es hes
    obtain ⟨u, hu, rfl⟩ := List.mem_map.1 hes
    exact (he u (h u hu)).2) k r]
  rw [List.length_map]
  simp only [← List.map_take]
  refine and_congr Iff.rfl (and_congr Iff.rfl (and_congr ?_ ?_))
  · unfold FirstRule
    constructor
    · rintro ⟨⟨i, ns, rfl, h2, h3⟩, h4⟩
      rw [List.getElem?_map] at h2
      cases hx : p.rules[i]? with
      | none => rw [hx] at h2; cases h2
      | some rule =>
        rw [hx] at h2
        cases h2
        exact ⟨i, rfl, ⟨rule, hx, h3⟩, fun j hj ⟨rule', h5, h6⟩ => h4 j rule'.1 (by omega) (by rw [List.getElem?_map, h5]; rfl) h6⟩
    · rintro ⟨i, rfl, ⟨rule, h2, h3⟩, h4⟩
      refine ⟨⟨i, rule.1, rfl, by rw [List.getElem?_map, h2]; rfl, h3⟩, fun j ns h5 h6 h7 => ?_⟩
      rw [List.getElem?_map] at h6
      cases hx : p.rules[j]? with
      | none => rw [hx] at h6; cases h6
      | some rule' => rw [hx] at h6; cases h6; exact h4 j (by omega) ⟨rule', hx, h7⟩
  · refine forall_congr' fun k' => forall_congr' fun _ => forall_congr' fun _ => ?_
    constructor
    · rintro h3 j ⟨rule, h4, h5⟩
      exact h3 rule.1 (List.mem_map.2 ⟨rule, List.mem_of_getElem? h4, rfl⟩) h5
    · intro h3 ns hns h5
      obtain ⟨rule, hr, rfl⟩ := List.mem_map.1 hns
      obtain ⟨j, hj⟩ := List.getElem?_of_mem hr
      exact h3 j ⟨rule, hj, h5⟩

/-- A rule chosen for some words, with some rules banned, fits them, and its pattern has as many words. -/
theorem pattern_chosen (us : List U) (h : ∀ u ∈ us, Fine u) (banned : List Nat) (r : Nat)
    (hcl : (Pattern.matcher m (Pattern.alphabet p.cats) events).classify ((Pattern.matcher m (Pattern.alphabet p.cats) events).after (us.map tok)) banned = some r) :
    ∃ i rule, r = i + 1 ∧ p.rules[i]? = some rule ∧ FitsRead p.cats rule.1 (us.map steps) ∧ rule.1.length = us.length := by
  obtain ⟨_, k', ns, rfl, h5, h6⟩ := Pattern.C72_banned_partial minimize hm p.cats hp _ m hc events (us.map tok) (us.map steps) (by
    rw [List.map_map, List.map_map]
    exact List.map_congr_left fun u hu => (he u (h u hu)).1) (by
    intro es hes
    obtain ⟨u, hu, rfl⟩ := List.mem_map.1 hes
    exact (he u (h u hu)).2) banned r hcl
  rw [List.getElem?_map] at h5
  cases hr : p.rules[k']? with
  | none => rw [hr] at h5; cases h5
  | some rule =>
    rw [hr] at h5
    cases h5
    refine ⟨k', rule, rfl, hr, h6, ?_⟩
    obtain ⟨ws, h7, h8, _⟩ := h6
    have := congrArg List.length h7
    simp only [List.length_map] at this
    exact (show rule.1.length = ws.length from h8).trans this.symm
end

/-! ## The words -/

variable {lower : Char → Char}

theorem HeadPiece.atoms {p : Piece} (h : HeadPiece p) : ∀ a ∈ Bil.pieceAtoms p, a.wf ['[', ']', '^', '{', '$'] := by
  intro a ha
  cases p with
  | lit c =>
    simp only [Bil.pieceAtoms, List.mem_cons, List.not_mem_nil, or_false] at ha
    subst ha
    simp only [HeadPiece, List.mem_cons, List.not_mem_nil, or_false, not_or] at h
    refine ⟨h.1, h.2.2.2.2.2.2.2, ?_⟩
    simp [h]
  | esc c =>
    simp only [Bil.pieceAtoms, List.mem_cons, List.not_mem_nil, or_false] at ha
    subst ha; exact h
  | tag n =>
    simp only [Bil.pieceAtoms, List.cons_append, List.mem_cons, List.mem_append, List.mem_map, List.not_mem_nil, or_false] at ha
    rcases ha with rfl | ⟨c, hc, rfl⟩ | rfl
    · decide
    · have := h c hc
      simp only [List.mem_cons, List.not_mem_nil, or_false, not_or] at this
      refine ⟨this.2.1, this.2.2.2.2.2.2.2, ?_⟩
      simp [this]
    · decide
  | ref n => exact h.elim

theorem head_atoms {ps : List Piece} (h : ∀ p ∈ ps, HeadPiece p) : ∀ a ∈ Bil.textAtoms ps, a.wf ['[', ']', '^', '{', '$'] := by
  intro a ha
  obtain ⟨p, hp, ha⟩ := List.mem_flatMap.1 ha
  exact (h p hp).atoms a ha

/-- The word as the tokenizer sees it. -/
def icWord (w : CWord) : IcWord := ⟨Bil.textAtoms w.head, w.content⟩

theorem icWord_text (w : CWord) : (icWord w).text = w.text := by
  unfold IcWord.text CWord.text CWord.inside icWord
  rw [Bil.render_textAtoms]
  cases w.content <;> rfl

theorem CWord.Fine.wf {w : CWord} (h : w.Fine lower) : (icWord w).wf :=
  ⟨fun a ha => Bil.wf_mono (by simp) (head_atoms h.head a ha), h.content⟩

theorem stream_tokens {s : CStream} (h : s.Fine lower) : Token.icRead false false s.render =
    .ok ({ toks := tokensOf (renderParts s.lead) (s.units.map (unit CWord.text)), rest := [], more := false }, false) := by
  let ts : IcStream := { lead := s.lead, words := s.words.map fun w => (icWord w.1, w.2) }
  have hts : ts.wf := ⟨h.lead, by
    intro w hw
    obtain ⟨x, hx, rfl⟩ := List.mem_map.1 hw
    exact ⟨(h.words x hx).1.wf, (h.words x hx).2⟩⟩
  have hr : ts.render = s.render := by simp [ts, IcStream.render, CStream.render, List.flatMap_map, icWord_text]
  have hk := Token.C43_chunk_tokens false ts hts [] [] false .eof
  rw [List.append_nil, hr] at hk
  refine hk.trans ?_
  simp [ts, IcStream.units, CStream.units, unit, icWord_text, Function.comp_def]

theorem init_chunk {w : CWord} (h : w.Fine lower) : IWord.init w.text = .ok w.chunk := by
  have ha := head_atoms h.head
  unfold CWord.chunk CWord.text CWord.inside
  cases w.content with
  | none =>
    have := (Chunk.C18_word (Bil.textAtoms w.head) (fun a h => Bil.wf_mono (by simp) (ha a h))).1
    rw [Bil.render_textAtoms] at this
    simpa using this
  | some b =>
    have := Chunk.C18_split (Bil.textAtoms w.head) (fun a h => Bil.wf_mono (by simp) (ha a h)) (by
      intro e
      have := ha _ (List.mem_of_mem_head? e)
      exact this.2.2 (by simp)) (renderAtoms b ++ ['}'])
    rw [Bil.render_textAtoms] at this
    exact this

theorem ruleWords_units {ws : List (CWord × Text)} (h : ∀ w ∈ ws, w.1.Fine lower) : ruleWords (ws.map fun w => w.1.text) = .ok (ws.map fun w => w.1.chunk) := by
  induction ws with
  | nil => rfl
  | cons w ws ih =>
    simp only [List.map_cons, ruleWords]
    rw [init_chunk (h w (by simp)), ih (fun x hx => h x (by simp [hx]))]
    rfl

theorem chunkWord_head (ps : List Piece) (h : ∀ p ∈ ps, HeadPiece p) (r : Text) (hr : r = [] ∨ ∃ r', r = '{' :: r') (n : Nat) (hn : (Bil.text ps ++ r).length < n) :
    Pattern.chunkWord lower true n (Bil.text ps ++ r) = ps.map (Bil.pieceStep lower) := by
  induction ps generalizing n with
  | nil =>
    cases n with
    | zero => omega
    | succ n =>
      rcases hr with rfl | ⟨r', rfl⟩
      · rfl
      · show Pattern.chunkWord lower true (n + 1) ('{' :: r') = []
        rw [Pattern.chunkWord.eq_def]; simp
  | cons p ps ih =>
    have ih := fun n hn => ih (fun p hp => h p (by simp [hp])) n hn
    have hp := h p (by simp)
    cases n with
    | zero => omega
    | succ n =>
      cases p with
      | lit c =>
        have e : Bil.text (.lit c :: ps) ++ r = c :: (Bil.text ps ++ r) := rfl
        rw [e] at hn ⊢
        simp only [HeadPiece, List.mem_cons, List.not_mem_nil, or_false, not_or] at hp
        rw [Pattern.chunkWord.eq_def]
        simp only [if_neg hp.1, if_neg hp.2.2.2.1, if_neg hp.2.2.2.2.2.1]
        rw [ih n (by simpa using hn)]
        rfl
      | esc c =>
        have e : Bil.text (.esc c :: ps) ++ r = '\\' :: c :: (Bil.text ps ++ r) := rfl
        rw [e] at hn ⊢
        rw [Pattern.chunkWord.eq_def]
        simp only [if_true]
        rw [ih n (by simp at hn ⊢; omega)]
        rfl
      | tag t =>
        have e : Bil.text (.tag t :: ps) ++ r = '<' :: (t ++ '>' :: (Bil.text ps ++ r)) := by simp [Bil.text, Piece.render]
        rw [e] at hn ⊢
        rw [Pattern.chunkWord.eq_def]
        simp only [Char.reduceEq, if_false, if_true]
        rw [Pattern.tagEnd_all _ _ (fun hx => by have := hp _ hx; simp at this)]
        dsimp only
        rw [ih n (by simp at hn ⊢; omega)]
        rfl
      | ref t => exact hp.elim

theorem read_word {w : CWord} (h : w.Fine lower) : readWord lower w.text = .ok (w.head.map (Bil.pieceStep lower)) := by
  unfold readWord
  congr 1
  refine chunkWord_head w.head h.head w.inside ?_ _ (Nat.lt_succ_self _)
  unfold CWord.inside
  cases w.content with
  | none => exact Or.inl rfl
  | some b => exact Or.inr ⟨_, rfl⟩

/-! ## Rules and words -/

theorem words_of {ws : List Text} (h : ∀ w ∈ ws, ∃ x : CWord, x.Fine lower ∧ x.text = w) :
    ∃ xs : List (CWord × Text), (∀ x ∈ xs, x.1.Fine lower) ∧ ws = xs.map fun w => w.1.text := by
  induction ws with
  | nil => exact ⟨[], fun _ h => (by cases h), rfl⟩
  | cons w ws ih =>
    obtain ⟨xs, h1, h2⟩ := ih fun w hw => h w (by simp [hw])
    obtain ⟨x, h3, h4⟩ := h w (by simp)
    refine ⟨(x, []) :: xs, fun y hy => ?_, by simp [h2, h4]⟩
    rcases List.mem_cons.1 hy with rfl | hy
    · exact h3
    · exact h1 y hy

section
variable {minimize : Trans → Trans} (hm : ∀ t, Minimal t (minimize t)) {p : Whole.Program} (hp : p.Ok) {m : Trans}
  (hc : Pattern.compile minimize p.cats (p.rules.map (·.1)) = some m)
include hm hp hc

/-- A rule that was chosen for words does with them what it does when there are no others. -/
theorem actions_local (env : TEnv) (d : Nat) :
    (actions env d (p.rules.map (·.2))).LocalFor (Pattern.matcher m (Pattern.alphabet p.cats) (readWord lower)) (fun w => ∃ x : CWord, x.Fine lower ∧ x.text = w) := by
  intro r ws bs k v banned hP h1 h2 h3 hcl
  obtain ⟨xs, hx, rfl⟩ := words_of hP
  have hxk : ∀ x ∈ xs.take k, x.1.Fine lower := fun w hw => hx w (List.mem_of_mem_take hw)
  rw [List.length_map] at h2
  rw [← List.map_take] at hcl
  have e0 : ((xs.take k).map fun w => w.1.text) = ((xs.take k).map (·.1)).map CWord.text := by simp [Function.comp_def]
  rw [e0] at hcl
  obtain ⟨k', rule, rfl, hr, _, hlen⟩ := pattern_chosen (Fine := CWord.Fine lower) (steps := fun u => u.head.map (Bil.pieceStep lower)) hm hp.plain hc
    (fun u hu => ⟨read_word hu, hu.read⟩) _ (fun u hu => by obtain ⟨w, hw, rfl⟩ := List.mem_map.1 hu; exact hxk w hw) banned r hcl
  have hlen : rule.1.length = k := by rw [hlen]; simp; omega
  have hw : Instr.withinL k rule.2 := hlen ▸ hp.within rule (List.mem_of_getElem? hr)
  have ha : (p.rules.map (·.2))[k' + 1 - 1]? = some rule.2 := by rw [List.getElem?_map, Nat.add_sub_cancel, hr]; rfl
  simp only [actions, applyRule]
  rw [← List.map_take, ruleWords_units hx, ruleWords_units hxk]
  simp only [Outcome.bind, List.length_map, List.length_take]
  rw [Whole.pushBlanks_eq k _ bs v.blanks (by omega) (by omega), Whole.pushBlanks_eq k _ (bs.take (k - 1)) v.blanks (by omega) (by simp; omega)]
  simp only [ha]
  rw [List.take_take, Nat.min_eq_left h2, Nat.min_eq_left (a := k - 1 - v.blanks.length) (b := k - 1) (by omega)]
  generalize v.blanks ++ bs.take (k - 1 - v.blanks.length) = q
  have hcom := processRule_com (X := (xs.drop k).map fun w => w.1.chunk) (Y := ((List.range xs.length).drop k).map some) (n := k) env d rule.2 hw
    { v with heap := (xs.take k).map fun w => w.1.chunk, word := (List.range k).map some, blanks := q, out := [] }
    ⟨by simp, fun i hi => by
      simp only [List.mem_map, List.mem_range, Option.some.injEq, exists_eq_right] at hi
      simp only [List.length_map, List.length_take]
      omega⟩
  have e : lift ((xs.drop k).map fun w => w.1.chunk) (((List.range xs.length).drop k).map some)
      { v with heap := (xs.take k).map fun w => w.1.chunk, word := (List.range k).map some, blanks := q, out := [] } =
      { v with heap := xs.map fun w => w.1.chunk, word := (List.range xs.length).map some, blanks := q, out := [] } := by
    unfold lift
    simp only [← List.map_append, List.take_append_drop]
    congr 2
    have : List.range k = (List.range xs.length).take k := by rw [List.take_range, Nat.min_eq_left h2]
    rw [this, List.take_append_drop]
  rw [e] at hcom
  rw [hcom.1]
  cases processRule env d rule.2 { v with heap := (xs.take k).map fun w => w.1.chunk, word := (List.range k).map some, blanks := q, out := [] } <;> rfl
end

/-- What a rule does, for the words it was chosen for. -/
theorem apply_units (env : TEnv) (d : Nat) (p : Whole.Program) {us : List (CWord × Text)} {u : CWord × Text} (h : ∀ x ∈ us ++ [u], x.1.Fine lower) (x : Text → Text) (i : Nat)
    (rule : List Text × List Instr) (hr : p.rules[i]? = some rule) :
    (actions env d (p.rules.map (·.2))).apply (i + 1) ((us ++ [u]).map fun w => w.1.text) (us.map (·.2)) (us.length + 1) (startState x) =
    (processRule env d rule.2 (ruleState x (us ++ [u]))).map fun (n, s) => (n, s.out, { s with heap := [], word := [], out := [] }) := by
  have ha : (p.rules.map (·.2))[i + 1 - 1]? = some rule.2 := by rw [List.getElem?_map, Nat.add_sub_cancel, hr]; rfl
  simp only [actions, applyRule]
  rw [ruleWords_units h]
  simp only [Outcome.bind]
  rw [Whole.pushBlanks_eq _ _ _ _ (by simp [startState]) (by simp [startState])]
  simp only [ha, startState, ruleState]
  simp
  rw [List.take_of_length_le (by simp)]

/-- After a rule nothing is left but the variables. -/
theorem rule_reset {env : TEnv} {d : Nat} {action : List Instr} {x : Text → Text} {us : List (CWord × Text)} {n : Int} {s : ISt}
    (h : processRule env d action (ruleState x us) = .ok (n, s)) : ({ s with heap := [], word := [], out := [] } : ISt) = startState s.vars := by
  have h1 := (processRule_frame env h).inOut rfl
  have h2 := processRule_blanks env h
  obtain ⟨heap, word, vars, inOut, blanks, out⟩ := s
  dsimp only at h1 h2
  subst h1; subst h2
  rfl

theorem engineOk {minimize : Trans → Trans} (hm : ∀ t, Minimal t (minimize t)) (env : TEnv) {p : Whole.Program} (hp : p.Ok) (hk : p.Keeps) {m : Trans}
    (hc : Pattern.compile minimize p.cats (p.rules.map (·.1)) = some m) :
    EngineOk (Pattern.matcher m (Pattern.alphabet p.cats) (readWord lower)) (fun d => actions env d (p.rules.map (·.2))) CWord.text (CWord.Fine lower) (fits lower p)
      (runRule env p) (fun w => '^' :: w.text ++ ['$']) startState where
  automaton := Pattern.C72_automaton_partial minimize hm p.cats hp.plain (p.rules.map (·.1)) (by
    intro ns hns
    obtain ⟨rule, hr, rfl⟩ := List.mem_map.1 hns
    exact hp.nonempty rule hr) m hc _
  longest us h k r := pattern_longest (steps := fun u => u.head.map (Bil.pieceStep lower)) hm hp.plain hc (fun u hu => ⟨read_word hu, hu.read⟩) us h k r
  noMatch us h := pattern_noMatch (steps := fun u => u.head.map (Bil.pieceStep lower)) hm hp.plain hc (fun u hu => ⟨read_word hu, hu.read⟩) us h
  loc d := actions_local hm hp hc env d
  word d u _ := rfl
  rule d i us u h hfit x n o v' := by
    obtain ⟨rule, hr, _⟩ := hfit
    rw [apply_units env d p h x i rule hr]
    constructor
    · intro hx
      obtain ⟨⟨n1, s⟩, h1, h2⟩ := ok_map_eq hx
      cases h2
      exact ⟨processRule_goes (hk rule (List.mem_of_getElem? hr)) h1, s.vars, rule_reset h1, rule, _, s, hr, h1, rfl, rfl⟩
    · rintro ⟨rfl, y, rfl, rule', n1, s, hr', h1, rfl, rfl⟩
      rw [hr] at hr'
      cases hr'
      have e := processRule_goes (hk rule (List.mem_of_getElem? hr)) h1
      subst e
      rw [h1, ← rule_reset h1]
      rfl
  goes d r ws bs k v x hx := by
    simp only [actions, applyRule] at hx
    obtain ⟨tw, _, hx⟩ := ok_bind_eq hx
    obtain ⟨q, _, hx⟩ := ok_bind_eq hx
    split at hx
    · cases hx
    · rename_i action ha
      obtain ⟨⟨n1, s1⟩, h5, h6⟩ := ok_map_eq hx
      cases h6
      obtain ⟨rule, hr, rfl⟩ := List.mem_map.1 (List.mem_of_getElem? ha)
      rw [processRule_goes (hk rule hr) h5]
      show (-1 : Int) < 0
      decide
  mono d d' i us x o y hd := by
    rintro ⟨rule, n, s, h1, h2, h3, h4⟩
    exact ⟨rule, n, s, h1, processRule_mono env hd _ _ _ h2, h3, h4⟩

theorem compiles {minimize : Trans → Trans} (hm : ∀ t, Minimal t (minimize t)) {p : Whole.Program} (hp : p.Ok) :
    ∃ m, Pattern.compile minimize p.cats (p.rules.map (·.1)) = some m :=
  Pattern.C72_compiles minimize hm p.cats hp.plain (p.rules.map (·.1)) (by
    intro ns hns
    obtain ⟨rule, hr, rfl⟩ := List.mem_map.1 hns
    exact hp.defined rule hr)

theorem units_fine {s : CStream} (h : s.Fine lower) : ∀ w ∈ s.units, w.1.Fine lower := by
  intro w hw
  obtain ⟨x, hx, rfl⟩ := List.mem_map.1 hw
  exact (h.words x hx).1

/-- **C75.** For an input in which special characters are escaped, and rules whose positions are those of their patterns and none of which is rejected,
apertium-interchunk writes exactly what the rules say: the longest sequence of chunks, from the left, whose heads fit a pattern is given to the first rule it
fits, which gets just those chunks and the blanks between them; other chunks are copied; all between is kept.  It ends normally only if there is such an output. -/
theorem C75_interchunk_partial (minimize : Trans → Trans) (hm : ∀ t, Minimal t (minimize t)) (env : TEnv) (vars : Text → Text) (p : Whole.Program) (hp : p.Ok)
    (hk : p.Keeps) (s : CStream) (h : s.Fine lower) (t : Text) :
    Runs minimize lower env vars p s.render t ↔ ∃ out, t = renderParts s.lead ++ out ∧ Output lower env p vars s.units out := by
  obtain ⟨m, hc⟩ := compiles hm hp
  rw [← engine (engineOk hm env hp hk hc) vars (renderParts s.lead) s.units (units_fine h) t]
  constructor
  · rintro ⟨m', rd, w, d, n, h1, h2, h3⟩
    rw [hc] at h1
    cases h1
    rw [stream_tokens h] at h2
    cases h2
    exact ⟨d, n, h3⟩
  · rintro ⟨d, n, h3⟩
    exact ⟨m, _, _, d, n, hc, stream_tokens h, h3⟩

/-- **C75.** There is at most one output. -/
theorem C75_unique_partial (minimize : Trans → Trans) (hm : ∀ t, Minimal t (minimize t)) (env : TEnv) (vars : Text → Text) (p : Whole.Program) (hp : p.Ok)
    (hk : p.Keeps) (s : CStream) (h : s.Fine lower) (o o' : Text) (h1 : Output lower env p vars s.units o) (h2 : Output lower env p vars s.units o') : o = o' := by
  obtain ⟨m, hc⟩ := compiles hm hp
  exact engine_unique (engineOk hm env hp hk hc) vars s.units (units_fine h) o o' h1 h2

/-- **C75, contents.** A rule of apertium-interchunk, with all the macros that it calls, never changes what is inside the chunks (in braces). -/
theorem C75_content (env : TEnv) (d : Nat) (action : List Instr) (s s' : ISt) (n : Int) (h : processRule env d action s = .ok (n, s')) :
    s'.heap.map (fun w => w.queue) = s.heap.map (fun w => w.queue) ∧ s'.word = s.word := by
  have F := processRule_frame env h
  refine ⟨?_, F.word⟩
  have := congrArg (List.map Prod.fst) F.inside
  simpa [Function.comp_def] using this

/-- **C75, memory.** A rule leaves nothing to later words but the values of the variables: not the words, not the blanks, not what it has written. -/
theorem C75_memory (env : TEnv) (d : Nat) (rules : List (List Instr)) (r : Nat) (ws bs : List Text) (k : Nat) (vars : Text → Text) (n : Int) (o : Text) (v : ISt)
    (h : applyRule env d rules r ws bs k (startState vars) = .ok (n, o, v)) : ∃ vars', v = startState vars' := by
  unfold applyRule at h
  obtain ⟨tw, _, h⟩ := ok_bind_eq h
  obtain ⟨q, _, h⟩ := ok_bind_eq h
  split at h
  · cases h
  · obtain ⟨⟨n1, s⟩, h1, h2⟩ := ok_map_eq h
    cases h2
    have h3 := (processRule_frame env h1).inOut rfl
    have h4 := processRule_blanks env h1
    obtain ⟨heap, word, vars, inOut, blanks, out⟩ := s
    dsimp only at h3 h4
    subst h3; subst h4
    exact ⟨vars, rfl⟩

/-- The main loop writes what should be written, with enough depth. -/
theorem writes_of {minimize : Trans → Trans} (hm : ∀ t, Minimal t (minimize t)) (env : TEnv) {vars : Text → Text} {p : Whole.Program} (hp : p.Ok) (hk : p.Keeps)
    {m : Trans} (hc : Pattern.compile minimize p.cats (p.rules.map (·.1)) = some m) {s : CStream} (h : s.Fine lower) {out : Text} (ho : Output lower env p vars s.units out) :
    ∃ d0, ∀ d, d0 ≤ d → ∃ n, loopRun (Pattern.matcher m (Pattern.alphabet p.cats) (readWord lower)) (actions env d (p.rules.map (·.2)))
      (tokensOf (renderParts s.lead) (s.units.map (unit CWord.text))) n (loopInit (Pattern.matcher m (Pattern.alphabet p.cats) (readWord lower)) (startState vars)) =
        some (.ok (renderParts s.lead ++ out)) := by
  have H := engineOk (lower := lower) hm env hp hk hc
  obtain ⟨d0, hd⟩ := rewrites_greedy H ho (units_fine h)
  refine ⟨d0, fun d hdd => greedy_runs H.automaton (H.loc d) _ _ ?_ _ (hd d hdd)⟩
  intro y hy
  obtain ⟨w, hw, rfl⟩ := List.mem_map.1 hy
  exact ⟨w.1, units_fine h w hw, rfl⟩

/-- The stream as the tokenizer sees it. -/
def icStream (s : CStream) : IcStream := { lead := s.lead, words := s.words.map fun w => (icWord w.1, w.2) }

theorem icStream_wf {s : CStream} (h : s.Fine lower) : (icStream s).wf := ⟨h.lead, by
  intro w hw
  obtain ⟨x, hx, rfl⟩ := List.mem_map.1 hw
  exact ⟨(h.words x hx).1.wf, (h.words x hx).2⟩⟩

theorem icStream_render (s : CStream) : (icStream s).render = s.render := by
  simp [icStream, IcStream.render, CStream.render, List.flatMap_map, icWord_text]

/-- **C46, apertium-interchunk.** In null flush mode each part of the input is written as the rules say, with the variables at their initial values; the parts before have
no influence (by `C75_memory` the variables, which are reset, are all that is kept). -/
theorem C46_interchunk_partial (minimize : Trans → Trans) (hm : ∀ t, Minimal t (minimize t)) (env : TEnv) (vars : Text → Text) (p : Whole.Program) (hp : p.Ok)
    (hk : p.Keeps) (parts : List (CStream × Text)) (last : CStream) (lastOut : Text)
    (h : ∀ q ∈ parts, q.1.Fine lower ∧ Output lower env p vars q.1.units q.2) (hl : last.Fine lower ∧ Output lower env p vars last.units lastOut) :
    ∃ m d fuel n, Pattern.compile minimize p.cats (p.rules.map (·.1)) = some m ∧
      Token.flushRun (Pattern.matcher m (Pattern.alphabet p.cats) (readWord lower)) (actions env d (p.rules.map (·.2))) (Token.icRead true) (startState vars) fuel n false
        ((parts.flatMap fun q => q.1.render ++ ['\x00']) ++ last.render) =
      some (.ok ((parts.flatMap fun q => renderParts q.1.lead ++ q.2 ++ ['\x00']) ++ (renderParts last.lead ++ lastOut) ++ ['\x00'])) := by
  obtain ⟨m, hc⟩ := compiles hm hp
  have hw : ∀ q : CStream × Text, q.1.Fine lower ∧ Output lower env p vars q.1.units q.2 → ∃ d0, ∀ d, d0 ≤ d →
      (icStream q.1).wf ∧ Token.Writes (Pattern.matcher m (Pattern.alphabet p.cats) (readWord lower)) (actions env d (p.rules.map (·.2))) (startState vars) (icStream q.1)
        (renderParts q.1.lead ++ q.2) := by
    rintro q ⟨h1, h2⟩
    obtain ⟨d0, h3⟩ := writes_of hm env hp hk hc h1 h2
    refine ⟨d0, fun d hd => ⟨icStream_wf h1, ?_⟩⟩
    obtain ⟨n, hn⟩ := h3 d hd
    refine ⟨n, ?_⟩
    have e : (icStream q.1).units = q.1.units.map (unit CWord.text) := by simp [icStream, IcStream.units, CStream.units, unit, icWord_text, Function.comp_def]
    rw [e]
    exact hn
  have hall : ∃ d, ∀ q ∈ (last, lastOut) :: parts, (icStream q.1).wf ∧
      Token.Writes (Pattern.matcher m (Pattern.alphabet p.cats) (readWord lower)) (actions env d (p.rules.map (·.2))) (startState vars) (icStream q.1)
        (renderParts q.1.lead ++ q.2) := by
    have hq : ∀ q ∈ (last, lastOut) :: parts, q.1.Fine lower ∧ Output lower env p vars q.1.units q.2 := by
      intro q hq
      rcases List.mem_cons.1 hq with rfl | hq
      · exact hl
      · exact h q hq
    generalize (last, lastOut) :: parts = qs at hq
    suffices ∃ d0, ∀ d, d0 ≤ d → ∀ q ∈ qs, (icStream q.1).wf ∧
        Token.Writes (Pattern.matcher m (Pattern.alphabet p.cats) (readWord lower)) (actions env d (p.rules.map (·.2))) (startState vars) (icStream q.1)
          (renderParts q.1.lead ++ q.2) by
      obtain ⟨d0, hd⟩ := this
      exact ⟨d0, hd d0 (Nat.le_refl _)⟩
    induction qs with
    | nil => exact ⟨0, fun _ _ q hq => (by cases hq)⟩
    | cons q qs ih =>
      obtain ⟨d1, h1⟩ := hw q (hq q (by simp))
      obtain ⟨d2, h2⟩ := ih fun q h => hq q (by simp [h])
      refine ⟨max d1 d2, fun d hd x hx => ?_⟩
      rcases List.mem_cons.1 hx with rfl | hx
      · exact h1 d (by omega)
      · exact h2 d (by omega) x hx
  obtain ⟨d, hd⟩ := hall
  obtain ⟨fuel, n, hf⟩ := Token.C46_null_flush_partial (parts.map fun q => (icStream q.1, renderParts q.1.lead ++ q.2)) (icStream last) (renderParts last.lead ++ lastOut)
    (by
      intro x hx
      obtain ⟨q, hq, rfl⟩ := List.mem_map.1 hx
      exact hd q (by simp [hq])) (hd (last, lastOut) (by simp))
  refine ⟨m, d, fuel, n, hc, ?_⟩
  simpa only [List.flatMap_map, icStream_render] using hf

end Verif.Inter
