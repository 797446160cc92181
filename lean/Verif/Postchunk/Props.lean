import Verif.Postchunk.OneWord
import Verif.Postchunk.Texts
import Verif.Postchunk.Rules
import Verif.Pattern.Words
/-!
# C76: apertium-postchunk does what the rules say
-/
namespace Verif.Postchunk
open Verif.Transfer
open Verif.Stream (Atom renderAtoms plainAtoms)
open Verif.Token (Part renderParts)
open Verif.Chunk (Uni Chunk Case)
open Verif.Pattern (Trans Minimal FitsRead)

variable {u : Uni} {lower : Char → Char}

/-! ## Patterns -/

/-- What is read of a chunk: its name. -/
def nameOf (lower : Char → Char) (c : Chunk) : Pattern.Word := ⟨(plainAtoms c.lem).map lower, []⟩

theorem read_chunk {c : Chunk} (h : Fine u lower c) : readWord lower c.render = .ok (nameOf lower c).events :=
  congrArg Outcome.ok (Pattern.C72_chunk_name lower u c h.wf)

theorem name_events (c : Chunk) : (nameOf lower c).events = ((plainAtoms c.lem).map lower).map .char := by simp [nameOf, Pattern.Word.events]

theorem Fine.events {c : Chunk} (h : Fine u lower c) : .char '$' ∉ (nameOf lower c).events ∧ .tag t!"<ANY_CHAR>" ∉ (nameOf lower c).events := by
  rw [name_events]
  constructor
  · intro hx
    obtain ⟨a, ha, hx⟩ := List.mem_map.1 hx
    cases hx
    exact h.name ha
  · intro hx
    obtain ⟨a, ha, hx⟩ := List.mem_map.1 hx
    cases hx

theorem events_name {c : Chunk} {w : Pattern.Word} (h : w.events = (nameOf lower c).events) : w = nameOf lower c := by
  obtain ⟨l, ts⟩ := w
  rw [name_events] at h
  unfold Pattern.Word.events at h
  dsimp only at h
  have ht : ts = [] := by
    cases ts with
    | nil => rfl
    | cons t ts =>
      have : (Bil.Step.tag t) ∈ l.map Bil.Step.char ++ (t :: ts).map Bil.Step.tag := by simp
      rw [h] at this
      obtain ⟨a, _, hx⟩ := List.mem_map.1 this
      cases hx
  subst ht
  rw [List.map_nil, List.append_nil] at h
  have := (List.map_inj_right (f := Bil.Step.char) (fun x y hxy => by cases hxy; rfl)).1 h
  subst this
  rfl

theorem fitsRead_iff (cats : List (Text × List Pattern.CatItem)) (ns : List Text) (c : Chunk) :
    FitsRead cats ns [(nameOf lower c).events] ↔ Pattern.Fits cats ns [nameOf lower c] := by
  constructor
  · rintro ⟨ws, h1, h2⟩
    cases ws with
    | nil => simp at h1
    | cons w ws =>
      cases ws with
      | nil =>
        simp only [List.map_cons, List.map_nil, List.cons.injEq, and_true] at h1
        rw [← events_name h1.symm]
        exact h2
      | cons w' ws => simp at h1
  · intro h
    exact ⟨_, rfl, h⟩

section
variable {minimize : Trans → Trans} (hm : ∀ t, Minimal t (minimize t)) {p : Whole.Program} (hp : Ok p) {m : Trans}
  (hc : Pattern.compile minimize p.cats (p.rules.map (·.1)) = some m)
include hm hp hc

theorem classify_chunk {c : Chunk} (h : Fine u lower c) :
    (∀ r, (Pattern.matcher m (Pattern.alphabet p.cats) (readWord lower)).classify
        ((Pattern.matcher m (Pattern.alphabet p.cats) (readWord lower)).word (Pattern.matcher m (Pattern.alphabet p.cats) (readWord lower)).init c.render) [] = some r ↔
      ∃ i, r = i + 1 ∧ fits lower p i c ∧ ∀ j, j < i → ¬ fits lower p j c) ∧
    ((Pattern.matcher m (Pattern.alphabet p.cats) (readWord lower)).classify
        ((Pattern.matcher m (Pattern.alphabet p.cats) (readWord lower)).word (Pattern.matcher m (Pattern.alphabet p.cats) (readWord lower)).init c.render) [] = none ↔
      ∀ j, ¬ fits lower p j c) := by
  obtain ⟨h1, h2⟩ := Pattern.C72_rule_partial minimize hm p.cats hp.plain (p.rules.map (·.1)) m hc (readWord lower) [c.render] [(nameOf lower c).events]
    (by simp [read_chunk h]) (by
      intro es hes
      rw [List.mem_singleton.1 hes]
      exact h.events)
  constructor
  · intro r
    refine (h1 r).trans ?_
    unfold Pattern.FirstRule
    simp only [fitsRead_iff]
    constructor
    · rintro ⟨⟨k, ns, rfl, h4, h5⟩, h6⟩
      rw [List.getElem?_map] at h4
      cases hr : p.rules[k]? with
      | none => rw [hr] at h4; cases h4
      | some rule =>
        rw [hr] at h4
        cases h4
        refine ⟨k, rfl, ⟨rule, hr, h5⟩, fun j hj ⟨rule', h7, h8⟩ => h6 j rule'.1 (by omega) (by rw [List.getElem?_map, h7]; rfl) h8⟩
    · rintro ⟨i, rfl, ⟨rule, h3, h4⟩, h5⟩
      refine ⟨⟨i, rule.1, rfl, by rw [List.getElem?_map, h3]; rfl, h4⟩, fun j ns hj hns hf => ?_⟩
      rw [List.getElem?_map] at hns
      cases hr : p.rules[j]? with
      | none => rw [hr] at hns; cases hns
      | some rule' => rw [hr] at hns; cases hns; exact h5 j (by omega) ⟨rule', hr, hf⟩
  · refine h2.trans ?_
    simp only [fitsRead_iff]
    constructor
    · rintro h3 j ⟨rule, h4, h5⟩
      exact h3 rule.1 (List.mem_map.2 ⟨rule, List.mem_of_getElem? h4, rfl⟩) h5
    · intro h3 ns hns hf
      obtain ⟨rule, hr, rfl⟩ := List.mem_map.1 hns
      obtain ⟨j, hj⟩ := List.getElem?_of_mem hr
      exact h3 j ⟨rule, hj, hf⟩

/-- Nothing is matched after one word and a blank. -/
theorem dead_after {c : Chunk} (h : Fine u lower c) :
    (Pattern.matcher m (Pattern.alphabet p.cats) (readWord lower)).dead ((Pattern.matcher m (Pattern.alphabet p.cats) (readWord lower)).blank
      ((Pattern.matcher m (Pattern.alphabet p.cats) (readWord lower)).word (Pattern.matcher m (Pattern.alphabet p.cats) (readWord lower)).init c.render)) = true := by
  have hr := Pattern.compile_runs minimize hm p.cats hp.plain (p.rules.map (·.1)) m hc
  obtain ⟨t, h1, h2, _⟩ := Pattern.compile_accepts minimize hm p.cats hp.plain (p.rules.map (·.1)) m hc
  have : (Pattern.matcher m (Pattern.alphabet p.cats) (readWord lower)).blank
      ((Pattern.matcher m (Pattern.alphabet p.cats) (readWord lower)).word (Pattern.matcher m (Pattern.alphabet p.cats) (readWord lower)).init c.render) = [] := by
    rw [List.eq_nil_iff_forall_not_mem]
    intro q hq
    obtain ⟨q1, h3, h4⟩ := Pattern.mem_step.1 hq
    obtain ⟨q0, h5, s, h6, h7⟩ := (Pattern.mem_matcher_word hr (readWord lower) c.render _ (read_chunk h) _ q1).1 h3
    have h0 : q0 = m.initial := List.mem_singleton.1 h5
    subst h0
    obtain ⟨_, v, f, _, h8, h9⟩ := h1.useful _ h4
    obtain ⟨k, ns, w, h10, h11, h12⟩ := h2 _ ((h1.same _).1 ⟨f, h9, h7.append (.step h4 h8)⟩)
    rw [List.getElem?_map] at h10
    cases hx : p.rules[k]? with
    | none => rw [hx] at h10; cases h10
    | some rule =>
      rw [hx] at h10
      cases h10
      obtain ⟨n, is, h13, _, _⟩ := hp.one rule (List.mem_of_getElem? hx)
      dsimp only at h11
      rw [h13, List.reverse_singleton] at h11
      have hs := Pattern.reads_noEnd h6 h.events.1
      cases h11 with
      | cons h14 h15 h16 =>
        rename_i us b s'
        cases h14
        have hb : b = [] := by
          rcases h16 with rfl | ⟨h17, _⟩
          · rfl
          · exact absurd rfl h17
        subst hb
        obtain ⟨is', h18, f', _, h19⟩ := h15
        have hs' : .chr '$' ∉ s' := fun hx => Pattern.Labels.path (Pattern.defCat_labels minimize hm p.cats hp.plain h18) h19 _ hx rfl
        simp only [List.nil_append, List.cons_append, List.append_assoc, List.cons.injEq, true_and] at h12
        -- both begin with text without `$`, then `$`
        have key : ∀ (x y A B : List Pattern.Sym), .chr '$' ∉ x → .chr '$' ∉ y → x ++ .chr '$' :: A = y ++ .chr '$' :: B → A = B := by
          intro x
          induction x with
          | nil =>
            intro y A B _ hy e
            cases y with
            | nil => simpa using e
            | cons z y =>
              simp only [List.nil_append, List.cons_append, List.cons.injEq] at e
              exact absurd (by simp [e.1]) hy
          | cons z x ih =>
            intro y A B hx hy e
            cases y with
            | nil =>
              simp only [List.nil_append, List.cons_append, List.cons.injEq] at e
              exact absurd (by simp [e.1]) hx
            | cons z' y =>
              simp only [List.cons_append, List.cons.injEq] at e
              exact ih y A B (fun h => hx (by simp [h])) (fun h => hy (by simp [h])) e.2
        have := key s s' _ _ hs hs' h12
        cases this
  rw [this]
  rfl

end

/-! ## The whole -/

section
variable {minimize : Trans → Trans} (hm : ∀ t, Minimal t (minimize t)) (hd : u.isdigit '>' = false) (env : TEnv) {p : Whole.Program} (hp : Ok p) {m : Trans}
  (hc : Pattern.compile minimize p.cats (p.rules.map (·.1)) = some m)
include hp

omit hp in
theorem rest_blanks {d : Nat} {action : List Instr} {s s' : PSt} {n : Int} (h : processRule env d action s = .ok (n, s')) : s'.rest.blanks = [] := by
  show s'.blanks = []
  exact processRule_blanks env h

theorem goes (d : Nat) : ∀ r ws bs k v x, (actions u env d (p.rules.map (·.2))).apply r ws bs k v = .ok x → x.1 < 0 := by
  intro r ws bs k v x hx
  simp only [actions, applyRule] at hx
  split at hx
  · cases hx
  · obtain ⟨⟨tw, bl⟩, _, hx⟩ := ok_bind_eq hx
    obtain ⟨z, _, hx⟩ := ok_bind_eq hx
    obtain ⟨w0, _, hx⟩ := ok_bind_eq hx
    obtain ⟨hw, _, hx⟩ := ok_bind_eq hx
    dsimp only at hx
    split at hx
    · split at hx
      · cases hx
      · rename_i action ha
        obtain ⟨⟨n1, s1⟩, h5, h6⟩ := ok_map_eq hx
        cases h6
        obtain ⟨rule, hr, rfl⟩ := List.mem_map.1 (List.mem_of_getElem? ha)
        rw [processRule_goes (hp.keeps rule hr) h5]
        show (-1 : Int) < 0
        decide
    · cases hx

include hm hc hd

theorem act_rule {c : Chunk} (h : Fine u lower c) (d i : Nat) (hf : fits lower p i c) (hfirst : ∀ j, j < i → ¬ fits lower p j c) {rule : List Text × List Instr}
    (hr : p.rules[i]? = some rule) (b : Text) {v : PSt} (hv : v.blanks = []) :
    act (Pattern.matcher m (Pattern.alphabet p.cats) (readWord lower)) (actions u env d (p.rules.map (·.2))) c.render b v =
      (processRule env d rule.2 (ruleState u c v)).map fun (_, s) => (s.out, s.rest) := by
  unfold act
  rw [((classify_chunk hm hp hc h).1 (i + 1)).2 ⟨i, rfl, hf, hfirst⟩]
  simp only [actions]
  rw [apply_chunk hd h env d _ i (by rw [List.getElem?_map, hr]; rfl) b hv]
  cases processRule env d rule.2 (ruleState u c v) <;> rfl

theorem act_word {c : Chunk} (h : Fine u lower c) (d : Nat) (hf : ∀ j, ¬ fits lower p j c) (b : Text) (v : PSt) :
    act (Pattern.matcher m (Pattern.alphabet p.cats) (readWord lower)) (actions u env d (p.rules.map (·.2))) c.render b v =
      .ok (c.unfolded u (if env.dictCase then Case.aa else u.getcase (renderAtoms c.lem)), v) := by
  unfold act
  rw [(classify_chunk hm hp hc h).2.2 hf]
  simp only [actions]
  rw [Chunk.C41_unfold_partial u hd env.dictCase c h.wf h.closed]
  rfl

theorem output_of_each {d : Nat} {us : List (Chunk × Text)} (h : ∀ x ∈ us, Fine u lower x.1) {v : PSt} (hv : v.blanks = []) {out : Text}
    (he : Each (Pattern.matcher m (Pattern.alphabet p.cats) (readWord lower)) (actions u env d (p.rules.map (·.2))) v (texts us) out) :
    Output lower u env p v us out := by
  induction us generalizing v out with
  | nil => cases he; exact .done
  | cons x us ih =>
    obtain ⟨c, b⟩ := x
    have hx : Fine u lower c := h (c, b) (by simp)
    have ih := fun v hv out he => @ih (fun x hx => h x (by simp [hx])) v hv out he
    have e : texts ((c, b) :: us) = (c.render, b) :: texts us := rfl
    rw [e] at he
    cases he with
    | step h1 h2 =>
      by_cases hf : ∀ j, ¬ fits lower p j c
      · rw [act_word hm hd env hp hc hx d hf b v] at h1
        cases h1
        exact .word hf (ih _ hv _ h2)
      · obtain ⟨i, hi⟩ : ∃ i, fits lower p i c ∧ ∀ j, j < i → ¬ fits lower p j c := by
          cases hcl : (Pattern.matcher m (Pattern.alphabet p.cats) (readWord lower)).classify
            ((Pattern.matcher m (Pattern.alphabet p.cats) (readWord lower)).word (Pattern.matcher m (Pattern.alphabet p.cats) (readWord lower)).init c.render) [] with
          | none => exact absurd ((classify_chunk hm hp hc hx).2.1 hcl) hf
          | some r =>
            obtain ⟨i, _, h3⟩ := ((classify_chunk hm hp hc hx).1 r).1 hcl
            exact ⟨i, h3⟩
        obtain ⟨rule, hr, _⟩ := hi.1
        rw [act_rule hm hd env hp hc hx d i hi.1 hi.2 hr b hv] at h1
        obtain ⟨⟨n, s⟩, h3, h4⟩ := ok_map_eq h1
        cases h4
        exact .rule hi.1 hi.2 hr h3 (ih _ (rest_blanks env h3) _ h2)

theorem each_of_output {us : List (Chunk × Text)} (h : ∀ x ∈ us, Fine u lower x.1) {v : PSt} (hv : v.blanks = []) {out : Text} (ho : Output lower u env p v us out) :
    ∃ d0, ∀ d, d0 ≤ d → Each (Pattern.matcher m (Pattern.alphabet p.cats) (readWord lower)) (actions u env d (p.rules.map (·.2))) v (texts us) out := by
  induction ho with
  | done => exact ⟨0, fun _ _ => .done⟩
  | @rule v s c b out cs i d n rule hf hfirst hr h1 _ ih =>
    obtain ⟨d0, ih⟩ := ih (fun x hx => h x (by simp [hx])) (rest_blanks env h1)
    refine ⟨max d d0, fun d' hd' => ?_⟩
    refine Each.step (v' := s.rest) ?_ (ih d' (by omega))
    rw [act_rule hm hd env hp hc (h (c, b) (by simp)) d' i hf hfirst hr b hv, processRule_mono env (by omega : d ≤ d') _ _ _ h1]
    rfl
  | @word v c b out cs hf _ ih =>
    obtain ⟨d0, ih⟩ := ih (fun x hx => h x (by simp [hx])) hv
    exact ⟨d0, fun d' hd' => Each.step (act_word hm hd env hp hc (h (c, b) (by simp)) d' hf b v) (ih d' hd')⟩

omit hc hd in
theorem compiles : ∃ m, Pattern.compile minimize p.cats (p.rules.map (·.1)) = some m :=
  Pattern.C72_compiles minimize hm p.cats hp.plain (p.rules.map (·.1)) (by
    intro ns hns
    obtain ⟨rule, hr, rfl⟩ := List.mem_map.1 hns
    obtain ⟨n, is, h1, h2, h3⟩ := hp.one rule hr
    intro n' hn'
    rw [h1, List.mem_singleton] at hn'
    subst hn'
    exact ⟨is, h2, h3⟩)

omit hd in
theorem automaton : (Pattern.matcher m (Pattern.alphabet p.cats) (readWord lower)).Ok :=
  Pattern.C72_automaton_partial minimize hm p.cats hp.plain (p.rules.map (·.1)) (by
    intro ns hns
    obtain ⟨rule, hr, rfl⟩ := List.mem_map.1 hns
    obtain ⟨n, is, h1, _, _⟩ := hp.one rule hr
    rw [h1]
    simp) m hc _

theorem units_run {us : List (Chunk × Text)} (h : ∀ x ∈ us, Fine u lower x.1) {v : PSt} (hv : v.blanks = []) (b t : Text) :
    (∃ d n, loopRun (Pattern.matcher m (Pattern.alphabet p.cats) (readWord lower)) (actions u env d (p.rules.map (·.2))) (tokensOf b (texts us)) n
      (loopInit (Pattern.matcher m (Pattern.alphabet p.cats) (readWord lower)) v) = some (.ok t)) ↔
    ∃ out, t = b ++ out ∧ Output lower u env p v us out := by
  have hone : ∀ w ∈ texts us, (Pattern.matcher m (Pattern.alphabet p.cats) (readWord lower)).dead ((Pattern.matcher m (Pattern.alphabet p.cats) (readWord lower)).blank
      ((Pattern.matcher m (Pattern.alphabet p.cats) (readWord lower)).word (Pattern.matcher m (Pattern.alphabet p.cats) (readWord lower)).init w.1)) = true := by
    intro w hw
    obtain ⟨x, hx, rfl⟩ := List.mem_map.1 hw
    exact dead_after hm hp hc (h x hx)
  have hrun := fun d => run_each (automaton hm hp hc) (goes (u := u) env hp d) b (texts us) hone v t
  constructor
  · rintro ⟨d, hn⟩
    obtain ⟨out, h1, h2⟩ := (hrun d).1 hn
    exact ⟨out, h1, output_of_each hm hd env hp hc h hv h2⟩
  · rintro ⟨out, h1, h2⟩
    obtain ⟨d, h3⟩ := each_of_output hm hd env hp hc h hv h2
    exact ⟨d, (hrun d).2 ⟨out, h1, h3 d (Nat.le_refl _)⟩⟩
end

theorem units_fine {s : PStream} (h : s.Fine u lower) : ∀ x ∈ s.units, Fine u lower x.1 := by
  intro x hx
  obtain ⟨w, hw, rfl⟩ := List.mem_map.1 hx
  exact (h.words w hw).1

/-- **C76.** For an input of chunks in which special characters are escaped, and rules each for one chunk and none of which is rejected, apertium-postchunk writes exactly
what the rules say: for each chunk, in order, what the first rule whose pattern fits its name writes, given the words of the chunk and the blanks between them, or,
if no rule fits, the words of the chunk; all between the chunks is kept.  It ends normally only if there is such an output. -/
theorem C76_postchunk_partial (minimize : Trans → Trans) (hm : ∀ t, Minimal t (minimize t)) (hd : u.isdigit '>' = false) (env : TEnv) (vars : Text → Text)
    (p : Whole.Program) (hp : Ok p) (s : PStream) (h : s.Fine u lower) (t : Text) :
    Runs minimize lower u env vars p s.render t ↔ ∃ out, t = renderParts s.lead ++ out ∧ Output lower u env p (startState vars) s.units out := by
  obtain ⟨m, hc⟩ := compiles hm hp
  rw [← units_run hm hd env hp hc (units_fine h) (v := startState vars) rfl (renderParts s.lead) t]
  constructor
  · rintro ⟨m', rd, w, d, n, h1, h2, h3⟩
    rw [hc] at h1
    cases h1
    rw [stream_tokens h] at h2
    cases h2
    exact ⟨d, n, h3⟩
  · rintro ⟨d, n, h3⟩
    exact ⟨m, _, _, d, n, hc, stream_tokens h, h3⟩

/-- **C76.** There is at most one output. -/
theorem C76_unique (lower : Char → Char) (u : Uni) (env : TEnv) (p : Whole.Program) (v : PSt) (us : List (Chunk × Text)) (o o' : Text)
    (h1 : Output lower u env p v us o) (h2 : Output lower u env p v us o') : o = o' := by
  induction h1 generalizing o' with
  | done => cases h2; rfl
  | @rule v s c b out cs i d n rule hf hfirst hr hx _ ih =>
    cases h2 with
    | @rule _ s2 _ _ out2 _ i2 d2 n2 rule2 hf2 hfirst2 hr2 hx2 ho2 =>
      have e : i = i2 := by
        rcases Nat.lt_trichotomy i i2 with hlt | e | hlt
        · exact absurd hf (hfirst2 i hlt)
        · exact e
        · exact absurd hf2 (hfirst i2 hlt)
      subst e
      rw [hr] at hr2
      cases hr2
      have e1 := processRule_mono env (Nat.le_max_left d d2) _ _ _ hx
      have e2 := processRule_mono env (Nat.le_max_right d d2) _ _ _ hx2
      rw [e1] at e2
      cases e2
      rw [ih _ ho2]
    | word hf2 _ => exact absurd hf (hf2 i)
  | @word v c b out cs hf _ ih =>
    cases h2 with
    | rule hf2 _ _ _ _ => exact absurd hf2 (hf _)
    | word _ ho2 => rw [ih _ ho2]

/-- **C76, memory.** A rule, with all the macros that it calls, leaves nothing to later chunks but the values of variables and the word-bound blanks collected with them:
not the words, not the blanks, not what it has written. -/
theorem C76_memory (u : Uni) (env : TEnv) (d : Nat) (rules : List (List Instr)) (r : Nat) (ws bs : List Text) (k : Nat) (v : PSt) (hf : v.inLu = false ∧ v.inLetVar = false ∧ v.inOut = false)
    (n : Int) (o : Text) (v' : PSt) (h : applyRule u env d rules r ws bs k v = .ok (n, o, v')) :
    v' = { startState v'.vars with varWb := v'.varWb, outWb := v'.outWb, varVal := v'.varVal } := by
  unfold applyRule at h
  split at h
  · cases h
  · obtain ⟨⟨tw, bl⟩, _, h⟩ := ok_bind_eq h
    obtain ⟨z, _, h⟩ := ok_bind_eq h
    obtain ⟨w0, _, h⟩ := ok_bind_eq h
    obtain ⟨hw, _, h⟩ := ok_bind_eq h
    dsimp only at h
    split at h
    · split at h
      · cases h
      · obtain ⟨⟨n1, s⟩, h1, h2⟩ := ok_map_eq h
        cases h2
        have F := processRule_frame env h1
        have e1 := F.inLu hf.1
        have e2 := F.inLetVar hf.2.1
        have e3 := F.inOut hf.2.2
        have e4 := processRule_blanks env h1
        obtain ⟨heap, word, vars, varWb, outWb, inLu, inLetVar, inOut, varVal, blanks, count, out⟩ := s
        dsimp only at e1 e2 e3 e4
        subst e1; subst e2; subst e3; subst e4
        rfl
    · cases h

end Verif.Postchunk
