import Verif.Transfer.Props
/-!
# More properties of the rule interpreter: let/clip in rules (C13), word-bound blanks of output (C38),
rejection (C39), variables and macros (C40)
-/
namespace Verif.Transfer
open Verif.Stream

/-! ## C13 at rule level -/

theorem wordAt_congr {s s' : TSt} (h1 : s'.heap = s.heap) (h2 : s'.word = s.word) (pos : Int) :
    s'.wordAt pos = s.wordAt pos := by unfold TSt.wordAt; rw [h1, h2]

/-- `word[pos-1]` and the index of the object it points to. -/
theorem wordAt_some {s : TSt} {pos : Int} {i : Nat} {w : TWord} (h : s.wordAt pos = some (i, w)) :
    0 ≤ pos ∧ pos < s.word.length ∧ s.word[pos.toNat]? = some (some i) ∧ s.heap[i]? = some w := by
  unfold TSt.wordAt at h
  split at h
  · simp at h
  split at h
  · simp at h
  split at h
  · rename_i h1 h2 j hj
    simp only [Option.map_eq_some_iff, Prod.mk.injEq] at h
    obtain ⟨w', hw, rfl, rfl⟩ := h
    exact ⟨by omega, by omega, hj, hw⟩
  · simp at h

theorem wordAt_intro {s : TSt} {pos : Int} {i : Nat} {w : TWord} (h0 : 0 ≤ pos) (h1 : pos < s.word.length)
    (h2 : s.word[pos.toNat]? = some (some i)) (h3 : s.heap[i]? = some w) : s.wordAt pos = some (i, w) := by
  unfold TSt.wordAt
  rw [if_neg (by omega), if_neg (by omega), h2]
  simp [h3]

/-- C13 in a rule: `<let><clip pos=".." side=".." part=".."/>r</let>` on a word that has the part, with a value the
attribute recognises there, makes the part read as the value; all other words, all variables, and the other sides of
this word keep their values. -/
theorem C13_let_clip (env : TEnv) (pos : Int) (sd : Side) (part : Text) (hsd : sd ≠ .other) (r : Expr) (s s1 : TSt)
    (i : Nat) (w : TWord) (v : Text) (hw : s.wordAt (pos - 1) = some (i, w)) (hr : evalExpr env r s = .ok (v, s1))
    (hv : (env.attr part).Valid) (a b : Nat) (hf : (env.attr part).find (w.side sd) = some (a, b))
    (hst : (env.attr part).find ((w.side sd).take a ++ v ++ (w.side sd).drop b) = some (a, a + v.length)) :
    ∃ s', processLet env (.simple (.clip pos sd part true [])) r s = .ok s' ∧
      (∃ w', s'.wordAt (pos - 1) = some (i, w') ∧ w'.read sd (env.attr part) true = v ∧
        ∀ sd', sd' ≠ .other → sd' ≠ sd → w'.side sd' = w.side sd') ∧
      (∀ j, j ≠ i → s'.heap[j]? = s.heap[j]?) ∧ s'.word = s.word ∧ s'.vars = s.vars ∧ s'.out = s.out := by
  obtain ⟨p0, p1, p2, p3⟩ := wordAt_some hw
  have F := evalExpr_facts env r hr
  have hrd : (env.attr part).matchText ((env.attr part).replace (w.side sd) v).1 = v :=
    C13_read_after_write _ hv _ _ a b hf hst
  have hwr : ∃ w', w.write sd (env.attr part) true v = .ok w' ∧ w'.read sd (env.attr part) true = v ∧
      ∀ sd', sd' ≠ .other → sd' ≠ sd → w'.side sd' = w.side sd' := by
    cases sd with
    | other => exact absurd rfl hsd
    | sl =>
      refine ⟨_, rfl, hrd, ?_⟩
      intro sd' h1 h2; cases sd' <;> simp_all [TWord.side]
    | tl =>
      refine ⟨_, rfl, hrd, ?_⟩
      intro sd' h1 h2; cases sd' <;> simp_all [TWord.side]
    | ref =>
      refine ⟨_, rfl, hrd, ?_⟩
      intro sd' h1 h2; cases sd' <;> simp_all [TWord.side]
  obtain ⟨w', hw', hread, hside⟩ := hwr
  have hi : i < s1.heap.length := by
    rw [F.heap]; exact (List.getElem?_eq_some_iff.1 p3).1
  refine ⟨{ s1 with heap := s1.heap.set i w' }, ?_, ⟨w', ?_, hread, hside⟩, ?_, F.word, F.vars, F.out⟩
  · simp only [processLet]
    rw [if_neg (by omega), if_neg (by omega), hw]
    simp only [hr, Outcome.bind, F.heap, p3, hw', Outcome.map]
  · apply wordAt_intro p0
    · simpa [F.word] using p1
    · simpa [F.word] using p2
    · simp [List.getElem?_set, hi]
  · intro j hj
    simp [List.getElem?_set, F.heap, Ne.symm hj]

/-- C13 (finding): without `side` (or with one that is not `sl`, `tl` or `ref`), a `<clip>` is read from the
target side but written to the source side, so the value is not read back. -/
theorem C13_no_side_not_read_back : ∃ (env : TEnv) (s s' : TSt),
    processLet env (.simple (.clip 1 .other t!"lem" true [])) (.simple (.lit t!"dog")) s = .ok s' ∧
      (evalExpr env (.simple (.clip 1 .other t!"lem" true [])) s').map (·.1) = .ok t!"gat" ∧
      (evalExpr env (.simple (.clip 1 .sl t!"lem" true [])) s').map (·.1) = .ok t!"dog" :=
  ⟨exEnv 2, exState, { exState with heap := exState.heap.set 0 ⟨t!"dog<n><sg>", t!"gat<n><sg>", [], t!"[[a]]", 0⟩ },
    rfl, by decide, by decide⟩

/-! ## C38: word-bound blanks of an output lexical unit -/

/-- The pieces of a word-bound blank; no piece, no blank. -/
def wbText (ps : List (List Atom)) : Text := if ps = [] then [] else wbOf ps

/-- Pieces in which every `[`, `]`, `\` etc. that is not escaped is plain text. -/
def PiecesOk (ps : List (List Atom)) : Prop := ∀ p ∈ ps, ∀ a ∈ p, a.wf []

theorem combine_wbText (ps qs : List (List Atom)) (h : PiecesOk ps) :
    combineWblanks (wbText ps) (wbText qs) = .ok (wbText (ps ++ qs)) := by
  by_cases hp : ps = []
  · subst hp; simpa [wbText] using (C14_empty _).1
  · by_cases hq : qs = []
    · subst hq; simpa [wbText] using (C14_empty _).2
    · simp only [wbText, hp, hq, if_false, List.append_eq_nil_iff, and_self]
      exact C14_combine ps qs hp hq h

mutual
/-- Expressions that do not build lexical units themselves. -/
def Expr.flat : Expr → Prop
  | .lu _ => False
  | .mlu _ => False
  | .chunk _ _ _ _ => False
  | .concat es => Expr.flatL es
  | _ => True
def Expr.flatL : List Expr → Prop
  | [] => True
  | e :: es => Expr.flat e ∧ Expr.flatL es
end

/-- The pieces an expression brings along: those of the words whose lemma (`lem`, `lemh`, `whole`) it clips on the `sl` or `tl` side,
and those saved in the variables it uses.  `pw` gives the pieces of the words, `pv` those of the variables. -/
def Simple.sources (pw : Nat → List (List Atom)) (pv : Text → List (List Atom)) (s : TSt) : Simple → List (List Atom)
  | .clip pos sd part _ linkTo =>
    match s.wordAt (pos - 1) with
    | none => []
    | some (i, _) =>
      if linkTo = [] ∧ sd ≠ .ref ∧ (part = t!"lem" ∨ part = t!"lemh" ∨ part = t!"whole") then pw i else []
  | .lit _ => []
  | .var n => pv n

mutual
def Expr.sources (pw : Nat → List (List Atom)) (pv : Text → List (List Atom)) (s : TSt) : Expr → List (List Atom)
  | .simple e => e.sources pw pv s
  | .getCaseFrom pos e => if (s.wordAt (pos - 1)).isSome then e.sources pw pv s else []
  | .concat es => Expr.sourcesL pw pv s es
  | _ => []
def Expr.sourcesL (pw : Nat → List (List Atom)) (pv : Text → List (List Atom)) (s : TSt) : List Expr → List (List Atom)
  | [] => []
  | e :: es => Expr.sources pw pv s e ++ Expr.sourcesL pw pv s es
end

/-- The words and variables of the state have these pieces. -/
structure HasPieces (s : TSt) (pw : Nat → List (List Atom)) (pv : Text → List (List Atom)) : Prop where
  words : ∀ i w, s.heap[i]? = some w → w.wb = wbText (pw i)
  vars : ∀ n, s.varWb n = wbText (pv n)
  okw : ∀ i, PiecesOk (pw i)
  okv : ∀ n, PiecesOk (pv n)

/-- The invariant inside `<lu>`. -/
structure InLu (s0 : TSt) (acc : List (List Atom)) (s : TSt) : Prop where
  heap : s.heap = s0.heap
  word : s.word = s0.word
  varWb : s.varWb = s0.varWb
  inLu : s.inLu = true
  outWb : s.outWb = wbText acc
  ok : PiecesOk acc

theorem PiecesOk.append {a b : List (List Atom)} (h : PiecesOk a) (h' : PiecesOk b) : PiecesOk (a ++ b) := by
  intro p hp
  rcases List.mem_append.1 hp with h1 | h1
  · exact h p h1
  · exact h' p h1

theorem Simple.sources_congr {pw pv} {s s' : TSt} (h1 : s'.heap = s.heap) (h2 : s'.word = s.word) (e : Simple) :
    e.sources pw pv s' = e.sources pw pv s := by
  cases e <;> simp only [Simple.sources, wordAt_congr h1 h2]

mutual
theorem Expr.sources_congr {pw pv} {s s' : TSt} (h1 : s'.heap = s.heap) (h2 : s'.word = s.word) : (e : Expr) →
    e.sources pw pv s' = e.sources pw pv s
  | .simple e => by simp only [Expr.sources, Simple.sources_congr h1 h2]
  | .getCaseFrom pos e => by simp only [Expr.sources, Simple.sources_congr h1 h2, wordAt_congr h1 h2]
  | .concat es => by simp only [Expr.sources]; exact Expr.sourcesL_congr h1 h2 es
  | .litTag _ | .blank | .luCount | .caseOf _ _ _ | .lu _ | .mlu _ | .chunk _ _ _ _ | .tags _ | .unknown => by
    simp only [Expr.sources]
theorem Expr.sourcesL_congr {pw pv} {s s' : TSt} (h1 : s'.heap = s.heap) (h2 : s'.word = s.word) : (es : List Expr) →
    Expr.sourcesL pw pv s' es = Expr.sourcesL pw pv s es
  | [] => by simp only [Expr.sourcesL]
  | e :: es => by simp only [Expr.sourcesL, Expr.sources_congr h1 h2 e, Expr.sourcesL_congr h1 h2 es]
end

theorem evalSimple_sources {env : TEnv} (hl : env.lastLword > 1) {pw pv} {s0 s s' : TSt} (hp : HasPieces s0 pw pv)
    {acc} (h : InLu s0 acc s) (e : Simple) {t : Text} (he : evalSimple env e s = .ok (t, s')) :
    InLu s0 (acc ++ e.sources pw pv s0) s' := by
  rw [← Simple.sources_congr h.heap h.word e]
  cases e with
  | clip pos sd part q linkTo =>
    simp only [evalSimple] at he
    simp only [Simple.sources]
    split at he
    · rename_i hw; rw [hw]; cases he; simpa using h
    · rename_i i w hw
      rw [hw]
      dsimp only
      split at he
      · rename_i hlk; cases he; rw [if_neg (by simp [hlk])]; simpa using h
      split at he
      · rename_i hlk hsd; cases he; rw [if_neg (by simp [hsd])]; simpa using h
      · rename_i hlk hsd
        obtain ⟨s1, h1, h2⟩ := ok_map_eq he
        cases h2
        simp only [ne_eq, Decidable.not_not] at hlk
        unfold addWblank at h1
        by_cases hg : part = t!"lem" ∨ part = t!"lemh" ∨ part = t!"whole"
        · rw [if_pos ⟨by simp [gettingLemma, hg], hl⟩, if_pos h.inLu] at h1
          rw [if_pos ⟨hlk, hsd, hg⟩]
          obtain ⟨c, hc, rfl⟩ := ok_map_eq h1
          have hwb := hp.words i w (by rw [← h.heap]; exact (wordAt_mem hw).1)
          rw [h.outWb, hwb, combine_wbText _ _ h.ok] at hc
          cases hc
          exact ⟨h.heap, h.word, h.varWb, h.inLu, rfl, h.ok.append (hp.okw i)⟩
        · rw [if_neg (by simp [gettingLemma, hg])] at h1
          rw [if_neg (by simp [hg])]
          cases h1; simpa using h
  | lit v => cases he; simpa [Simple.sources] using h
  | var n =>
    simp only [evalSimple, if_pos hl] at he
    obtain ⟨c, hc, h2⟩ := ok_map_eq he
    cases h2
    rw [h.outWb, h.varWb, hp.vars, combine_wbText _ _ h.ok] at hc
    cases hc
    exact ⟨h.heap, h.word, h.varWb, h.inLu, rfl, h.ok.append (hp.okv n)⟩

mutual
theorem evalExpr_sources {env : TEnv} (hl : env.lastLword > 1) {pw pv} {s0 : TSt} (hp : HasPieces s0 pw pv) :
    (e : Expr) → e.flat → ∀ {acc} {s s' : TSt} {t : Text}, InLu s0 acc s → evalExpr env e s = .ok (t, s') →
      InLu s0 (acc ++ e.sources pw pv s0) s'
  | .simple e, _, _, _, _, _, h, he => evalSimple_sources hl hp h e he
  | .litTag _, _, _, _, _, _, h, he => by cases he; simpa [Expr.sources] using h
  | .blank, _, acc, s, s', _, h, he => by
    simp only [evalExpr] at he
    split at he
    · cases he; simpa [Expr.sources] using h
    · split at he
      · cases he
        simp only [Expr.sources, List.append_nil]
        exact ⟨h.heap, h.word, h.varWb, h.inLu, h.outWb, h.ok⟩
      · cases he; simpa [Expr.sources] using h
  | .getCaseFrom pos e, _, _, s, _, _, h, he => by
    simp only [evalExpr] at he
    simp only [Expr.sources, ← wordAt_congr h.heap h.word]
    split at he
    · rename_i hw; rw [hw]; cases he; simpa using h
    · rename_i hw
      rw [hw]
      obtain ⟨⟨d, s1⟩, h1, h2⟩ := ok_map_eq he
      cases h2
      exact evalSimple_sources hl hp h e h1
  | .luCount, _, _, _, _, _, _, he => by simp [evalExpr] at he
  | .caseOf _ _ _, _, _, _, _, _, h, he => by
    simp only [evalExpr] at he
    split at he <;> cases he <;> simpa [Expr.sources] using h
  | .concat es, hf, _, _, _, _, h, he => by
    simp only [evalExpr] at he
    simp only [Expr.flat] at hf
    simp only [Expr.sources]
    exact evalList_sources hl hp es hf h he
  | .lu _, hf, _, _, _, _, _, _ => by simp [Expr.flat] at hf
  | .mlu _, hf, _, _, _, _, _, _ => by simp [Expr.flat] at hf
  | .chunk _ _ _ _, hf, _, _, _, _, _, _ => by simp [Expr.flat] at hf
  | .tags _, _, _, _, _, _, _, he => by simp [evalExpr] at he
  | .unknown, _, _, _, _, _, _, he => by simp [evalExpr] at he
theorem evalList_sources {env : TEnv} (hl : env.lastLword > 1) {pw pv} {s0 : TSt} (hp : HasPieces s0 pw pv) :
    (es : List Expr) → Expr.flatL es → ∀ {acc} {s s' : TSt} {t : Text}, InLu s0 acc s → evalList env es s = .ok (t, s') →
      InLu s0 (acc ++ Expr.sourcesL pw pv s0 es) s'
  | [], _, _, _, _, _, h, he => by simp only [evalList] at he; cases he; simpa [Expr.sourcesL] using h
  | e :: es, hf, _, _, _, _, h, he => by
    simp only [evalList] at he
    simp only [Expr.flatL] at hf
    obtain ⟨⟨t1, s1⟩, h1, he⟩ := ok_bind_eq he
    obtain ⟨⟨t2, s2⟩, h2, h3⟩ := ok_map_eq he
    cases h3
    have := evalList_sources hl hp es hf.2 (evalExpr_sources hl hp e hf.1 h h1) h2
    simpa [Expr.sourcesL] using this
end

theorem HasPieces.congr {s s' : TSt} {pw pv} (h : HasPieces s pw pv) (h1 : s'.heap = s.heap) (h2 : s'.varWb = s.varWb) :
    HasPieces s' pw pv := ⟨by rw [h1]; exact h.words, by rw [h2]; exact h.vars, h.okw, h.okv⟩

/-- C38: in a rule that matched several words, a non-empty output lexical unit carries, in order of use, the pieces of the
word-bound blanks of the words whose lemmas it clips and of the variables it uses, and no other. -/
theorem C38_lu_wblank (env : TEnv) (hl : env.lastLword > 1) (es : List Expr) (hf : Expr.flatL es) (s s' : TSt)
    (pw : Nat → List (List Atom)) (pv : Text → List (List Atom)) (hp : HasPieces s pw pv) (t : Text)
    (h : evalExpr env (.lu es) s = .ok (t, s')) :
    ∃ body, t = [] ∨ (t!"[[" <+: body ∧ t = body ++ ['$']) ∨
      t = wbText (Expr.sourcesL pw pv s es) ++ ['^'] ++ body ++ ['$'] := by
  simp only [evalExpr] at h
  obtain ⟨⟨u, s1⟩, h1, h⟩ := ok_bind_eq h
  have hi : InLu { s with inLu := true, outWb := [] } [] { s with inLu := true, outWb := [] } :=
    ⟨rfl, rfl, rfl, rfl, rfl, by intro p hp; simp at hp⟩
  have hp' : HasPieces { s with inLu := true, outWb := [] } pw pv := hp.congr rfl rfl
  have := evalList_sources hl hp' es hf hi h1
  rw [Expr.sourcesL_congr (s := s) (s' := { s with inLu := true, outWb := [] }) rfl rfl, List.nil_append] at this
  simp only [finishLu, if_neg (by omega : ¬ env.lastLword = 1)] at h
  cases h
  refine ⟨u, ?_⟩
  simp only [luText, this.outWb]
  split
  · exact Or.inl rfl
  · split
    · rename_i hh; exact Or.inr (Or.inl ⟨hh, rfl⟩)
    · exact Or.inr (Or.inr (by simp))

/-- C38: in a rule that matched one word, every non-empty output lexical unit carries the word-bound blank of that word,
whatever it is made of. -/
theorem C38_single_word (env : TEnv) (hl : env.lastLword = 1) (es : List Expr) (s s' : TSt) (t : Text)
    (i : Nat) (w : TWord) (rest : List (Option Nat)) (hw : s.word = some i :: rest) (hi : s.heap[i]? = some w)
    (h : evalExpr env (.lu es) s = .ok (t, s')) :
    ∃ body, t = [] ∨ (t!"[[" <+: body ∧ t = body ++ ['$']) ∨ t = w.wb ++ ['^'] ++ body ++ ['$'] := by
  simp only [evalExpr] at h
  obtain ⟨⟨u, s1⟩, h1, h⟩ := ok_bind_eq h
  have F := evalList_facts env es h1
  have hw1 : s1.word = some i :: rest := by rw [F.word]; exact hw
  have hi1 : s1.heap[i]? = some w := by rw [F.heap]; exact hi
  simp only [finishLu, if_pos hl, hw1, hi1] at h
  cases h
  refine ⟨u, ?_⟩
  simp only [luText]
  split
  · exact Or.inl rfl
  · split
    · rename_i hh; exact Or.inr (Or.inl ⟨hh, rfl⟩)
    · exact Or.inr (Or.inr (by simp))

/-- Non-vacuity of C38. -/
example : HasPieces exState (fun i => if i = 0 then [[.lit 'a']] else if i = 1 then [[.lit 'b']] else []) (fun _ => []) := by
  refine ⟨?_, fun _ => rfl, ?_, fun _ => by simp [PiecesOk]⟩
  · intro i w h
    match i, h with
    | 0, h => cases h; decide
    | 1, h => cases h; decide
    | n + 2, h => simp [exState] at h
  · intro i
    by_cases h0 : i = 0
    · simp [h0, PiecesOk, Atom.wf]
    · by_cases h1 : i = 1 <;> simp [h1, h0, PiecesOk, Atom.wf]

example : (evalExpr (exEnv 2) (.lu [.simple (.clip 2 .tl t!"lem" true []), .simple (.lit t!"~"),
    .simple (.clip 1 .tl t!"lem" true [])]) exState).map (·.1) = .ok t!"[[b; a]]^gran~gat$" := by decide +kernel

/-- C38 (finding): `<mlu>` leaves the interpreter "inside a lexical unit": a variable assigned from a lemma afterwards does not save the
word-bound blank, so a lexical unit built from the variable loses it. -/
theorem C38_mlu_loses_wblank_violation :
    let use := [Instr.assign (.simple (.var t!"v")) (.simple (.clip 1 .tl t!"lem" true [])),
      Instr.out [.lu [.simple (.var t!"v")]]]
    (processRule (exEnv 2) 0 use exState).map (·.2.out) = .ok t!"[[a]]^gat$[x]" ∧
    (processRule (exEnv 2) 0 (.out [.mlu [[.simple (.clip 2 .tl t!"lem" true [])]]] :: use) exState).map (·.2.out) =
      .ok t!"[[b]]^gran$^gat$[x]" := by decide +kernel

/-! ## C39: a rule that rejects itself -/

/-- What a rule writes when it begins with `<choose><when><test>c</test><reject-current-rule/></when>..</choose>` and `c` holds: the
remaining instructions are not run; the state, but for output and queue, is unchanged; and of the output there is only
the queued blanks that are not single spaces. -/
theorem C39_reject (env : TEnv) (d : Nat) (s : TSt) (hs : s.WbsOk) (ho : s.inOut = false)
    (hl : s.inLetVar = false) (val : Expr → Text) (c : Cond) (sh : Text) (hsh : rejectValue (virt env) sh ≠ -1)
    (rest : List Opt) (more : List Instr) (hwc : c.wf)
    (hvalc : ∀ e ∈ c.exprs, ∃ s', evalExpr env e s = .ok (val e, s')) (hc : c.holds val env.tolower env.list) :
    ∃ s', processRule env d (.choose (mkWhen c [.reject sh] :: rest) :: more) s = .ok (rejectValue (virt env) sh, s') ∧
      s'.out = s.out ++ (s.blanks.filter (· ≠ [' '])).flatten ∧ s'.heap = s.heap ∧ s'.word = s.word ∧ s'.vars = s.vars := by
  obtain ⟨s1, h1, h2⟩ := C12_transfer_choose env (callMacro env d) s hs ho hl val [] c [.reject sh] rest
    (by simp) hwc (by simp) hvalc (by simp) hc
  simp only [List.map_nil, List.nil_append, execBlock, exec, Outcome.bind, if_pos hsh] at h2
  have h3 : processRule env d (.choose (mkWhen c [.reject sh] :: rest) :: more) s =
      .ok (rejectValue (virt env) sh, { s1 with out := s1.out ++ flushBlanks s1.blanks, blanks := [] }) := by
    unfold processRule
    rw [execBlock, exec, h2]
    simp only [Outcome.bind, if_pos hsh, Outcome.map]
  refine ⟨_, h3, ?_, h1.heap, h1.word, h1.vars⟩
  simp [flushBlanks, h1.out, h1.blanks]

/-- C39 when all the queued blanks are single spaces: a rule that rejects itself has written nothing. -/
theorem C39_reject_silent_partial (env : TEnv) (d : Nat) (s : TSt) (hs : s.WbsOk) (ho : s.inOut = false)
    (hl : s.inLetVar = false) (val : Expr → Text) (c : Cond) (sh : Text) (hsh : rejectValue (virt env) sh ≠ -1)
    (rest : List Opt) (more : List Instr) (hwc : c.wf)
    (hvalc : ∀ e ∈ c.exprs, ∃ s', evalExpr env e s = .ok (val e, s')) (hc : c.holds val env.tolower env.list)
    (hb : ∀ b ∈ s.blanks, b = [' ']) :
    ∃ s', processRule env d (.choose (mkWhen c [.reject sh] :: rest) :: more) s = .ok (rejectValue (virt env) sh, s') ∧
      s'.out = s.out := by
  obtain ⟨s', h1, h2, _⟩ := C39_reject env d s hs ho hl val c sh hsh rest more hwc hvalc hc
  refine ⟨s', h1, ?_⟩
  rw [h2]
  have : s.blanks.filter (· ≠ [' ']) = [] := by
    rw [List.filter_eq_nil_iff]; intro b hb'; simp [hb b hb']
  rw [this]; simp

/-- C39 (finding): a rule that rejects itself has already written its blanks, which will be read again. -/
theorem C39_reject_writes_blanks_violation :
    (processRule (exEnv 2) 0 [.choose [mkWhen (.equal false (.simple (.lit [])) (.simple (.lit []))) [.reject t!"no"]]]
      exState).map (fun p => (p.1, p.2.out)) = .ok (0, t!"[x]") := by decide +kernel

/-! ## C40: variables and macros -/

theorem evalSimple_flat {env : TEnv} (e : Simple) {s s1 : TSt} {t : Text} {s' : TSt}
    (h : evalSimple env e s = .ok (t, s')) (h1 : s1.heap = s.heap) (h2 : s1.word = s.word) (h3 : s1.vars = s.vars)
    (hb : s1.blanks = s.blanks) (hw : s1.WbsOk) : ∃ s1', evalSimple env e s1 = .ok (t, s1') ∧ s1'.blanks = s'.blanks := by
  cases e with
  | clip pos sd part q linkTo =>
    simp only [evalSimple] at h ⊢
    rw [wordAt_congr h1 h2]
    split at h
    · cases h; exact ⟨s1, rfl, hb⟩
    · rename_i i w hwd
      split at h
      · rename_i hlk; cases h; rw [if_pos hlk]; exact ⟨s1, rfl, hb⟩
      split at h
      · rename_i hlk hsd; cases h; rw [if_neg hlk, if_pos hsd]; exact ⟨s1, rfl, hb⟩
      · rename_i hlk hsd
        obtain ⟨s2, h4, h5⟩ := ok_map_eq h
        cases h5
        rw [if_neg hlk, if_neg hsd]
        have hs' : s'.blanks = s.blanks := by
          unfold addWblank at h4
          split at h4
          · split at h4
            · obtain ⟨_, _, rfl⟩ := ok_map_eq h4; rfl
            · split at h4
              · obtain ⟨_, _, rfl⟩ := ok_map_eq h4; rfl
              · cases h4; rfl
          · cases h4; rfl
        have hwb : WbOk w.wb := hw.heap _ (by rw [h1]; exact (wordAt_mem hwd).2)
        obtain ⟨c1, hc1, _⟩ := combine_ok hw.out hwb
        obtain ⟨c2, hc2, _⟩ := combine_ok (hw.vars s1.varVal) hwb
        have hadd : ∃ s3, addWblank env part w.wb s1 = .ok s3 ∧ s3.blanks = s1.blanks := by
          unfold addWblank
          rw [hc1, hc2]
          split
          · split
            · exact ⟨_, rfl, rfl⟩
            · split
              · exact ⟨_, rfl, rfl⟩
              · exact ⟨_, rfl, rfl⟩
          · exact ⟨_, rfl, rfl⟩
        obtain ⟨s3, h5, h6⟩ := hadd
        exact ⟨s3, by simp only [h5, Outcome.map], by rw [h6, hb, hs']⟩
  | lit v => cases h; exact ⟨s1, rfl, hb⟩
  | var n =>
    simp only [evalSimple] at h ⊢
    obtain ⟨c1, hc1, _⟩ := combine_ok hw.out (hw.vars n)
    rw [hc1]
    split at h
    · rename_i hlt
      obtain ⟨c, _, h5⟩ := ok_map_eq h
      cases h5
      rw [if_pos hlt]
      refine ⟨{ s1 with outWb := c1 }, by simp only [Outcome.map, h3], hb⟩
    · rename_i hlt; cases h; rw [if_neg hlt]; exact ⟨s1, by rw [h3], hb⟩

mutual
theorem evalExpr_flat {env : TEnv} : (e : Expr) → e.flat → ∀ {s s1 : TSt} {t : Text} {s' : TSt},
    evalExpr env e s = .ok (t, s') → s1.heap = s.heap → s1.word = s.word → s1.vars = s.vars →
    s1.blanks = s.blanks → s1.inOut = s.inOut → s1.WbsOk → ∃ s1', evalExpr env e s1 = .ok (t, s1') ∧ s1'.blanks = s'.blanks
  | .simple e, _, s, s1, t, s', h, h1, h2, h3, hb, ho, hw => by
    simp only [evalExpr] at h ⊢
    exact evalSimple_flat e h h1 h2 h3 hb hw
  | .litTag _, _, s, s1, t, s', h, _, _, _, hb, _, _ => by cases h; exact ⟨s1, rfl, hb⟩
  | .blank, _, s, s1, t, s', h, _, _, _, hb, ho, _ => by
    simp only [evalExpr] at h ⊢
    rw [hb]
    split at h
    · cases h; exact ⟨s1, rfl, hb⟩
    · cases h
      refine ⟨_, rfl, ?_⟩
      rw [ho]; split <;> simp_all
  | .getCaseFrom pos e, _, s, s1, t, s', h, h1, h2, h3, hb, ho, hw => by
    simp only [evalExpr] at h ⊢
    rw [wordAt_congr h1 h2]
    split at h
    · cases h; exact ⟨s1, rfl, hb⟩
    · obtain ⟨⟨d, s2⟩, h4, h5⟩ := ok_map_eq h
      cases h5
      obtain ⟨s1', h6, h7⟩ := evalSimple_flat e h4 h1 h2 h3 hb hw
      exact ⟨s1', by simp only [h6, Outcome.map], h7⟩
  | .luCount, _, s, s1, t, s', h, _, _, _, _, _, _ => by simp [evalExpr] at h
  | .caseOf _ _ _, _, s, s1, t, s', h, h1, h2, _, hb, _, _ => by
    simp only [evalExpr] at h ⊢
    rw [wordAt_congr h1 h2]
    split at h <;> cases h <;> exact ⟨s1, rfl, hb⟩
  | .concat es, hf, s, s1, t, s', h, h1, h2, h3, hb, ho, hw => by
    simp only [evalExpr] at h ⊢
    exact evalList_flat es (by simpa [Expr.flat] using hf) h h1 h2 h3 hb ho hw
  | .lu _, hf, _, _, _, _, _, _, _, _, _, _, _ => by simp [Expr.flat] at hf
  | .mlu _, hf, _, _, _, _, _, _, _, _, _, _, _ => by simp [Expr.flat] at hf
  | .chunk _ _ _ _, hf, _, _, _, _, _, _, _, _, _, _, _ => by simp [Expr.flat] at hf
  | .tags _, _, s, s1, t, s', h, _, _, _, _, _, _ => by simp [evalExpr] at h
  | .unknown, _, s, s1, t, s', h, _, _, _, _, _, _ => by simp [evalExpr] at h
theorem evalList_flat {env : TEnv} : (es : List Expr) → Expr.flatL es → ∀ {s s1 : TSt} {t : Text} {s' : TSt},
    evalList env es s = .ok (t, s') → s1.heap = s.heap → s1.word = s.word → s1.vars = s.vars →
    s1.blanks = s.blanks → s1.inOut = s.inOut → s1.WbsOk → ∃ s1', evalList env es s1 = .ok (t, s1') ∧ s1'.blanks = s'.blanks
  | [], _, s, s1, t, s', h, _, _, _, hb, _, _ => by
    simp only [evalList] at h ⊢; cases h; exact ⟨s1, rfl, hb⟩
  | e :: es, hf, s, s1, t, s', h, h1, h2, h3, hb, ho, hw => by
    simp only [evalList] at h ⊢
    simp only [Expr.flatL] at hf
    obtain ⟨⟨t1, s2⟩, h4, h⟩ := ok_bind_eq h
    obtain ⟨⟨t2, s3⟩, h5, h6⟩ := ok_map_eq h
    cases h6
    obtain ⟨s4, h7, h8⟩ := evalExpr_flat e hf.1 h4 h1 h2 h3 hb ho hw
    have F := evalExpr_facts env e h4
    have G := evalExpr_facts env e h7
    obtain ⟨s5, h9, h10⟩ := evalList_flat es hf.2 h5 (s1 := s4) (by rw [G.heap, F.heap, h1])
      (by rw [G.word, F.word, h2]) (by rw [G.vars, F.vars, h3]) h8 (by rw [G.inOut, F.inOut, ho]) (G.wbs hw)
    exact ⟨s5, by simp only [h7, Outcome.bind, h9, Outcome.map], h10⟩
end

/-- C40: after `<let><var n="x"/>e</let>`, the variable `x` reads as the value `e` had, and every other variable,
every word and the output are unchanged. -/
theorem C40_let_var (env : TEnv) (n : Text) (e : Expr) (hf : e.flat) (s s0 : TSt) (v : Text) (hs : s.WbsOk)
    (h : evalExpr env e s = .ok (v, s0)) :
    ∃ s', processLet env (.simple (.var n)) e s = .ok s' ∧ s'.vars n = v ∧ (∀ m, m ≠ n → s'.vars m = s.vars m) ∧
      s'.heap = s.heap ∧ s'.word = s.word ∧ s'.out = s.out ∧
      (∃ s2, evalExpr env (.simple (.var n)) s' = .ok (v, s2)) := by
  have hw : ({ s with inLetVar := true, varVal := n, varWb := upd s.varWb n [] } : TSt).WbsOk := by
    refine ⟨hs.heap, fun m => ?_, hs.out⟩
    simp only [upd]; split
    · exact Or.inl rfl
    · exact hs.vars m
  obtain ⟨s1, h1, _⟩ := evalExpr_flat e hf h (s1 := { s with inLetVar := true, varVal := n, varWb := upd s.varWb n [] })
    rfl rfl rfl rfl rfl hw
  have F := evalExpr_facts env e h1
  have W := F.wbs hw
  have h2 : processLet env (.simple (.var n)) e s = .ok { s1 with vars := upd s1.vars n v, inLetVar := false } := by
    simp only [processLet, h1, Outcome.map]
  refine ⟨_, h2, by simp [upd], ?_, F.heap, F.word, F.out, ?_⟩
  · intro m hm; simp [upd, hm, F.vars]
  · simp only [evalExpr, evalSimple]
    obtain ⟨c, hc, _⟩ := combine_ok W.out (W.vars n)
    split
    · rw [hc]
      exact ⟨{ s1 with vars := upd s1.vars n v, inLetVar := false, outWb := c }, by simp [Outcome.map, upd]⟩
    · exact ⟨{ s1 with vars := upd s1.vars n v, inLetVar := false }, by simp [upd]⟩

example : (evalExpr (exEnv 2) (.concat [.simple (.clip 1 .tl t!"lem" true []), .litTag t!"n.pl"]) exState).map (·.1) =
    .ok t!"gat<n><pl>" := by decide +kernel

/-- The array of words and the number of words never change in a rule run. -/
def WordsFixed (s s' : TSt) : Prop := s'.word = s.word ∧ s'.heap.length = s.heap.length

theorem Facts.wordsFixed {s s' : TSt} {t : Text} (h : Facts s t s') : WordsFixed s s' :=
  ⟨h.word, by rw [h.heap]⟩

theorem outLoop_words {env : TEnv} : (es : List Expr) → ∀ {s s' : TSt}, outLoop env es s = .ok s' → WordsFixed s s'
  | [], s, s', h => by simp only [outLoop] at h; cases h; exact ⟨rfl, rfl⟩
  | e :: es, s, s', h => by
    simp only [outLoop] at h
    obtain ⟨⟨t, s1⟩, h1, h⟩ := ok_bind_eq h
    have A := outLoop_words es h
    have F := (evalExpr_facts env e h1).wordsFixed
    exact ⟨A.1.trans F.1, A.2.trans F.2⟩

theorem processAppend_words {env : TEnv} {n : Text} : (es : List Expr) → ∀ {s s' : TSt},
    processAppend env n es s = .ok s' → WordsFixed s s'
  | [], s, s', h => by simp only [processAppend] at h; cases h; exact ⟨rfl, rfl⟩
  | e :: es, s, s', h => by
    simp only [processAppend] at h
    obtain ⟨⟨t, s1⟩, h1, h⟩ := ok_bind_eq h
    have A := processAppend_words es h
    have F := (evalExpr_facts env e h1).wordsFixed
    exact ⟨A.1.trans F.1, A.2.trans F.2⟩

theorem words_closed (env : TEnv) (d : Nat) : Closed (virt env) (callMacro env d) WordsFixed := by
  have hlet : ∀ {l r : Expr} {s s' : TSt}, processLet env l r s = .ok s' → WordsFixed s s' := by
    intro l r s s' h
    unfold processLet at h
    split at h
    · obtain ⟨⟨t, s1⟩, h1, rfl⟩ := ok_map_eq h
      exact (evalExpr_facts env r h1).wordsFixed
    · split at h
      · cases h; exact ⟨rfl, rfl⟩
      split at h
      · simp at h
      split at h
      · cases h; exact ⟨rfl, rfl⟩
      · obtain ⟨⟨t, s1⟩, h1, h⟩ := ok_bind_eq h
        dsimp only at h
        split at h
        · simp at h
        · obtain ⟨w', _, rfl⟩ := ok_map_eq h
          have F := (evalExpr_facts env r h1).wordsFixed
          exact ⟨F.1, by simpa using F.2⟩
    · cases h; exact ⟨rfl, rfl⟩
  have hmod : ∀ {l r : Expr} {s s' : TSt}, processModifyCase env l r s = .ok s' → WordsFixed s s' := by
    intro l r s s' h
    unfold processModifyCase at h
    split at h
    · cases h; exact ⟨rfl, rfl⟩
    split at h
    · split at h
      · simp at h
      · obtain ⟨⟨t, s1⟩, h1, h⟩ := ok_bind_eq h
        dsimp only at h
        split at h
        · simp at h
        · obtain ⟨w', _, rfl⟩ := ok_map_eq h
          have F := (evalExpr_facts env r h1).wordsFixed
          exact ⟨F.1, by simpa using F.2⟩
    · obtain ⟨⟨t, s1⟩, h1, rfl⟩ := ok_map_eq h
      exact (evalExpr_facts env r h1).wordsFixed
    · cases h; exact ⟨rfl, rfl⟩
  have hout : ∀ {es : List Expr} {s s' : TSt}, processOut env es s = .ok s' → WordsFixed s s' := by
    intro es s s' h
    unfold processOut at h
    obtain ⟨s1, h1, rfl⟩ := ok_map_eq h
    have := outLoop_words es h1
    exact ⟨this.1, this.2⟩
  induction d with
  | zero =>
    exact ⟨fun _ => ⟨rfl, rfl⟩, fun a b => ⟨b.1.trans a.1, b.2.trans a.2⟩,
      fun h => (evalExpr_facts env _ h).wordsFixed, hlet, processAppend_words _, hout, hmod,
      fun h => by simp [callMacro] at h⟩
  | succ d ih =>
    refine ⟨fun _ => ⟨rfl, rfl⟩, fun a b => ⟨b.1.trans a.1, b.2.trans a.2⟩,
      fun h => (evalExpr_facts env _ h).wordsFixed, hlet, processAppend_words _, hout, hmod, ?_⟩
    intro n args s s' h
    have run : ∀ w s', ((execMacroBody (virt env) (callMacro env d) (env.macros n).2 { s with word := w }).map
        fun s' => { s' with word := s.word }) = .ok s' → WordsFixed s s' := by
      intro w s' h
      obtain ⟨s1, h1, rfl⟩ := ok_map_eq h
      exact ⟨rfl, (ih.macroBody _ h1).2⟩
    simp only [callMacro] at h
    split at h
    · exact run _ _ h
    split at h
    · split at h
      · simp at h
      · cases h; exact ⟨rfl, rfl⟩
    · split at h
      · simp at h
      · exact run _ _ h

theorem macroArgs_get {word : List (Option Nat)} : (ps : List Int) → ∀ {ws : List (Option Nat)},
    macroArgs word ps = some ws → ws.length = ps.length ∧
      ∀ (k : Nat) (p : Int), ps[k]? = some p → 1 ≤ p ∧ ∃ x, word[(p - 1).toNat]? = some x ∧ ws[k]? = some x
  | [], ws, h => by simp only [macroArgs] at h; cases h; simp
  | p :: ps, ws, h => by
    simp only [macroArgs] at h
    split at h
    · simp at h
    · rename_i hp
      split at h
      · rename_i x xs hx hxs
        cases h
        obtain ⟨hl, hg⟩ := macroArgs_get ps hxs
        refine ⟨by simp [hl], ?_⟩
        intro k q hk
        cases k with
        | zero =>
          simp only [List.getElem?_cons_zero, Option.some.injEq] at hk
          subst hk
          exact ⟨by omega, x, hx, rfl⟩
        | succ k => simpa using hg k q (by simpa using hk)
      · simp at h

/-- C40, macros: in the body of a macro called with as many arguments as it declares (at least one), word `k` is the caller's word
given as the `k`-th argument; afterwards the positions mean in the caller what they did before, and what the body did to
words, variables, output and blanks stays. -/
theorem C40_macro (env : TEnv) (d : Nat) (n : Text) (args : List Int) (s s' : TSt)
    (hn : args.length = (env.macros n).1) (h0 : args ≠ [])
    (h : callMacro env (d + 1) n args s = .ok s') :
    ∃ s0 s1, execMacroBody (virt env) (callMacro env d) (env.macros n).2 s0 = .ok s1 ∧
      (∀ (k : Nat) (p : Int), args[k]? = some p → s0.wordAt k = s.wordAt (p - 1)) ∧ s0.word.length = args.length ∧
      s0.heap = s.heap ∧ s0.vars = s.vars ∧ s0.out = s.out ∧ s0.blanks = s.blanks ∧
      s'.word = s.word ∧ s'.heap = s1.heap ∧ s'.vars = s1.vars ∧ s'.out = s1.out ∧ s'.blanks = s1.blanks := by
  have hpos : (env.macros n).1 ≠ 0 := by
    rw [← hn]; simpa using h0
  simp only [callMacro, if_neg hpos] at h
  rw [if_neg (by omega)] at h
  split at h
  · simp at h
  · rename_i ws hws
    obtain ⟨s1, h1, rfl⟩ := ok_map_eq h
    obtain ⟨hl, hg⟩ := macroArgs_get args hws
    rw [show (env.macros n).1 - args.length = 0 by omega] at h1
    simp only [List.replicate_zero, List.append_nil] at h1
    refine ⟨_, s1, h1, ?_, hl, rfl, rfl, rfl, rfl, rfl, rfl, rfl, rfl, rfl⟩
    intro k p hk
    obtain ⟨hp, x, hx, hwx⟩ := hg k p hk
    have hkl : k < args.length := (List.getElem?_eq_some_iff.1 hk).1
    have hpl : (p - 1).toNat < s.word.length := (List.getElem?_eq_some_iff.1 hx).1
    unfold TSt.wordAt
    rw [if_neg (by simp only [hl, ge_iff_le, Int.not_le]; omega), if_neg (by omega), if_neg (by omega), if_neg (by omega)]
    simp only [Int.toNat_natCast, hwx, hx]

/-- C40: running any instructions, including macro calls at any depth, leaves the array of words as it was. -/
theorem C40_words_fixed (env : TEnv) (d : Nat) (is : List Instr) (s s' : TSt) (w : Int)
    (h : execBlock (virt env) (callMacro env d) is (-1) s = .ok (w, s')) :
    s'.word = s.word ∧ s'.heap.length = s.heap.length := (words_closed env d).block is h

/-- Non-vacuity of the macro theorems: a macro that sets the lemma of its first argument, called with word 2. -/
example : (callMacro { exEnv 2 with macros := fun _ =>
    (1, [.assign (.simple (.clip 1 .tl t!"lem" true [])) (.simple (.lit t!"petit"))]) } 1 t!"m" [2] exState).map
      (fun s => (s.heap.map (·.tgt), s.word)) = .ok ([t!"gat<n><sg>", t!"petit<adj>"], [some 0, some 1]) := by decide +kernel

end Verif.Transfer
