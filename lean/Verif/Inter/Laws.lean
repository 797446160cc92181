import Verif.Inter.Model
import Verif.Chunk.Word
import Verif.Transfer.Props
import Verif.Transfer.Proofs
import Verif.Parts.Props
/-!
# C78: what the instructions of apertium-interchunk mean
-/
namespace Verif.Inter
open Verif.Transfer

/-! ## The meaning of expressions -/

mutual
/-- `Val env ws vars e t`: for the chunks `ws` and the variables `vars`, the expression `e` (without blanks) is the text `t`. -/
inductive Val (env : TEnv) (ws : List IWord) (vars : Text → Text) : Expr → Text → Prop
  | lit {v : Text} : Val env ws vars (.simple (.lit v)) v
  | tag {v : Text} : Val env ws vars (.litTag v) (tagsText v)
  | var {n : Text} : Val env ws vars (.simple (.var n)) (vars n)
  | clip {k : Nat} {w : IWord} {sd : Side} {part lt : Text} {q : Bool} : ws[k]? = some w → part ≠ t!"content" →
      Val env ws vars (.simple (.clip ((k + 1 : Nat) : Int) sd part q lt)) (w.chunkPart (env.attr part))
  | content {k : Nat} {w : IWord} {sd : Side} {lt c : Text} {q : Bool} : ws[k]? = some w → w.chunkPart (env.attr t!"content") = '{' :: c ++ ['}'] →
      Val env ws vars (.simple (.clip ((k + 1 : Nat) : Int) sd t!"content" q lt)) c
  | outside {p : Int} {sd : Side} {part lt : Text} {q : Bool} : p < 1 ∨ (ws.length : Int) < p → Val env ws vars (.simple (.clip p sd part q lt)) []
  | caseOf {k : Nat} {w : IWord} {sd : Side} {part : Text} : ws[k]? = some w → Val env ws vars (.caseOf ((k + 1 : Nat) : Int) sd part) (env.getcase (w.chunkPart (env.attr part)))
  | getCaseFrom {k : Nat} {w : IWord} {e : Simple} {t : Text} : ws[k]? = some w → Val env ws vars (.simple e) t →
      Val env ws vars (.getCaseFrom ((k + 1 : Nat) : Int) e) (env.baseCopycase (w.chunkPart (env.attr t!"lem")) t)
  | concat {es : List Expr} {t : Text} : Vals env ws vars es t → Val env ws vars (.concat es) t
  | chunk {a b c : Text} {es : List Expr} {t : Text} : Vals env ws vars es t → Val env ws vars (.chunk a b c es) ('^' :: t ++ ['$'])
/-- One after the other. -/
inductive Vals (env : TEnv) (ws : List IWord) (vars : Text → Text) : List Expr → Text → Prop
  | nil : Vals env ws vars [] []
  | cons {e : Expr} {es : List Expr} {t u : Text} : Val env ws vars e t → Vals env ws vars es u → Vals env ws vars (e :: es) (t ++ u)
end

/-- What `<out>` writes, with the blanks taken from the queue: `<b/>` is the next blank of the input, or a space when there is none left. -/
inductive Writes (env : TEnv) (ws : List IWord) (vars : Text → Text) : List Expr → List Text → Text → List Text → Prop
  | nil {bs : List Text} : Writes env ws vars [] bs [] bs
  | blank {es : List Expr} {b t : Text} {bs bs' : List Text} : Writes env ws vars es bs t bs' → Writes env ws vars (.blank :: es) (b :: bs) (b ++ t) bs'
  | space {es : List Expr} {t : Text} {bs' : List Text} : Writes env ws vars es [] t bs' → Writes env ws vars (.blank :: es) [] (' ' :: t) bs'
  | val {e : Expr} {es : List Expr} {t u : Text} {bs bs' : List Text} : Val env ws vars e t → Writes env ws vars es bs u bs' → Writes env ws vars (e :: es) bs (t ++ u) bs'

/-- `Sees s ws`: positions 1, 2, ... mean the chunks `ws`.  At the start of a rule these are the chunks it applies to (`C78_start`), in the body of a macro those given as
arguments (`C78_macro`). -/
def Sees (s : ISt) (ws : List IWord) : Prop :=
  s.word.length = ws.length ∧ ∀ (k : Nat) (w : IWord), ws[k]? = some w → ∃ i, s.word[k]? = some (some i) ∧ s.heap[i]? = some w

theorem Sees.at {s : ISt} {ws : List IWord} (h : Sees s ws) {k : Nat} {w : IWord} (hk : ws[k]? = some w) :
    ∃ i, s.wordAt ((k + 1 : Nat) - 1 : Int) = .ok (some (i, w)) := by
  have hlt : k < ws.length := (List.getElem?_eq_some_iff.1 hk).1
  have hl : s.word.length = ws.length := h.1
  obtain ⟨i, h1, h2⟩ := h.2 k w hk
  refine ⟨i, ?_⟩
  unfold ISt.wordAt
  have e : ((k + 1 : Nat) - 1 : Int) = (k : Int) := by omega
  rw [e, if_neg (by omega), if_neg (by omega)]
  simp [h1, h2]

theorem Sees.outside {s : ISt} {ws : List IWord} (h : Sees s ws) {p : Int} (hp : p < 1 ∨ (ws.length : Int) < p) : s.wordAt (p - 1) = .ok none := by
  have hl : s.word.length = ws.length := h.1
  unfold ISt.wordAt
  by_cases h1 : p - 1 ≥ s.word.length
  · rw [if_pos h1]
  · rw [if_neg h1, if_pos (by omega)]

theorem sees_range {s : ISt} (h : s.word = (List.range s.heap.length).map some) : Sees s s.heap := by
  refine ⟨by rw [h]; simp, fun k w hk => ⟨k, ?_, hk⟩⟩
  have hlt : k < s.heap.length := (List.getElem?_eq_some_iff.1 hk).1
  rw [h]; simp [hlt]

theorem trimBraces_braces (c : Text) : trimBraces ('{' :: c ++ ['}']) = .ok c := by
  unfold trimBraces
  rw [if_neg (by simp), if_neg (by simp)]
  simp

variable {env : TEnv}

theorem simple_val {s : ISt} {ws : List IWord} (hs : Sees s ws) {e : Simple} {t : Text} (h : Val env ws s.vars (.simple e) t) : evalSimple env e s = .ok (t, s) := by
  generalize hq : Expr.simple e = q at h
  cases h with
  | lit => cases hq; rfl
  | var => cases hq; rfl
  | clip hk hp =>
    cases hq
    obtain ⟨i, hi⟩ := hs.at hk
    simp only [evalSimple, hi, Outcome.bind, clipValue, if_neg hp, Outcome.map]
  | content hk hp =>
    cases hq
    obtain ⟨i, hi⟩ := hs.at hk
    simp only [evalSimple, hi, Outcome.bind, clipValue, if_true, hp, trimBraces_braces, Outcome.map]
  | outside hp =>
    cases hq
    simp only [evalSimple, hs.outside hp, Outcome.bind]
  | tag | caseOf _ | getCaseFrom _ _ | concat _ | chunk _ => cases hq

mutual
theorem expr_val {s : ISt} {ws : List IWord} (hs : Sees s ws) : (e : Expr) → {t : Text} → Val env ws s.vars e t → evalExpr env e s = .ok (t, s)
  | .simple e, _, h => by simp only [evalExpr]; exact simple_val hs h
  | .litTag v, _, h => by cases h; rfl
  | .blank, _, h => by cases h
  | .getCaseFrom p e, _, h => by
    cases h with
    | getCaseFrom hk hv =>
      obtain ⟨i, hi⟩ := hs.at hk
      simp only [evalExpr, hi, Outcome.bind, simple_val hs hv, Outcome.map]
  | .luCount, _, h => by cases h
  | .caseOf p sd part, _, h => by
    cases h with
    | caseOf hk =>
      obtain ⟨i, hi⟩ := hs.at hk
      simp only [evalExpr, hi, Outcome.bind]
  | .concat es, _, h => by
    cases h with
    | concat h => simp only [evalExpr]; exact list_val hs es h
  | .lu _, _, h => by cases h
  | .mlu _, _, h => by cases h
  | .chunk _ _ _ es, _, h => by
    cases h with
    | chunk h => simp only [evalExpr, list_val hs es h, Outcome.map]
  | .tags _, _, h => by cases h
  | .unknown, _, h => by cases h
theorem list_val {s : ISt} {ws : List IWord} (hs : Sees s ws) : (es : List Expr) → {t : Text} → Vals env ws s.vars es t → evalList env es s = .ok (t, s)
  | [], _, h => by cases h; rfl
  | e :: es, _, h => by
    cases h with
    | cons h1 h2 => simp only [evalList, expr_val hs e h1, Outcome.bind, list_val hs es h2, Outcome.map]
end

/-- **C78, expressions.** `<clip>`, `<lit>`, `<var>`, `<concat>`, `<chunk>`, ... have the value they should have, and change nothing. -/
theorem C78_value {s : ISt} {ws : List IWord} (hs : Sees s ws) {e : Expr} {t : Text} (h : Val env ws s.vars e t) : evalExpr env e s = .ok (t, s) := expr_val hs e h

theorem outLoop_writes {ws : List IWord} {vars : Text → Text} {es : List Expr} {bs bs' : List Text} {t : Text} (h : Writes env ws vars es bs t bs') :
    ∀ s : ISt, Sees s ws → s.vars = vars → s.blanks = bs → s.inOut = true → outLoop env es s = .ok { s with out := s.out ++ t, blanks := bs' } := by
  induction h with
  | nil =>
    intro s _ _ hb _
    simp only [outLoop, List.append_nil, ← hb]
  | @blank es b t bs bs' _ ih =>
    rintro ⟨hp, wd, vr, io, bl, ot⟩ hs hv hb ho
    dsimp only at hv hb ho
    subst hv hb ho
    simp only [outLoop, evalExpr, if_true, Outcome.bind]
    rw [ih ⟨hp, wd, vr, true, bs, ot ++ b⟩ hs rfl rfl rfl]
    simp
  | @space es t bs' _ ih =>
    rintro ⟨hp, wd, vr, io, bl, ot⟩ hs hv hb ho
    dsimp only at hv hb ho
    subst hv hb ho
    simp only [outLoop, evalExpr, Outcome.bind]
    rw [ih ⟨hp, wd, vr, true, [], ot ++ [' ']⟩ hs rfl rfl rfl]
    simp
  | @val e es t u bs bs' h1 _ ih =>
    intro s hs hv hb ho
    subst hv
    simp only [outLoop, expr_val hs e h1, Outcome.bind]
    rw [ih { s with out := s.out ++ t } hs rfl hb ho]
    simp

/-- **C78, `<out>`.** What `<out>` writes is what it should write, after what was written before; the blanks used are taken from the queue, and nothing else changes. -/
theorem C78_out {s : ISt} {ws : List IWord} (hs : Sees s ws) (ho : s.inOut = false) {es : List Expr} {t : Text} {bs' : List Text}
    (h : Writes env ws s.vars es s.blanks t bs') : processOut env es s = .ok { s with out := s.out ++ t, blanks := bs' } := by
  unfold processOut
  rw [outLoop_writes h { s with inOut := true } hs rfl rfl rfl]
  simp only [Outcome.map, ho]

/-! ## Assignments -/

/-- **C78, `<let>` of a variable.** -/
theorem C78_let_var {s : ISt} {ws : List IWord} (hs : Sees s ws) (n : Text) {e : Expr} {t : Text} (h : Val env ws s.vars e t) :
    ∃ s', processLet env (.simple (.var n)) e s = .ok s' ∧ s'.vars n = t ∧ (∀ m, m ≠ n → s'.vars m = s.vars m) ∧
      s'.heap = s.heap ∧ s'.word = s.word ∧ s'.blanks = s.blanks ∧ s'.out = s.out ∧ s'.inOut = s.inOut := by
  refine ⟨{ s with vars := upd s.vars n t }, ?_, by simp [upd], fun m hm => by simp [upd, hm], rfl, rfl, rfl, rfl, rfl⟩
  simp only [processLet, expr_val hs e h, Outcome.map]

theorem wordRaw_at {s : ISt} {k i : Nat} {w : IWord} (hi : s.word[k]? = some (some i)) (hw : s.heap[i]? = some w) : s.wordRaw ((k + 1 : Nat) - 1 : Int) = .ok (i, w) := by
  unfold ISt.wordRaw
  have e : ((k + 1 : Nat) - 1 : Int) = (k : Int) := by omega
  rw [e, if_neg (by omega)]
  simp [hi, hw]

/-- **C78, `<let>` of a part.** The part, if the chunk has it, is replaced in the head of the chunk; what is inside the chunk and all other chunks, the variables and what was
written stay. -/
theorem C78_let_part {s : ISt} {ws : List IWord} (hs : Sees s ws) {k i : Nat} {w : IWord} (hi : s.word[k]? = some (some i)) (hw : s.heap[i]? = some w) (sd : Side) (part lt : Text)
    (q : Bool) {e : Expr} {v : Text} (h : Val env ws s.vars e v) :
    ∃ s', processLet env (.simple (.clip ((k + 1 : Nat) : Int) sd part q lt)) e s = .ok s' ∧
      (∃ w', s'.heap[i]? = some w' ∧ w'.queue = w.queue ∧ w'.wb = w.wb ∧ ((env.attr part).find w.chunk = none → w'.chunk = w.chunk) ∧
        ∀ pre m post, (env.attr part).find w.chunk = some (pre.length, pre.length + m.length) → w.chunk = pre ++ m ++ post → w'.chunk = pre ++ v ++ post) ∧
      (∀ j, j ≠ i → s'.heap[j]? = s.heap[j]?) ∧ s'.word = s.word ∧ s'.vars = s.vars ∧ s'.blanks = s.blanks ∧ s'.out = s.out ∧ s'.inOut = s.inOut := by
  have hlt : i < s.heap.length := (List.getElem?_eq_some_iff.1 hw).1
  refine ⟨{ s with heap := s.heap.set i (w.setChunkPart (env.attr part) v) }, ?_, ⟨w.setChunkPart (env.attr part) v, by simp [hlt], ?_⟩, ?_, rfl, rfl, rfl, rfl, rfl⟩
  · simp only [processLet, wordRaw_at hi hw, Outcome.bind, expr_val hs e h, Outcome.map]
  · obtain ⟨h1, h2, h3, h4⟩ := Chunk.C18_set w (env.attr part) v
    exact ⟨h1, h2, h3, h4⟩
  · intro j hj; simp [Ne.symm hj]

/-- **C78, `<modify-case>`.** The part gets the case of the value; nothing at all changes when case is left to the dictionary. -/
theorem C78_modify_case {s : ISt} {ws : List IWord} (hs : Sees s ws) {k i : Nat} {w : IWord} (hi : s.word[k]? = some (some i)) (hw : s.heap[i]? = some w) (sd : Side)
    (part lt : Text) (q : Bool) {e : Expr} {v : Text} (h : Val env ws s.vars e v) :
    processModifyCase env (.simple (.clip ((k + 1 : Nat) : Int) sd part q lt)) e s =
      .ok (if env.dictCase then s
        else { s with heap := s.heap.set i { w with chunk := ((env.attr part).replace w.chunk (env.copycase v (w.chunkPart (env.attr part)))).1 } }) := by
  unfold processModifyCase
  by_cases hd : env.dictCase
  · rw [if_pos hd, if_pos hd]
  · rw [if_neg hd, if_neg hd]
    simp only [wordRaw_at hi hw, Outcome.bind, expr_val hs e h, Outcome.map, IWord.setChunkPart]

/-- **C78, `<append>`.** The values are added at the end of the variable, one after the other; each may use what was added before it. -/
theorem C78_append {s : ISt} {ws : List IWord} (hs : Sees s ws) (n : Text) {e : Expr} {es : List Expr} {t : Text} (h : Val env ws s.vars e t) :
    processAppend env n (e :: es) s = processAppend env n es { s with vars := upd s.vars n (s.vars n ++ t) } := by
  simp only [processAppend, expr_val hs e h, Outcome.bind]

/-- **C78, the start of a rule.** The rule is run with the chunks read and taken apart at positions 1, 2, ..., and the blanks between them in the queue. -/
theorem C78_start (env : TEnv) (d : Nat) (rules : List (List Instr)) (r : Nat) (tw bs : List Text) (k : Nat) (v : ISt) {n : Int} {o : Text} {v' : ISt}
    (h : applyRule env d rules r tw bs k v = .ok (n, o, v')) :
    ∃ s action s', rules[r - 1]? = some action ∧ processRule env d action s = .ok (n, s') ∧ o = s'.out ∧ s.out = [] ∧ s.vars = v.vars ∧
      ruleWords tw = .ok s.heap ∧ Sees s s.heap ∧ v'.vars = s'.vars := by
  unfold applyRule at h
  obtain ⟨hp, h1, h⟩ := ok_bind_eq h
  obtain ⟨q, _, h⟩ := ok_bind_eq h
  split at h
  · cases h
  · rename_i action ha
    obtain ⟨⟨m, s'⟩, h2, h⟩ := ok_map_eq h
    cases h
    exact ⟨_, action, s', ha, h2, rfl, rfl, rfl, h1, sees_range rfl, rfl⟩

/-! ## Macros -/

theorem macroArgs_get {word : List (Option Nat)} : (ps : List Int) → ∀ {ws : List (Option Nat)}, macroArgs word ps = some ws → ws.length = ps.length ∧
    ∀ (k : Nat) (p : Int), ps[k]? = some p → 1 ≤ p ∧ ∃ x, word[(p - 1).toNat]? = some x ∧ ws[k]? = some x
  | [], ws, h => by simp only [macroArgs] at h; cases h; simp
  | p :: ps, ws, h => by
    simp only [macroArgs] at h
    split at h
    · simp at h
    · rename_i hp
      split at h
      · rename_i i xs hx hxs
        cases h
        obtain ⟨hl, hg⟩ := macroArgs_get ps hxs
        refine ⟨by simp [hl], ?_⟩
        intro k q hk
        cases k with
        | zero =>
          simp only [List.getElem?_cons_zero, Option.some.injEq] at hk
          subst hk
          exact ⟨by omega, some i, hx, rfl⟩
        | succ k => simpa using hg k q (by simpa using hk)
      · simp at h

/-- **C78, macros.** In the body of a macro called with as many arguments as it declares, chunk `k` is the caller's chunk given as `k`-th argument; afterwards the positions mean
in the caller what they did before, and what the body did to chunks, variables, output and blanks stays. -/
theorem C78_macro (env : TEnv) (d : Nat) (n : Text) (args : List Int) (s s' : ISt) (ws : List IWord) (hs : Sees s ws) (hn : args.length = (env.macros n).1) (h0 : args ≠ [])
    (h : callMacro env (d + 1) n args s = .ok s') :
    ∃ s0 s1 as, execMacroBody (virt env) (callMacro env d) (env.macros n).2 s0 = .ok s1 ∧
      Sees s0 as ∧ as.length = args.length ∧ (∀ (k : Nat) (p : Int), args[k]? = some p → 1 ≤ p ∧ p ≤ ws.length ∧ as[k]? = ws[(p - 1).toNat]?) ∧
      s0.heap = s.heap ∧ s0.vars = s.vars ∧ s0.out = s.out ∧ s0.blanks = s.blanks ∧
      s'.word = s.word ∧ s'.heap = s1.heap ∧ s'.vars = s1.vars ∧ s'.out = s1.out ∧ s'.blanks = s1.blanks := by
  have hpos : (env.macros n).1 ≠ 0 := by rw [← hn]; simpa using h0
  simp only [callMacro, if_neg hpos] at h
  rw [if_neg (by omega)] at h
  split at h
  · simp at h
  · rename_i xs hxs
    obtain ⟨s1, h1, rfl⟩ := ok_map_eq h
    obtain ⟨hl, hg⟩ := macroArgs_get args hxs
    rw [show (env.macros n).1 - args.length = 0 by omega] at h1
    simp only [List.replicate_zero, List.append_nil] at h1
    have key : ∀ (k : Nat) (p : Int), args[k]? = some p → 1 ≤ p ∧ p ≤ ws.length ∧ ∃ i w, xs[k]? = some (some i) ∧ s.heap[i]? = some w ∧ ws[(p - 1).toNat]? = some w := by
      intro k p hk
      obtain ⟨hp, x, hx, hwx⟩ := hg k p hk
      have hlt : (p - 1).toNat < ws.length := by rw [← hs.1]; exact (List.getElem?_eq_some_iff.1 hx).1
      obtain ⟨i, hi, hw⟩ := hs.2 _ _ (List.getElem?_eq_getElem hlt)
      rw [hi] at hx
      cases hx
      exact ⟨hp, by omega, i, _, hwx, hw, List.getElem?_eq_getElem hlt⟩
    let as : List IWord := args.map fun p => (ws[(p - 1).toNat]?).getD ⟨[], [], []⟩
    have has : ∀ (k : Nat) (p : Int), args[k]? = some p → as[k]? = ws[(p - 1).toNat]? := by
      intro k p hk
      obtain ⟨_, _, i, w, _, _, e⟩ := key k p hk
      simp only [as, List.getElem?_map, hk, Option.map_some, e, Option.getD_some]
    refine ⟨_, s1, as, h1, ⟨by simp [as, hl], ?_⟩, by simp [as], fun k p hk => ⟨(key k p hk).1, (key k p hk).2.1, has k p hk⟩, rfl, rfl, rfl, rfl, rfl, rfl, rfl, rfl, rfl⟩
    intro k w hk
    have hkl : k < args.length := by
      have := (List.getElem?_eq_some_iff.1 hk).1
      simpa [as] using this
    obtain ⟨_, _, i, w', e1, e2, e3⟩ := key k _ (List.getElem?_eq_getElem hkl)
    rw [has k _ (List.getElem?_eq_getElem hkl), e3] at hk
    cases hk
    exact ⟨i, e1, e2⟩

end Verif.Inter
