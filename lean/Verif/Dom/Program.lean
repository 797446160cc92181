import Verif.Dom.Loop
import Verif.Dom.TransferProps
import Verif.Dom.InterProps
import Verif.Dom.PostProps
/-!
# C89: the three programs with the XML of their rules

The main loop with the interpreter of XML, from an empty cache, writes what the main loop with the abstract rules writes.
-/
namespace Verif.Dom
open Verif.Transfer

/-- A file of rules: categories, and the rules with pattern and `<action>`. -/
structure XProgram where
  cats : List (Text × List Pattern.CatItem)
  rules : List (List Text × XNode)

/-- The program it denotes. -/
def XProgram.Means (p : XProgram) (q : Whole.Program) : Prop :=
  q.cats = p.cats ∧ p.rules.map (·.1) = q.rules.map (·.1) ∧ (p.rules.map fun r => absInstrs r.2.kids) = q.rules.map fun r => some r.2

/-- Every action is an element of the document. -/
def ActionsOf (D : List (XNode × Role)) (acts : List XNode) : Prop := ∀ n ∈ acts, Placed D .value n ∧ IK.of n.name = .other

/-- The rule of a number. -/
theorem rule_at {acts : List XNode} {rules : List (List Instr)} (h : (acts.map fun n => absInstrs n.kids) = rules.map some) (j : Nat) :
    (acts[j]? = none ∧ rules[j]? = none) ∨ ∃ n is, acts[j]? = some n ∧ n ∈ acts ∧ rules[j]? = some is ∧ absInstrs n.kids = some is := by
  have hj : (acts.map fun n => absInstrs n.kids)[j]? = (rules.map some)[j]? := by rw [h]
  rw [List.getElem?_map, List.getElem?_map] at hj
  cases ha : acts[j]? with
  | none =>
    cases hr : rules[j]? with
    | none => exact Or.inl ⟨rfl, rfl⟩
    | some is => rw [ha, hr] at hj; cases hj
  | some n =>
    cases hr : rules[j]? with
    | none => rw [ha, hr] at hj; cases hj
    | some is =>
      rw [ha, hr] at hj
      simp only [Option.map_some, Option.some.injEq] at hj
      exact Or.inr ⟨n, is, rfl, List.mem_of_getElem? ha, rfl, hj⟩

theorem Means.rules {p : XProgram} {q : Whole.Program} (h : p.Means q) :
    ((p.rules.map (·.2)).map fun n => absInstrs n.kids) = (q.rules.map (·.2)).map some := by
  rw [List.map_map, List.map_map]
  exact h.2.2

end Verif.Dom

namespace Verif.Dom.T
open Verif.Transfer Verif.Whole

variable {D : List (XNode × Role)} {env : TEnv} {mac : Text → Option XNode}

/-- `Transfer::applyRule` (transfer.cc:1239-1369), as in Verif/Whole/Model.lean. -/
def xApplyRule (env : TEnv) (mac : Text → Option XNode) (d : Nat) (acts : List XNode) (r : Nat) (ws bs : List Text) (k : Nat) (v : XSt) : Outcome (Int × Text × XSt) :=
  (ruleWords ws).bind fun tw =>
    (pushBlanks k (ws.length - 1) bs v.1.blanks).bind fun q =>
      match acts[r - 1]? with
      | none => .ub
      | some action =>
        (xRule { env with lastLword := k } mac d action
            ({ v.1 with heap := tw, word := (List.range tw.length).map some, blanks := q, out := [] }, v.2)).map fun (n, x) =>
          (n, x.1.out, ({ x.1 with heap := [], word := [], out := [] }, x.2))

/-- What `Transfer` does at a word (transfer.cc:1055-1172, 1239-1369). -/
def xActions (env : TEnv) (mac : Text → Option XNode) (d : Nat) (lu : Bool) (acts : List XNode) : Actions XSt where
  dflt := Bil.defaultOut lu
  apply := xApplyRule env mac d acts

theorem actions_sim (U : Unique D) (M : Macros D env mac) (d : Nat) (lu : Bool) {acts : List XNode} {rules : List (List Instr)} (hp : ActionsOf D acts)
    (h : (acts.map fun n => absInstrs n.kids) = rules.map some) : ActionsSim (SimR D) (xActions env mac d lu acts) (actions env d lu rules) where
  dflt := rfl
  apply := by
    rintro r ws bs k ⟨s0, c⟩ s ⟨h0, hg⟩
    simp only at h0 hg
    subst h0
    simp only [xActions, actions, xApplyRule, applyRule]
    cases ruleWords ws with
    | ok tw =>
      simp only [Outcome.bind]
      cases pushBlanks k (ws.length - 1) bs s0.blanks with
      | ok q =>
        simp only
        rcases rule_at h (r - 1) with ⟨h1, h2⟩ | ⟨n, is, h1, hn, h2, h3⟩
        · rw [h1, h2]; trivial
        · rw [h1, h2]
          simp only
          have := C89_rule (env := { env with lastLword := k }) U (show Macros D _ mac from M) d (hp n hn).1 (hp n hn).2 h3 hg
            { s0 with heap := tw, word := (List.range tw.length).map some, blanks := q, out := [] }
          refine this.map ?_
          rintro ⟨w, s1', c1⟩ ⟨w2, s1⟩ ⟨hw, h1, hg1⟩
          simp only at hw h1 hg1
          subst hw h1
          exact ⟨rfl, rfl, rfl, hg1⟩
      | _ => trivial
    | _ => trivial

/-- `Transfer::transfer` (transfer.cc:931-1237) with the XML of the rules; the cache is empty at the start. -/
def XRuns (minimize : Pattern.Trans → Pattern.Trans) (lower : Char → Char) (env : TEnv) (mac : Text → Option XNode) (lu : Bool) (vars : Text → Text) (p : XProgram)
    (input out : Text) : Prop :=
  ∃ m rd d n, Pattern.compile minimize p.cats (p.rules.map (·.1)) = some m ∧ Token.trRead false input = .ok rd ∧
    loopRun (Pattern.matcher m (Pattern.alphabet p.cats) (Pattern.transferWord lower)) (xActions env mac d lu (p.rules.map (·.2))) rd.toks n
      (loopInit (Pattern.matcher m (Pattern.alphabet p.cats) (Pattern.transferWord lower)) (startState vars, fun _ => none)) = some (.ok out)

/-- C89: apertium-transfer with a file of rules writes what it writes with the rules that the elements of the file denote. -/
theorem C89_program (U : Unique D) (M : Macros D env mac) {p : XProgram} {q : Program} (hp : ActionsOf D (p.rules.map (·.2))) (h : p.Means q)
    (minimize : Pattern.Trans → Pattern.Trans) (lower : Char → Char) (lu : Bool) (vars : Text → Text) (input out : Text) :
    XRuns minimize lower env mac lu vars p input out ↔ Runs minimize lower env lu vars q input out := by
  have key := fun (mt : Pattern.Trans) (tk : List Tok) (d n : Nat) =>
    loopRun_sim (m := Pattern.matcher mt (Pattern.alphabet p.cats) (Pattern.transferWord lower)) (actions_sim U M d lu hp (Means.rules h)) tk n
      (loopInit_sim (Pattern.matcher mt (Pattern.alphabet p.cats) (Pattern.transferWord lower)) (show SimR D (startState vars, fun _ => none) (startState vars) from ⟨rfl, Good.empty D⟩))
  obtain ⟨h1, h2, _⟩ := h
  constructor
  · rintro ⟨m, rd, d, n, ha, hb, hc⟩
    refine ⟨m, rd, d, n, ?_, hb, ?_⟩
    · rw [h1, ← h2]; exact ha
    · rw [h1, ← key]; exact hc
  · rintro ⟨m, rd, d, n, ha, hb, hc⟩
    refine ⟨m, rd, d, n, ?_, hb, ?_⟩
    · rw [h2, ← h1]; exact ha
    · rw [key, ← h1]; exact hc

end Verif.Dom.T

namespace Verif.Dom.I
open Verif.Inter Verif.Dom.C
open Verif.Transfer hiding evalExpr evalSimple evalList outLoop processOut processLet processAppend processModifyCase virt macroArgs callMacro processRule

variable {D : List (XNode × Role)} {env : TEnv} {mac : Text → Option XNode}

/-- `Interchunk::applyRule` (interchunk.cc:590-631), as in Verif/Inter/Model.lean. -/
def xApplyRule (env : TEnv) (mac : Text → Option XNode) (d : Nat) (acts : List XNode) (r : Nat) (ws bs : List Text) (k : Nat) (v : XSt) : Outcome (Int × Text × XSt) :=
  (ruleWords ws).bind fun tw =>
    (Whole.pushBlanks k (ws.length - 1) bs v.1.blanks).bind fun q =>
      match acts[r - 1]? with
      | none => .ub
      | some action =>
        (xRule env mac d action
            ({ v.1 with heap := tw, word := (List.range tw.length).map some, blanks := q, out := [] }, v.2)).map fun (n, x) =>
          (n, x.1.out, ({ x.1 with heap := [], word := [], out := [] }, x.2))

/-- What `Interchunk` does at a word (interchunk.cc:527-529, 590-631). -/
def xActions (env : TEnv) (mac : Text → Option XNode) (d : Nat) (acts : List XNode) : Actions XSt where
  dflt := fun w => .ok ('^' :: w ++ ['$'])
  apply := xApplyRule env mac d acts

theorem actions_sim (U : Unique D) (M : Macros D env mac) (d : Nat) {acts : List XNode} {rules : List (List Instr)} (hp : ActionsOf D acts)
    (h : (acts.map fun n => absInstrs n.kids) = rules.map some) : ActionsSim (SimR D) (xActions env mac d acts) (actions env d rules) where
  dflt := rfl
  apply := by
    rintro r ws bs k ⟨s0, c⟩ s ⟨h0, hg⟩
    simp only at h0 hg
    subst h0
    simp only [xActions, actions, xApplyRule, applyRule]
    cases ruleWords ws with
    | ok tw =>
      simp only [Outcome.bind]
      cases Whole.pushBlanks k (ws.length - 1) bs s0.blanks with
      | ok q =>
        simp only
        rcases rule_at h (r - 1) with ⟨h1, h2⟩ | ⟨n, is, h1, hn, h2, h3⟩
        · rw [h1, h2]; trivial
        · rw [h1, h2]
          simp only
          have := C89_inter_rule (env := env) U M d (hp n hn).1 (hp n hn).2 h3 hg
            { s0 with heap := tw, word := (List.range tw.length).map some, blanks := q, out := [] }
          refine this.map ?_
          rintro ⟨w, s1', c1⟩ ⟨w2, s1⟩ ⟨hw, h1, hg1⟩
          simp only at hw h1 hg1
          subst hw h1
          exact ⟨rfl, rfl, rfl, hg1⟩
      | _ => trivial
    | _ => trivial

/-- `Interchunk::interchunk` (interchunk.cc:454-588) with the XML of the rules; the cache is empty at the start. -/
def XRuns (minimize : Pattern.Trans → Pattern.Trans) (lower : Char → Char) (env : TEnv) (mac : Text → Option XNode) (vars : Text → Text) (p : XProgram)
    (input out : Text) : Prop :=
  ∃ m rd w d n, Pattern.compile minimize p.cats (p.rules.map (·.1)) = some m ∧ Token.icRead false false input = .ok (rd, w) ∧
    loopRun (Pattern.matcher m (Pattern.alphabet p.cats) (readWord lower)) (xActions env mac d (p.rules.map (·.2))) rd.toks n
      (loopInit (Pattern.matcher m (Pattern.alphabet p.cats) (readWord lower)) (startState vars, fun _ => none)) = some (.ok out)

/-- C89, interchunk: apertium-interchunk with a file of rules writes what it writes with the rules that the elements of the file denote. -/
theorem C89_inter_program (U : Unique D) (M : Macros D env mac) {p : XProgram} {q : Whole.Program} (hp : ActionsOf D (p.rules.map (·.2))) (h : p.Means q)
    (minimize : Pattern.Trans → Pattern.Trans) (lower : Char → Char) (vars : Text → Text) (input out : Text) :
    XRuns minimize lower env mac vars p input out ↔ Runs minimize lower env vars q input out := by
  have key := fun (mt : Pattern.Trans) (tk : List Tok) (d n : Nat) =>
    loopRun_sim (m := Pattern.matcher mt (Pattern.alphabet p.cats) (readWord lower)) (actions_sim U M d hp (Means.rules h)) tk n
      (loopInit_sim (Pattern.matcher mt (Pattern.alphabet p.cats) (readWord lower)) (show SimR D (startState vars, fun _ => none) (startState vars) from ⟨rfl, C.Good.empty 1 false D⟩))
  obtain ⟨h1, h2, _⟩ := h
  constructor
  · rintro ⟨m, rd, wr, d, n, ha, hb, hc⟩
    refine ⟨m, rd, wr, d, n, ?_, hb, ?_⟩
    · rw [h1, ← h2]; exact ha
    · rw [h1, ← key]; exact hc
  · rintro ⟨m, rd, wr, d, n, ha, hb, hc⟩
    refine ⟨m, rd, wr, d, n, ?_, hb, ?_⟩
    · rw [h2, ← h1]; exact ha
    · rw [key, ← h1]; exact hc

end Verif.Dom.I

namespace Verif.Dom.P
open Verif.Postchunk Verif.Dom.C
open Verif.Transfer hiding evalExpr evalSimple evalList evalMlu finishLu luText addWblank outLoop processOut processLet processAppend processModifyCase virt macroArgs callMacro processRule

variable {D : List (XNode × Role)} {env : TEnv} {mac : Text → Option XNode}

/-- `Postchunk::applyRule` (postchunk.cc:681-726), as in Verif/Postchunk/Model.lean. -/
def xApplyRule (u : Chunk.Uni) (env : TEnv) (mac : Text → Option XNode) (d : Nat) (acts : List XNode) (r : Nat) (ws bs : List Text) (_k : Nat) (v : XSt) :
    Outcome (Int × Text × XSt) :=
  match ws with
  | [] => .ub
  | chunk :: _ =>
    (Chunk.splitWordsAndBlanks u chunk bs).bind fun (tw, bl) =>
      (Chunk.wordzero chunk).bind fun z =>
        (IWord.init z).bind fun w0 =>
          (ruleWords tw).bind fun hw =>
            if tw.length ≤ bl.length ∨ tw.length ≤ 1 then
              match acts[r - 1]? with
              | none => .ub
              | some action =>
                (xRule env mac d action ({ v.1 with
                    heap := w0 :: hw, word := (List.range (hw.length + 1)).map some, blanks := v.1.blanks ++ (bl.drop 1).take (tw.length - 1),
                    count := tw.length, out := [] }, v.2)).map fun (n, x) =>
                  (n, x.1.out, ({ x.1 with heap := [], word := [], count := 0, out := [] }, x.2))
            else .ub

/-- What `Postchunk` does at a word (postchunk.cc:619-621, 681-726). -/
def xActions (u : Chunk.Uni) (env : TEnv) (mac : Text → Option XNode) (d : Nat) (acts : List XNode) : Actions XSt where
  dflt := Chunk.unchunk u env.dictCase
  apply := xApplyRule u env mac d acts

theorem actions_sim (u : Chunk.Uni) (U : Unique D) (M : Macros D env mac) (d : Nat) {acts : List XNode} {rules : List (List Instr)} (hp : ActionsOf D acts)
    (h : (acts.map fun n => absInstrs n.kids) = rules.map some) : ActionsSim (SimR D) (xActions u env mac d acts) (actions u env d rules) where
  dflt := rfl
  apply := by
    rintro r ws bs k ⟨s0, c⟩ s ⟨h0, hg⟩
    simp only at h0 hg
    subst h0
    simp only [xActions, actions, xApplyRule, applyRule]
    cases ws with
    | nil => trivial
    | cons chunk rest =>
      simp only
      refine Rel.bind (r := Eq) (Rel.refl (fun _ => rfl) _) ?_
      rintro ⟨tw, bl⟩ _ rfl
      refine Rel.bind (r := Eq) (Rel.refl (fun _ => rfl) _) ?_
      rintro z _ rfl
      refine Rel.bind (r := Eq) (Rel.refl (fun _ => rfl) _) ?_
      rintro w0 _ rfl
      refine Rel.bind (r := Eq) (Rel.refl (fun _ => rfl) _) ?_
      rintro hw _ rfl
      by_cases hb : tw.length ≤ bl.length ∨ tw.length ≤ 1
      · simp only [if_pos hb]
        rcases rule_at h (r - 1) with ⟨h1, h2⟩ | ⟨n, is, h1, hn, h2, h3⟩
        · rw [h1, h2]; trivial
        · rw [h1, h2]
          simp only
          refine (C89_post_rule (env := env) U M d (hp n hn).1 (hp n hn).2 h3 hg _).map ?_
          rintro ⟨w, s1', c1⟩ ⟨w2, s1⟩ ⟨hw, h1, hg1⟩
          simp only at hw h1 hg1
          subst hw h1
          exact ⟨rfl, rfl, rfl, hg1⟩
      · simp only [if_neg hb]; trivial

/-- `Postchunk::postchunk` (postchunk.cc:549-679) with the XML of the rules; the cache is empty at the start. -/
def XRuns (minimize : Pattern.Trans → Pattern.Trans) (lower : Char → Char) (u : Chunk.Uni) (env : TEnv) (mac : Text → Option XNode) (vars : Text → Text) (p : XProgram)
    (input out : Text) : Prop :=
  ∃ m rd w d n, Pattern.compile minimize p.cats (p.rules.map (·.1)) = some m ∧ Token.icRead false false input = .ok (rd, w) ∧
    loopRun (Pattern.matcher m (Pattern.alphabet p.cats) (readWord lower)) (xActions u env mac d (p.rules.map (·.2))) rd.toks n
      (loopInit (Pattern.matcher m (Pattern.alphabet p.cats) (readWord lower)) (startState vars, fun _ => none)) = some (.ok out)

/-- C89, postchunk: apertium-postchunk with a file of rules writes what it writes with the rules that the elements of the file denote. -/
theorem C89_post_program (U : Unique D) (M : Macros D env mac) {p : XProgram} {q : Whole.Program} (hp : ActionsOf D (p.rules.map (·.2))) (h : p.Means q)
    (minimize : Pattern.Trans → Pattern.Trans) (lower : Char → Char) (u : Chunk.Uni) (vars : Text → Text) (input out : Text) :
    XRuns minimize lower u env mac vars p input out ↔ Runs minimize lower u env vars q input out := by
  have key := fun (mt : Pattern.Trans) (tk : List Tok) (d n : Nat) =>
    loopRun_sim (m := Pattern.matcher mt (Pattern.alphabet p.cats) (readWord lower)) (actions_sim u U M d hp (Means.rules h)) tk n
      (loopInit_sim (Pattern.matcher mt (Pattern.alphabet p.cats) (readWord lower)) (show SimR D (startState vars, fun _ => none) (startState vars) from ⟨rfl, C.Good.empty 0 true D⟩))
  obtain ⟨h1, h2, _⟩ := h
  constructor
  · rintro ⟨m, rd, wr, d, n, ha, hb, hc⟩
    refine ⟨m, rd, wr, d, n, ?_, hb, ?_⟩
    · rw [h1, ← h2]; exact ha
    · rw [h1, ← key]; exact hc
  · rintro ⟨m, rd, wr, d, n, ha, hb, hc⟩
    refine ⟨m, rd, wr, d, n, ?_, hb, ?_⟩
    · rw [h2, ← h1]; exact ha
    · rw [key, ← h1]; exact hc

end Verif.Dom.P

/-! ## Documents -/

namespace Verif.Dom.Example
open Verif.Transfer

/-- A file of rules for apertium-transfer with one rule. -/
def program : XProgram := ⟨[], [([t!"noun"], T.Example.action)]⟩

example : program.Means ⟨[], [([t!"noun"],
    [.assign (.simple (.var t!"x")) (.simple (.lit t!"y")),
     .callMacro t!"m" [1],
     .out [.lu [.simple (.clip 1 .tl t!"lem" false [])], .blank]])]⟩ := ⟨rfl, rfl, rfl⟩

example : ActionsOf T.Example.DD (program.rules.map (·.2)) := by
  intro n hn
  have : n = T.Example.action := by simpa [program] using hn
  subst this
  exact ⟨T.Example.placed_action, by decide⟩

/-- A rule of apertium-interchunk: the attributes in any order, and an assignment whose left side is read by the rule after it. -/
def interAction : XNode :=
  .elem 1 t!"action" []
    [.elem 2 t!"let" [] [.elem 3 t!"clip" [(t!"part", t!"tags"), (t!"pos", t!"2")] [], .text t!" ", .elem 4 t!"clip" [(t!"pos", t!"1"), (t!"part", t!"tags")] []],
     .elem 5 t!"out" [] [.elem 6 t!"b" [] [], .elem 7 t!"chunk" [] [.elem 8 t!"clip" [(t!"pos", t!"2"), (t!"part", t!"content")] []]]]

example : absInstrs interAction.kids = some
    [.assign (.simple (.clip 2 .other t!"tags" true [])) (.simple (.clip 1 .other t!"tags" true [])),
     .out [.blank, .chunk [] [] t!"aa" [.simple (.clip 2 .other t!"content" true [])]]] := by rfl

example : Unique (nodes .value interAction) := by unfold Unique; decide +kernel

example : Placed (nodes .value interAction) .value interAction ∧ IK.of interAction.name = .other := ⟨fun _ h => h, by decide⟩

/-- A rule of apertium-postchunk. -/
def postAction : XNode :=
  .elem 1 t!"action" []
    [.elem 2 t!"choose" [] [.elem 3 t!"when" [] [.elem 4 t!"test" [] [.elem 5 t!"equal" [] [.elem 6 t!"lu-count" [] [], .elem 7 t!"lit" [(t!"v", t!"1")] []]],
       .elem 8 t!"out" [] [.elem 9 t!"mlu" [] [.elem 10 t!"lu" [] [.elem 11 t!"clip" [(t!"part", t!"whole"), (t!"pos", t!"1")] []]]]]]]

example : (absInstrs postAction.kids).isSome = true ∧ Unique (nodes .value postAction) := ⟨rfl, by unfold Unique; decide +kernel⟩

/-- With no macros to call, any table will do. -/
example (env : TEnv) (mac : Text → Option XNode) : P.Macros (nodes .value postAction) env mac := by
  intro c name hc hk
  simp only [postAction, nodes, nodesAll, List.append_nil, List.nil_append, List.cons_append, List.mem_cons, List.not_mem_nil, or_false, Prod.mk.injEq] at hc
  rcases hc with ⟨rfl, _⟩ | ⟨rfl, _⟩ | ⟨rfl, _⟩ | ⟨rfl, _⟩ | ⟨rfl, _⟩ | ⟨rfl, _⟩ | ⟨rfl, _⟩ | ⟨rfl, _⟩ | ⟨rfl, _⟩ | ⟨rfl, _⟩ | ⟨rfl, _⟩ <;>
    exact absurd hk (by decide)

end Verif.Dom.Example
