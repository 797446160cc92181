import Verif.Inter.Laws
import Verif.Inter.Violations
import Verif.Inter.Local
/-!
# C78: blanks, and examples for the laws of apertium-interchunk
-/
namespace Verif.Inter
open Verif.Transfer

variable {env : TEnv}

/-! ## Blanks -/

/-- What an expression does with the blanks: those it takes are in its value, in order; outside `<out>` it takes none. -/
def Blanks (s : ISt) (t : Text) (s' : ISt) : Prop := ∃ used, s.blanks = used ++ s'.blanks ∧ InOrder used t ∧ (s.inOut = false → used = [])

theorem InOrder.wrap {bs : List Text} {t : Text} (a b : Text) (h : InOrder bs t) : InOrder bs (a ++ t ++ b) := by
  cases bs with
  | nil => trivial
  | cons x bs =>
    obtain ⟨pre, post, e, h⟩ := h
    refine ⟨a ++ pre, post ++ b, by rw [e]; simp, ?_⟩
    have := InOrder.wrap [] b h
    simpa using this
  termination_by bs.length

theorem evalSimple_blanks {e : Simple} {s s' : ISt} {t : Text} (h : evalSimple env e s = .ok (t, s')) : s' = s := by
  cases e with
  | clip pos sd part q lt =>
    simp only [evalSimple] at h
    obtain ⟨o, _, h⟩ := ok_bind_eq h
    rcases o with _ | ⟨i, w⟩
    · cases h; rfl
    · obtain ⟨_, _, h⟩ := ok_map_eq h; cases h; rfl
  | lit v => simp only [evalSimple] at h; cases h; rfl
  | var n => simp only [evalSimple] at h; cases h; rfl

theorem Blanks.same (s : ISt) (t : Text) : Blanks s t s := ⟨[], rfl, trivial, fun _ => rfl⟩

mutual
theorem evalExpr_blanks : (e : Expr) → ∀ {s s' : ISt} {t : Text}, evalExpr env e s = .ok (t, s') → Blanks s t s'
  | .simple e, _, _, _, h => by simp only [evalExpr] at h; rw [evalSimple_blanks h]; exact Blanks.same _ _
  | .litTag v, _, _, _, h => by simp only [evalExpr] at h; cases h; exact Blanks.same _ _
  | .blank, s, s', t, h => by
    simp only [evalExpr] at h
    split at h
    · cases h; exact Blanks.same _ _
    · rename_i b bs hb
      cases h
      by_cases ho : s.inOut
      · rw [if_pos ho]
        exact ⟨[t], by simp [hb], ⟨[], [], by simp, trivial⟩, fun hx => by rw [ho] at hx; cases hx⟩
      · rw [if_neg ho]; exact Blanks.same _ _
  | .getCaseFrom pos e, _, _, _, h => by
    simp only [evalExpr] at h
    obtain ⟨o, _, h⟩ := ok_bind_eq h
    rcases o with _ | ⟨i, w⟩
    · cases h; exact Blanks.same _ _
    · obtain ⟨⟨d, s1⟩, h1, h⟩ := ok_map_eq h
      cases h
      rw [evalSimple_blanks h1]; exact Blanks.same _ _
  | .luCount, _, _, _, h => by simp only [evalExpr] at h; cases h
  | .caseOf pos _ part, _, _, _, h => by
    simp only [evalExpr] at h
    obtain ⟨o, _, h⟩ := ok_bind_eq h
    rcases o with _ | ⟨i, w⟩
    · cases h; exact Blanks.same _ _
    · cases h; exact Blanks.same _ _
  | .concat es, _, _, _, h => by simp only [evalExpr] at h; exact evalList_blanks es h
  | .lu _, _, _, _, h => by simp only [evalExpr] at h; cases h
  | .mlu _, _, _, _, h => by simp only [evalExpr] at h; cases h
  | .chunk _ _ _ es, _, _, _, h => by
    simp only [evalExpr] at h
    obtain ⟨⟨t1, s1⟩, h1, h⟩ := ok_map_eq h
    cases h
    obtain ⟨u, e1, e2, e3⟩ := evalList_blanks es h1
    exact ⟨u, e1, InOrder.wrap ['^'] ['$'] e2, e3⟩
  | .tags _, _, _, _, h => by simp only [evalExpr] at h; cases h
  | .unknown, _, _, _, h => by simp only [evalExpr] at h; cases h
theorem evalList_blanks : (es : List Expr) → ∀ {s s' : ISt} {t : Text}, evalList env es s = .ok (t, s') → Blanks s t s'
  | [], _, _, _, h => by simp only [evalList] at h; cases h; exact Blanks.same _ _
  | e :: es, s, s', t, h => by
    simp only [evalList] at h
    obtain ⟨⟨t1, s1⟩, h1, h⟩ := ok_bind_eq h
    obtain ⟨⟨t2, s2⟩, h2, h⟩ := ok_map_eq h
    cases h
    obtain ⟨u1, e1, i1, f1⟩ := evalExpr_blanks e h1
    obtain ⟨u2, e2, i2, f2⟩ := evalList_blanks es h2
    have S := evalExpr_still env e h1
    exact ⟨u1 ++ u2, by rw [e1, e2]; simp, i1.append i2, fun ho => by rw [f1 ho, f2 (S.inOut.trans ho)]; rfl⟩
end

/-- The blanks taken from the queue have been written, in order. -/
def BlankRel (s s' : ISt) : Prop :=
  s.inOut = false → s'.inOut = false ∧ ∃ used o, s.blanks = used ++ s'.blanks ∧ s'.out = s.out ++ o ∧ InOrder used o

theorem BlankRel.refl (s : ISt) : BlankRel s s := fun h => ⟨h, [], [], by simp, by simp, trivial⟩

theorem BlankRel.trans {a b c : ISt} (h : BlankRel a b) (h' : BlankRel b c) : BlankRel a c := by
  intro ho
  obtain ⟨h1, u1, o1, e1, f1, i1⟩ := h ho
  obtain ⟨h2, u2, o2, e2, f2, i2⟩ := h' h1
  exact ⟨h2, u1 ++ u2, o1 ++ o2, by rw [e1, e2]; simp, by rw [f2, f1]; simp, i1.append i2⟩

theorem eval_blankRel {e : Expr} {s s' : ISt} {t : Text} (h : evalExpr env e s = .ok (t, s')) : BlankRel s s' := by
  intro ho
  have S := evalExpr_still env e h
  obtain ⟨u, e1, _, f⟩ := evalExpr_blanks e h
  exact ⟨S.inOut.trans ho, [], [], by rw [e1, f ho], by simp [S.out], trivial⟩

theorem outLoop_blanks : (es : List Expr) → ∀ {s s' : ISt}, outLoop env es s = .ok s' → ∃ used o, s.blanks = used ++ s'.blanks ∧ s'.out = s.out ++ o ∧ InOrder used o
  | [], s, s', h => by simp only [outLoop] at h; cases h; exact ⟨[], [], by simp, by simp, trivial⟩
  | e :: es, s, s', h => by
    simp only [outLoop] at h
    obtain ⟨⟨t, s1⟩, h1, h⟩ := ok_bind_eq h
    obtain ⟨u2, o2, e2, f2, i2⟩ := outLoop_blanks es h
    obtain ⟨u1, e1, i1, _⟩ := evalExpr_blanks e h1
    refine ⟨u1 ++ u2, t ++ o2, ?_, ?_, i1.append i2⟩
    · rw [e1]; simp only at e2; rw [e2]; simp
    · rw [f2]; simp [(evalExpr_still env e h1).out]

theorem blanks_closed (d : Nat) : Closed (virt env) (callMacro env d) BlankRel := by
  have hlet : ∀ {l r : Expr} {s s' : ISt}, processLet env l r s = .ok s' → BlankRel s s' := by
    intro l r s s' h
    unfold processLet at h
    split at h
    · obtain ⟨⟨t, s1⟩, h1, rfl⟩ := ok_map_eq h
      exact fun ho => (eval_blankRel h1 : BlankRel _ s1) ho
    · obtain ⟨⟨i, w⟩, _, h⟩ := ok_bind_eq h
      obtain ⟨⟨t, s1⟩, h1, rfl⟩ := ok_map_eq h
      exact fun ho => (eval_blankRel h1 : BlankRel _ s1) ho
    · cases h; exact BlankRel.refl _
  have happ : ∀ (n : Text) (es : List Expr) {s s' : ISt}, processAppend env n es s = .ok s' → BlankRel s s' := by
    intro n es
    induction es with
    | nil => intro s s' h; simp only [processAppend] at h; cases h; exact BlankRel.refl _
    | cons e es ih =>
      intro s s' h
      simp only [processAppend] at h
      obtain ⟨⟨t, s1⟩, h1, h⟩ := ok_bind_eq h
      exact BlankRel.trans (b := { s1 with vars := upd s1.vars n (s1.vars n ++ t) }) (fun ho => (eval_blankRel h1 : BlankRel _ s1) ho) (ih h)
  have hmod : ∀ {l r : Expr} {s s' : ISt}, processModifyCase env l r s = .ok s' → BlankRel s s' := by
    intro l r s s' h
    unfold processModifyCase at h
    split at h
    · cases h; exact BlankRel.refl _
    · split at h
      · obtain ⟨⟨i, w⟩, _, h⟩ := ok_bind_eq h
        obtain ⟨⟨t, s1⟩, h1, rfl⟩ := ok_map_eq h
        exact fun ho => (eval_blankRel h1 : BlankRel _ s1) ho
      · obtain ⟨⟨t, s1⟩, h1, rfl⟩ := ok_map_eq h
        exact fun ho => (eval_blankRel h1 : BlankRel _ s1) ho
      · cases h; exact BlankRel.refl _
  have hout : ∀ {es : List Expr} {s s' : ISt}, processOut env es s = .ok s' → BlankRel s s' := by
    intro es s s' h
    unfold processOut at h
    obtain ⟨s1, h1, rfl⟩ := ok_map_eq h
    intro _
    obtain ⟨u, o, e, f, i⟩ := outLoop_blanks es h1
    exact ⟨rfl, u, o, e, f, i⟩
  induction d with
  | zero => exact ⟨BlankRel.refl, BlankRel.trans, fun h => eval_blankRel h, hlet, happ _ _, hout, hmod, fun h => by simp [callMacro] at h⟩
  | succ d ih =>
    refine ⟨BlankRel.refl, BlankRel.trans, fun h => eval_blankRel h, hlet, happ _ _, hout, hmod, ?_⟩
    intro n args s s' h
    have run : ∀ w s', ((execMacroBody (virt env) (callMacro env d) (env.macros n).2 { s with word := w }).map fun s' => { s' with word := s.word }) = .ok s' → BlankRel s s' := by
      intro w s' h
      obtain ⟨s1, h1, rfl⟩ := ok_map_eq h
      have := ih.macroBody _ h1
      intro ho
      exact this ho
    simp only [callMacro] at h
    split at h
    · exact run _ _ h
    · split at h
      · cases h
      · split at h
        · cases h
        · exact run _ _ h

/-- **C78, blanks.** A rule takes some of the blanks from the front of the queue; what it writes contains them in order, and after it come all the others that are not a single
space.  None is left. -/
theorem C78_blanks (env : TEnv) (d : Nat) (action : List Instr) (s s' : ISt) (w : Int) (ho : s.inOut = false) (h : processRule env d action s = .ok (w, s')) :
    ∃ used rest o, s.blanks = used ++ rest ∧ InOrder used o ∧ s'.out = s.out ++ o ++ (rest.filter (· ≠ [' '])).flatten ∧ s'.blanks = [] := by
  unfold processRule at h
  obtain ⟨⟨w1, s1⟩, h1, h2⟩ := ok_map_eq h
  cases h2
  obtain ⟨_, used, o, e, f, i⟩ := (blanks_closed d).block action h1 ho
  exact ⟨used, s1.blanks, o, e, i, by simp [f, flushBlanks], rfl⟩

/-! ## An example: the rule swaps two chunks and gives the second a new lemma -/

def lwA : IWord := ⟨t!"nom<SN>", t!"{^x$}", []⟩
def lwB : IWord := ⟨t!"adj<SA>", t!"{^y$}", []⟩
/-- In a macro called with the arguments 2 and 1. -/
def lwState : ISt := { heap := [lwA, lwB], word := [some 1, some 0], vars := fun _ => t!"v", inOut := false, blanks := [t!"[1]"], out := t!"o" }

theorem lwSees : Sees lwState [lwB, lwA] := by
  refine ⟨rfl, fun k w hk => ?_⟩
  match k, hk with
  | 0, hk => cases hk; exact ⟨1, rfl, rfl⟩
  | 1, hk => cases hk; exact ⟨0, rfl, rfl⟩

/-- `<out><chunk><clip pos="1" part="lem"/><lit-tag v="X"/><clip pos="2" part="content"/></chunk><b/><var n="a"/><b/></out>`, with the predefined parts of C77. -/
example : processOut { icEnv with attr := Parts.attrOf fun _ => ⟨fun _ => none⟩ }
    [.chunk [] [] [] [.simple (.clip 1 .tl t!"lem" true []), .litTag t!"X", .simple (.clip 2 .tl t!"content" true [])], .blank, .simple (.var t!"a"), .blank] lwState =
    .ok { lwState with out := t!"o^adj<X>^x$$[1]v ", blanks := [] } := by
  refine (C78_out (ws := [lwB, lwA]) lwSees rfl (Writes.val (Val.chunk (.cons (.clip (k := 0) rfl (by decide)) (.cons .tag (.cons (.content (k := 1) (c := t!"^x$") rfl (by decide +kernel)) .nil))))
    (Writes.blank (Writes.val .var (Writes.space .nil))))).trans ?_
  have e : (lwB.chunkPart ((Parts.attrOf fun _ => ⟨fun _ => none⟩) t!"lem")) = t!"adj" := by decide +kernel
  simp only [e]
  rfl

example : ∃ s', processRule icEnv 1 [.callMacro t!"m" [1, 2], .out [.blank]]
    { lwState with word := [some 0, some 1], blanks := [t!"[1]", t!" ", t!"[2]"] } = .ok (-1, s') ∧ s'.out = t!"o^adj$[1][2]" := by
  have h : (processRule icEnv 1 [.callMacro t!"m" [1, 2], .out [.blank]]
    { lwState with word := [some 0, some 1], blanks := [t!"[1]", t!" ", t!"[2]"] }).map (fun p => (p.1, p.2.out)) = .ok (-1, t!"o^adj$[1][2]") := by decide +kernel
  obtain ⟨⟨w, s'⟩, h1, h2⟩ := ok_map_eq h
  obtain ⟨hw, ho⟩ := Prod.mk.inj h2
  exact ⟨s', by rw [h1]; exact congrArg (fun x => Outcome.ok (x, s')) hw, ho⟩

end Verif.Inter
