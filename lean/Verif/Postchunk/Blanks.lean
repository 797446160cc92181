import Verif.Postchunk.Laws
import Verif.Postchunk.Rules
import Verif.Postchunk.Violations
/-!
# C79: blanks, and examples for the laws of apertium-postchunk
-/
namespace Verif.Postchunk
open Verif.Transfer
open Verif.Stream (Atom)

variable {env : TEnv}

/-! ## Blanks -/

/-- What an expression does with the blanks: those it takes are in its value, in order; outside `<out>` it takes none. -/
def Blanks (s : PSt) (t : Text) (s' : PSt) : Prop := ∃ used, s.blanks = used ++ s'.blanks ∧ InOrder used t ∧ (s.inOut = false → used = [])

theorem InOrder.wrap {bs : List Text} {t : Text} (a b : Text) (h : InOrder bs t) : InOrder bs (a ++ t ++ b) := by
  cases bs with
  | nil => trivial
  | cons x bs =>
    obtain ⟨pre, post, e, h⟩ := h
    refine ⟨a ++ pre, post ++ b, by rw [e]; simp, ?_⟩
    have := InOrder.wrap [] b h
    simpa using this
  termination_by bs.length

theorem Blanks.same (s : PSt) (t : Text) : Blanks s t s := ⟨[], rfl, trivial, fun _ => rfl⟩
theorem Blanks.of {s s' : PSt} (t : Text) (h : s'.blanks = s.blanks) : Blanks s t s' := ⟨[], by simp [h], trivial, fun _ => rfl⟩

theorem evalSimple_blanks {e : Simple} {s s' : PSt} {t : Text} (h : evalSimple env e s = .ok (t, s')) : s'.blanks = s.blanks := by
  cases e with
  | clip pos sd part q lt =>
    simp only [evalSimple] at h
    obtain ⟨o, _, h⟩ := ok_bind_eq h
    rcases o with _ | ⟨i, w⟩
    · cases h; rfl
    · obtain ⟨s1, h1, h⟩ := ok_map_eq h
      cases h
      unfold addWblank at h1
      split at h1
      · split at h1
        · obtain ⟨_, _, rfl⟩ := ok_map_eq h1; rfl
        · split at h1
          · obtain ⟨_, _, rfl⟩ := ok_map_eq h1; rfl
          · cases h1; rfl
      · cases h1; rfl
  | lit v => simp only [evalSimple] at h; cases h; rfl
  | var n =>
    simp only [evalSimple] at h
    split at h
    · obtain ⟨_, _, h⟩ := ok_map_eq h; cases h; rfl
    · cases h; rfl

theorem finishLu_blanks {m t : Text} {s s' : PSt} (h : finishLu m s = .ok (t, s')) : s'.blanks = s.blanks ∧ (m = [] ∨ ∃ a b, t = a ++ m ++ b) := by
  have key : ∀ wb, m = [] ∨ ∃ a b, luText wb m = a ++ m ++ b := by
    intro wb
    by_cases hm : m = []
    · exact .inl hm
    · exact .inr ⟨wb ++ ['^'], ['$'], by simp [luText, hm]⟩
  unfold finishLu at h
  split at h
  · split at h
    · split at h
      · cases h
      · cases h; exact ⟨rfl, key _⟩
    · cases h
  · cases h; exact ⟨rfl, key _⟩

/-- A text that contains blanks, one of them empty, may be empty; it is written all the same. -/
theorem lu_blanks {s s1 s' : PSt} {m t : Text} (h : Blanks { s with inLu := true, outWb := [] } m s1) (h' : finishLu m { s1 with inLu := false } = .ok (t, s')) : Blanks s t s' := by
  obtain ⟨u, e1, i1, f1⟩ := h
  obtain ⟨h1, h2⟩ := finishLu_blanks h'
  refine ⟨u, by rw [h1]; exact e1, ?_, f1⟩
  rcases h2 with rfl | ⟨a, b, rfl⟩
  · have : ∀ (u : List Text), InOrder u [] → ∀ t, InOrder u t := by
      intro u
      induction u with
      | nil => intros; trivial
      | cons x u ih =>
        rintro ⟨pre, post, e, h⟩ t
        have e' := e.symm
        simp only [List.append_eq_nil_iff] at e'
        obtain ⟨⟨rfl, rfl⟩, rfl⟩ := e'
        exact ⟨[], t, by simp, ih h t⟩
    exact this u i1 t
  · exact InOrder.wrap a b i1

mutual
theorem evalExpr_blanks : (e : Expr) → ∀ {s s' : PSt} {t : Text}, evalExpr env e s = .ok (t, s') → Blanks s t s'
  | .simple e, _, _, _, h => by simp only [evalExpr] at h; exact Blanks.of _ (evalSimple_blanks h)
  | .litTag v, _, _, _, h => by simp only [evalExpr] at h; cases h; exact Blanks.same _ _
  | .blank, s, s', t, h => by
    simp only [evalExpr] at h
    split at h
    · cases h; exact Blanks.same _ _
    · rename_i b bs hb
      cases h
      by_cases ho : s.inOut
      · rw [if_pos ho]
        exact ⟨[t], by simp [hb], ⟨[], [], by simp, trivial⟩, fun hx => by rw [ho] at hx; cases hx⟩
      · rw [if_neg ho]; exact Blanks.same _ _
  | .getCaseFrom pos e, _, _, _, h => by
    simp only [evalExpr] at h
    obtain ⟨o, _, h⟩ := ok_bind_eq h
    rcases o with _ | ⟨i, w⟩
    · cases h; exact Blanks.same _ _
    · obtain ⟨⟨d, s1⟩, h1, h⟩ := ok_map_eq h
      cases h
      exact Blanks.of _ (evalSimple_blanks h1)
  | .luCount, _, _, _, h => by simp only [evalExpr] at h; cases h; exact Blanks.same _ _
  | .caseOf pos _ part, _, _, _, h => by
    simp only [evalExpr] at h
    obtain ⟨o, _, h⟩ := ok_bind_eq h
    rcases o with _ | ⟨i, w⟩
    · cases h; exact Blanks.same _ _
    · cases h; exact Blanks.same _ _
  | .concat es, _, _, _, h => by simp only [evalExpr] at h; exact evalList_blanks es h
  | .lu es, _, _, _, h => by
    simp only [evalExpr] at h
    obtain ⟨⟨m, s1⟩, h1, h⟩ := ok_bind_eq h
    exact lu_blanks (evalList_blanks es h1) h
  | .mlu ls, _, _, _, h => by
    simp only [evalExpr] at h
    obtain ⟨⟨m, s1⟩, h1, h⟩ := ok_bind_eq h
    exact lu_blanks (evalMlu_blanks ls h1) h
  | .chunk _ _ _ es, _, _, _, h => by simp only [evalExpr] at h; cases h
  | .tags _, _, _, _, h => by simp only [evalExpr] at h; cases h
  | .unknown, _, _, _, h => by simp only [evalExpr] at h; cases h
theorem evalList_blanks : (es : List Expr) → ∀ {s s' : PSt} {t : Text}, evalList env es s = .ok (t, s') → Blanks s t s'
  | [], _, _, _, h => by simp only [evalList] at h; cases h; exact Blanks.same _ _
  | e :: es, s, s', t, h => by
    simp only [evalList] at h
    obtain ⟨⟨t1, s1⟩, h1, h⟩ := ok_bind_eq h
    obtain ⟨⟨t2, s2⟩, h2, h⟩ := ok_map_eq h
    cases h
    obtain ⟨u1, e1, i1, f1⟩ := evalExpr_blanks e h1
    obtain ⟨u2, e2, i2, f2⟩ := evalList_blanks es h2
    have S := evalExpr_still env e h1
    exact ⟨u1 ++ u2, by rw [e1, e2]; simp, i1.append i2, fun ho => by rw [f1 ho, f2 (S.inOut.trans ho)]; rfl⟩
theorem evalMlu_blanks : (ls : List (List Expr)) → ∀ {first : Bool} {s s' : PSt} {t : Text}, evalMlu env ls first s = .ok (t, s') → Blanks s t s'
  | [], _, _, _, _, h => by simp only [evalMlu] at h; cases h; exact Blanks.same _ _
  | l :: ls, first, s, s', t, h => by
    simp only [evalMlu] at h
    obtain ⟨⟨t1, s1⟩, h1, h⟩ := ok_bind_eq h
    obtain ⟨⟨t2, s2⟩, h2, h⟩ := ok_map_eq h
    cases h
    obtain ⟨u1, e1, i1, f1⟩ := evalList_blanks l h1
    obtain ⟨u2, e2, i2, f2⟩ := evalMlu_blanks ls h2
    have S := evalList_still env l h1
    refine ⟨u1 ++ u2, by rw [e1, e2]; simp, ?_, fun ho => by rw [f1 ho, f2 (S.inOut.trans ho)]; rfl⟩
    have := InOrder.wrap (if first = false ∧ t1 ≠ [] ∧ t1.head? ≠ some '#' then ['+'] else []) [] (i1.append i2)
    simpa using this
end

/-- The blanks taken from the queue have been written, in order. -/
def BlankRel (s s' : PSt) : Prop :=
  s.inOut = false → s'.inOut = false ∧ ∃ used o, s.blanks = used ++ s'.blanks ∧ s'.out = s.out ++ o ∧ InOrder used o

theorem BlankRel.refl (s : PSt) : BlankRel s s := fun h => ⟨h, [], [], by simp, by simp, trivial⟩

theorem BlankRel.trans {a b c : PSt} (h : BlankRel a b) (h' : BlankRel b c) : BlankRel a c := by
  intro ho
  obtain ⟨h1, u1, o1, e1, f1, i1⟩ := h ho
  obtain ⟨h2, u2, o2, e2, f2, i2⟩ := h' h1
  exact ⟨h2, u1 ++ u2, o1 ++ o2, by rw [e1, e2]; simp, by rw [f2, f1]; simp, i1.append i2⟩

theorem eval_blankRel {e : Expr} {s s' : PSt} {t : Text} (h : evalExpr env e s = .ok (t, s')) : BlankRel s s' := by
  intro ho
  have S := evalExpr_still env e h
  obtain ⟨u, e1, _, f⟩ := evalExpr_blanks e h
  exact ⟨S.inOut.trans ho, [], [], by rw [e1, f ho], by simp [S.out], trivial⟩

theorem outLoop_blanks : (es : List Expr) → ∀ {s s' : PSt}, outLoop env es s = .ok s' → ∃ used o, s.blanks = used ++ s'.blanks ∧ s'.out = s.out ++ o ∧ InOrder used o
  | [], s, s', h => by simp only [outLoop] at h; cases h; exact ⟨[], [], by simp, by simp, trivial⟩
  | e :: es, s, s', h => by
    simp only [outLoop] at h
    obtain ⟨⟨t, s1⟩, h1, h⟩ := ok_bind_eq h
    obtain ⟨u2, o2, e2, f2, i2⟩ := outLoop_blanks es h
    obtain ⟨u1, e1, i1, _⟩ := evalExpr_blanks e h1
    refine ⟨u1 ++ u2, t ++ o2, ?_, ?_, i1.append i2⟩
    · rw [e1]; simp only at e2; rw [e2]; simp
    · rw [f2]; simp [(evalExpr_still env e h1).out]

theorem blanks_closed (d : Nat) : Closed (virt env) (callMacro env d) BlankRel := by
  have hlet : ∀ {l r : Expr} {s s' : PSt}, processLet env l r s = .ok s' → BlankRel s s' := by
    intro l r s s' h
    unfold processLet at h
    split at h
    · obtain ⟨⟨t, s1⟩, h1, rfl⟩ := ok_map_eq h
      exact fun ho => (eval_blankRel h1 : BlankRel _ s1) ho
    · obtain ⟨⟨i, w⟩, _, h⟩ := ok_bind_eq h
      obtain ⟨⟨t, s1⟩, h1, rfl⟩ := ok_map_eq h
      exact fun ho => (eval_blankRel h1 : BlankRel _ s1) ho
    · cases h; exact BlankRel.refl _
  have happ : ∀ (n : Text) (es : List Expr) {s s' : PSt}, processAppend env n es s = .ok s' → BlankRel s s' := by
    intro n es
    induction es with
    | nil => intro s s' h; simp only [processAppend] at h; cases h; exact BlankRel.refl _
    | cons e es ih =>
      intro s s' h
      simp only [processAppend] at h
      obtain ⟨⟨t, s1⟩, h1, h⟩ := ok_bind_eq h
      exact BlankRel.trans (b := { s1 with vars := upd s1.vars n (s1.vars n ++ t), inLetVar := false }) (fun ho => (eval_blankRel h1 : BlankRel _ s1) ho) (ih h)
  have hmod : ∀ {l r : Expr} {s s' : PSt}, processModifyCase env l r s = .ok s' → BlankRel s s' := by
    intro l r s s' h
    unfold processModifyCase at h
    split at h
    · cases h; exact BlankRel.refl _
    · split at h
      · obtain ⟨⟨i, w⟩, _, h⟩ := ok_bind_eq h
        obtain ⟨⟨t, s1⟩, h1, rfl⟩ := ok_map_eq h
        exact fun ho => (eval_blankRel h1 : BlankRel _ s1) ho
      · obtain ⟨⟨t, s1⟩, h1, rfl⟩ := ok_map_eq h
        exact fun ho => (eval_blankRel h1 : BlankRel _ s1) ho
      · cases h; exact BlankRel.refl _
  have hout : ∀ {es : List Expr} {s s' : PSt}, processOut env es s = .ok s' → BlankRel s s' := by
    intro es s s' h
    unfold processOut at h
    obtain ⟨s1, h1, rfl⟩ := ok_map_eq h
    intro _
    obtain ⟨u, o, e, f, i⟩ := outLoop_blanks es h1
    exact ⟨rfl, u, o, e, f, i⟩
  induction d with
  | zero => exact ⟨BlankRel.refl, BlankRel.trans, fun h => eval_blankRel h, hlet, happ _ _, hout, hmod, fun h => by simp [callMacro] at h⟩
  | succ d ih =>
    refine ⟨BlankRel.refl, BlankRel.trans, fun h => eval_blankRel h, hlet, happ _ _, hout, hmod, ?_⟩
    intro n args s s' h
    have run : ∀ w s', ((execMacroBody (virt env) (callMacro env d) (env.macros n).2 { s with word := w }).map fun s' => { s' with word := s.word }) = .ok s' → BlankRel s s' := by
      intro w s' h
      obtain ⟨s1, h1, rfl⟩ := ok_map_eq h
      have := ih.macroBody _ h1
      intro ho
      exact this ho
    simp only [callMacro] at h
    split at h
    · cases h
    · split at h
      · cases h
      · split at h
        · cases h
        · obtain ⟨⟨os, b⟩, _, h⟩ := ok_bind_eq h
          dsimp only at h
          split at h
          · exact run _ _ h
          · cases h; exact BlankRel.refl _

/-- **C79, blanks.** A rule takes some of the blanks from the front of the queue; what it writes contains them in order, and after it come all the others that are not a single
space.  None is left. -/
theorem C79_blanks (env : TEnv) (d : Nat) (action : List Instr) (s s' : PSt) (w : Int) (ho : s.inOut = false) (h : processRule env d action s = .ok (w, s')) :
    ∃ used rest o, s.blanks = used ++ rest ∧ InOrder used o ∧ s'.out = s.out ++ o ++ (rest.filter (· ≠ [' '])).flatten ∧ s'.blanks = [] := by
  unfold processRule at h
  obtain ⟨⟨w1, s1⟩, h1, h2⟩ := ok_map_eq h
  cases h2
  obtain ⟨_, used, o, e, f, i⟩ := (blanks_closed d).block action h1 ho
  exact ⟨used, s1.blanks, o, e, i, by simp [f, flushBlanks], rfl⟩

/-! ## An example, and where it fails -/

def lwWords : List IWord := [⟨t!"nom<SN>", [], []⟩, ⟨t!"gat<n>", [], t!"[[a]]"⟩, ⟨t!"gran<adj>", [], t!"[[b; c]]"⟩]
def lwPieces (w : IWord) : List (List Atom) := if w.wb = t!"[[a]]" then [[.lit 'a']] else if w.wb = t!"[[b; c]]" then [[.lit 'b'], [.lit 'c']] else []
def lwState : PSt :=
  { startState (fun _ => []) with heap := lwWords, word := [some 0, some 1, some 2], blanks := [t!"[1]", t!"[2]"], count := 2 }
def lwCtx : Ctx := ⟨lwWords.map fun w => (w, lwPieces w), fun _ => [], fun _ => [], 2⟩

theorem lwSees : Sees lwState lwCtx := by
  refine ⟨rfl, ?_, rfl, fun n => ⟨rfl, fun p hp => (by cases hp)⟩, rfl, ⟨[], rfl, fun p hp => (by cases hp)⟩, rfl, rfl⟩
  intro k w ps hk
  match k, hk with
  | 0, hk => cases hk; exact ⟨⟨0, rfl, rfl⟩, by decide, by simp [lwPieces, PiecesOk]⟩
  | 1, hk => cases hk; exact ⟨⟨1, rfl, rfl⟩, by decide, by simp [lwPieces, PiecesOk, Atom.wf]⟩
  | 2, hk => cases hk; exact ⟨⟨2, rfl, rfl⟩, by decide, by simp [lwPieces, PiecesOk, Atom.wf]⟩

def lwEnv : TEnv := { exEnv 0 with attr := Parts.attrOf fun _ => ⟨fun _ => none⟩ }

/-- `<out><lu><clip pos="2" part="lem"/><clip pos="0" part="tags"/></lu><b/><mlu>..</mlu></out>`: the values are computed from the meaning of the parts. -/
example : ∃ o, processOut lwEnv [.lu [.simple (.clip 2 .tl t!"lem" true []), .simple (.clip 0 .tl t!"tags" true [])], .blank,
      .mlu [[.simple (.clip 1 .tl t!"lem" true [])], [.simple (.lit [])], [.simple (.lit t!"x")]]] lwState =
    .ok { lwState with out := t!"[[b; c]]^gran<SN>$[1][[a]]^gat+x$", blanks := [t!"[2]"], outWb := o } := by
  obtain ⟨o, h, _⟩ := C79_out (env := lwEnv) lwSees (by simp [lwCtx, lwWords]) rfl
    (Writes.lu (.cons (.clip (k := 2) (w := ⟨t!"gran<adj>", [], t!"[[b; c]]"⟩) rfl) (.cons (.clip (k := 0) (w := ⟨t!"nom<SN>", [], []⟩) rfl) .nil))
      (Writes.blank (Writes.mlu (.cons (.cons (.clip (k := 1) (w := ⟨t!"gat<n>", [], t!"[[a]]"⟩) rfl) .nil) (.cons (.cons .lit .nil) (.cons (.cons .lit .nil) .nil))) .nil)))
  refine ⟨o, h.trans ?_⟩
  congr 1

/-- **Finding.** The word-bound blanks that came with a variable are lost when it is assigned to another variable: the lexical unit made of `v` has the blank of the word, the one
made of `w` has none. -/
theorem C79_var_to_var_violation :
    (processRule lwEnv 0 [.assign (.simple (.var t!"v")) (.simple (.clip 1 .tl t!"lem" true [])), .out [.lu [.simple (.var t!"v")]]] { lwState with blanks := [] }).map (·.2.out) =
      .ok t!"[[a]]^gat$" ∧
    (processRule lwEnv 0 [.assign (.simple (.var t!"v")) (.simple (.clip 1 .tl t!"lem" true [])), .assign (.simple (.var t!"w")) (.simple (.var t!"v")),
      .out [.lu [.simple (.var t!"w")]]] { lwState with blanks := [] }).map (·.2.out) = .ok t!"^gat$" := by decide +kernel

end Verif.Postchunk
