import Verif.Transfer.Proofs
import Verif.Stream.Grammar
import Mathlib.Data.List.Induction
/-!
# Properties of the transfer rule interpreter (C11 - C15, C38 - C40)
-/
namespace Verif.Transfer
open Verif.Stream

variable {S : Type}

/-! ## C11: conditions -/

theorem pickList_any {v : Virt S} {cl : Bool} {l : Text} {p : Text → Bool} :
    (v.pickList cl l).any p = true ↔ ∃ x ∈ v.list l, p (v.fold cl x) = true := by
  cases cl <;> simp [Virt.pickList, Virt.fold]

mutual
theorem evalCond_inv (v : Virt S) (Inv : S → Prop) (val : Expr → Text) : (c : Cond) → c.wf →
    (∀ e ∈ c.exprs, ∀ s, Inv s → ∃ s', v.evalString e s = .ok (val e, s') ∧ Inv s') → ∀ s, Inv s →
    ∃ b s', evalCond v c s = .ok (b, s') ∧ Inv s' ∧ (b = true ↔ c.holds val v.tolower v.list)
  | .equal cl a b, _, hv, s, hs => by
    obtain ⟨s1, h1, i1⟩ := hv a (by simp [Cond.exprs]) s hs
    obtain ⟨s2, h2, i2⟩ := hv b (by simp [Cond.exprs]) s1 i1
    refine ⟨_, s2, by simp only [evalCond, eval2, h1, Outcome.bind, h2, Outcome.map]; rfl, i2, ?_⟩
    cases cl <;> simp [Cond.holds, Virt.fold]
  | .beginsWith cl a b, _, hv, s, hs => by
    obtain ⟨s1, h1, i1⟩ := hv a (by simp [Cond.exprs]) s hs
    obtain ⟨s2, h2, i2⟩ := hv b (by simp [Cond.exprs]) s1 i1
    refine ⟨_, s2, by simp only [evalCond, eval2, h1, Outcome.bind, h2, Outcome.map]; rfl, i2, ?_⟩
    cases cl <;> simp [Cond.holds, Virt.fold, beginsWith_iff]
  | .endsWith cl a b, _, hv, s, hs => by
    obtain ⟨s1, h1, i1⟩ := hv a (by simp [Cond.exprs]) s hs
    obtain ⟨s2, h2, i2⟩ := hv b (by simp [Cond.exprs]) s1 i1
    refine ⟨_, s2, by simp only [evalCond, eval2, h1, Outcome.bind, h2, Outcome.map]; rfl, i2, ?_⟩
    cases cl <;> simp [Cond.holds, Virt.fold, endsWith_iff]
  | .containsSubstring cl a b, _, hv, s, hs => by
    obtain ⟨s1, h1, i1⟩ := hv a (by simp [Cond.exprs]) s hs
    obtain ⟨s2, h2, i2⟩ := hv b (by simp [Cond.exprs]) s1 i1
    refine ⟨_, s2, by simp only [evalCond, eval2, h1, Outcome.bind, h2, Outcome.map]; rfl, i2, ?_⟩
    cases cl <;> simp [Cond.holds, Virt.fold, contains_iff]
  | .beginsWithList cl a l, _, hv, s, hs => by
    obtain ⟨s1, h1, i1⟩ := hv a (by simp [Cond.exprs]) s hs
    refine ⟨_, s1, by simp only [evalCond, h1, Outcome.map]; rfl, i1, ?_⟩
    rw [pickList_any]
    cases cl <;> simp [Cond.holds, Virt.fold, beginsWith_iff]
  | .endsWithList cl a l, _, hv, s, hs => by
    obtain ⟨s1, h1, i1⟩ := hv a (by simp [Cond.exprs]) s hs
    refine ⟨_, s1, by simp only [evalCond, h1, Outcome.map]; rfl, i1, ?_⟩
    rw [pickList_any]
    cases cl <;> simp [Cond.holds, Virt.fold, endsWith_iff]
  | .isIn cl a l, _, hv, s, hs => by
    obtain ⟨s1, h1, i1⟩ := hv a (by simp [Cond.exprs]) s hs
    refine ⟨_, s1, by simp only [evalCond, h1, Outcome.map]; rfl, i1, ?_⟩
    cases cl <;> simp [Cond.holds, Virt.fold, Virt.pickList]
  | .and cs, hw, hv, s, hs => by
    simp only [evalCond, Cond.holds]
    exact evalAnd_inv v Inv val cs (by simpa [Cond.wf] using hw) (by simpa [Cond.exprs] using hv) s hs
  | .or cs, hw, hv, s, hs => by
    simp only [evalCond, Cond.holds]
    exact evalOr_inv v Inv val cs (by simpa [Cond.wf] using hw) (by simpa [Cond.exprs] using hv) s hs
  | .not [], hw, hv, s, hs => by simp [Cond.wf] at hw
  | .not [c], hw, hv, s, hs => by
    obtain ⟨b, s', h, i, hb⟩ := evalCond_inv v Inv val c (by simp [Cond.wf, Cond.wfL] at hw; exact hw)
      (by simpa [Cond.exprs, Cond.exprsL] using hv) s hs
    refine ⟨!b, s', by simp only [evalCond, evalNot, h, Outcome.map], i, ?_⟩
    simp only [Cond.holds, ← hb]; cases b <;> simp
  | .not (_ :: _ :: _), hw, hv, s, hs => by simp [Cond.wf] at hw
  | .unknown, _, _, s, hs => ⟨false, s, by simp [evalCond], hs, by simp [Cond.holds]⟩
theorem evalAnd_inv (v : Virt S) (Inv : S → Prop) (val : Expr → Text) : (cs : List Cond) → Cond.wfL cs →
    (∀ e ∈ Cond.exprsL cs, ∀ s, Inv s → ∃ s', v.evalString e s = .ok (val e, s') ∧ Inv s') → ∀ s, Inv s →
    ∃ b s', evalAnd v cs s = .ok (b, s') ∧ Inv s' ∧ (b = true ↔ Cond.holdsAll val v.tolower v.list cs)
  | [], _, _, s, hs => ⟨true, s, by simp [evalAnd], hs, by simp [Cond.holdsAll]⟩
  | c :: cs, hw, hv, s, hs => by
    simp only [Cond.wfL] at hw
    obtain ⟨b, s1, h, i, hb⟩ := evalCond_inv v Inv val c hw.1 (fun e he => hv e (by simp [Cond.exprsL, he])) s hs
    cases b with
    | false =>
      refine ⟨false, s1, by simp [evalAnd, h, Outcome.bind], i, ?_⟩
      simp only [Cond.holdsAll, ← hb]; simp
    | true =>
      obtain ⟨b2, s2, h2, i2, hb2⟩ := evalAnd_inv v Inv val cs hw.2
        (fun e he => hv e (by simp [Cond.exprsL, he])) s1 i
      refine ⟨b2, s2, by simp [evalAnd, h, Outcome.bind, h2], i2, ?_⟩
      simp only [Cond.holdsAll, ← hb, ← hb2]; simp
theorem evalOr_inv (v : Virt S) (Inv : S → Prop) (val : Expr → Text) : (cs : List Cond) → Cond.wfL cs →
    (∀ e ∈ Cond.exprsL cs, ∀ s, Inv s → ∃ s', v.evalString e s = .ok (val e, s') ∧ Inv s') → ∀ s, Inv s →
    ∃ b s', evalOr v cs s = .ok (b, s') ∧ Inv s' ∧ (b = true ↔ Cond.holdsAny val v.tolower v.list cs)
  | [], _, _, s, hs => ⟨false, s, by simp [evalOr], hs, by simp [Cond.holdsAny]⟩
  | c :: cs, hw, hv, s, hs => by
    simp only [Cond.wfL] at hw
    obtain ⟨b, s1, h, i, hb⟩ := evalCond_inv v Inv val c hw.1 (fun e he => hv e (by simp [Cond.exprsL, he])) s hs
    cases b with
    | true =>
      refine ⟨true, s1, by simp [evalOr, h, Outcome.bind], i, ?_⟩
      simp only [Cond.holdsAny, ← hb]; simp
    | false =>
      obtain ⟨b2, s2, h2, i2, hb2⟩ := evalOr_inv v Inv val cs hw.2
        (fun e he => hv e (by simp [Cond.exprsL, he])) s1 i
      refine ⟨b2, s2, by simp [evalOr, h, Outcome.bind, h2], i2, ?_⟩
      simp only [Cond.holdsAny, ← hb, ← hb2]; simp
end

/-- Nothing a rule can observe has changed: words, variables, blanks and output. -/
structure SameObservable (s s' : TSt) : Prop where
  heap : s'.heap = s.heap
  word : s'.word = s.word
  vars : s'.vars = s.vars
  varWb : s'.varWb = s.varWb
  blanks : s'.blanks = s.blanks
  out : s'.out = s.out
  inOut : s'.inOut = s.inOut
  inLetVar : s'.inLetVar = s.inLetVar

theorem Sim.same {s s' : TSt} (h : Sim s s') : SameObservable s s' := by
  constructor <;> rw [h]

theorem cond_sim (env : TEnv) (s : TSt) (hs : s.WbsOk) (ho : s.inOut = false) (hl : s.inLetVar = false)
    (val : Expr → Text) (c : Cond) (hw : c.wf)
    (hval : ∀ e ∈ c.exprs, ∃ s', evalExpr env e s = .ok (val e, s')) (s0 : TSt) (h0 : Sim s s0 ∧ s0.WbsOk) :
    ∃ b s', evalCond (virt env) c s0 = .ok (b, s') ∧ (Sim s s' ∧ s'.WbsOk) ∧
      (b = true ↔ c.holds val env.tolower env.list) := by
  refine evalCond_inv (virt env) (fun s' => Sim s s' ∧ s'.WbsOk) val c hw ?_ s0 h0
  intro e he s1 h1
  obtain ⟨s', h'⟩ := hval e he
  obtain ⟨s2, h2, hs2⟩ := evalExpr_sim env e h1.1 ho hl hs h1.2 h'
  exact ⟨s2, h2, hs2, (evalExpr_facts env e h2).wbs h1.2⟩

/-- C11: a condition evaluates to what it means in Boolean logic, given the values `val` its expressions have in
the current state, and evaluating it changes nothing. -/
theorem C11_conditions (env : TEnv) (s : TSt) (hs : s.WbsOk) (ho : s.inOut = false) (hl : s.inLetVar = false)
    (val : Expr → Text) (c : Cond) (hw : c.wf)
    (hval : ∀ e ∈ c.exprs, ∃ s', evalExpr env e s = .ok (val e, s')) :
    ∃ b s', evalCond (virt env) c s = .ok (b, s') ∧ (b = true ↔ c.holds val env.tolower env.list) ∧
      SameObservable s s' := by
  obtain ⟨b, s', h, i, hb⟩ := cond_sim env s hs ho hl val c hw hval s ⟨Sim.refl s, hs⟩
  exact ⟨b, s', h, hb, i.1.same⟩

/-! ### A concrete environment for the examples -/

/-- Matches everything before the first `<`. -/
def lemRe : Re := ⟨fun t => some (0, (t.takeWhile (· ≠ '<')).length)⟩
/-- Matches the first `<..>` that is `<pl>` or `<sg>` (for examples: at the end of the text). -/
def numRe : Re := ⟨fun t => if t!"<pl>" <:+ t ∨ t!"<sg>" <:+ t then some (t.length - 4, t.length) else none⟩

def exEnv (lastLword : Nat) : TEnv where
  attr n := if n = t!"lem" then lemRe else if n = t!"num" then numRe else ⟨fun _ => none⟩
  list n := if n = t!"animals" then [t!"Cat", t!"Dog"] else []
  macros _ := (0, [])
  dictCase := false
  lastLword := lastLword
  tolower t := t.map Char.toLower
  toupper t := t.map Char.toUpper
  getcase _ := t!"aa"
  copycase _ t := t
  isUpper c := c.isUpper
  stoi _ := 0

def exState : TSt where
  heap := [⟨t!"cat<n><sg>", t!"gat<n><sg>", [], t!"[[a]]", 0⟩, ⟨t!"big<adj>", t!"gran<adj>", [], t!"[[b]]", 0⟩]
  word := [some 0, some 1]
  vars _ := []
  varWb _ := []
  outWb := []
  inLu := false
  inLetVar := false
  inOut := false
  varVal := []
  blanks := [t!"[x]"]
  out := []

theorem exState_ok : exState.WbsOk := by
  refine ⟨?_, fun _ => Or.inl rfl, Or.inl rfl⟩
  intro w hw
  simp [exState] at hw
  rcases hw with rfl | rfl <;> exact Or.inr rfl

/-- Non-vacuity of C11: "lemma of word 1 is, caselessly, in the list animals and number of word 2 is not `<sg>`". -/
example : ∃ b s', evalCond (virt (exEnv 2))
    (.and [.isIn true (.simple (.clip 1 .sl t!"lem" true [])) t!"animals",
      .not [.equal false (.simple (.clip 2 .tl t!"num" true [])) (.litTag t!"sg")]]) exState = .ok (b, s') ∧ b = true := by
  refine ⟨true, _, rfl, rfl⟩

example : Cond.wf (.and [.isIn true (.simple (.clip 1 .sl t!"lem" true [])) t!"animals",
      .not [.equal false (.simple (.clip 2 .tl t!"num" true [])) (.litTag t!"sg")]]) := by
  simp [Cond.wf, Cond.wfL]

/-! ## C12: choose -/

/-- A `<when>` as the DTD asks: one test, then instructions. -/
def mkWhen (c : Cond) (body : List Instr) : Opt := .when (.test [c] :: body.map .instr)

/-- The tests are evaluated one after the other and all fail. -/
inductive AllFail (v : Virt S) : List (Cond × List Instr) → S → S → Prop
  | nil (s) : AllFail v [] s s
  | cons {c body ws s s1 s2} : evalCond v c s = .ok (false, s1) → AllFail v ws s1 s2 →
      AllFail v ((c, body) :: ws) s s2

theorem execWhen_body (v : Virt S) (call) (body : List Instr) (wtc : Int) (s : S) :
    execWhen v call (body.map .instr) true wtc s =
      (execBlock v call body wtc s).map fun (w, s') => (true, w, s') := by
  induction body generalizing wtc s with
  | nil => simp [execWhen, execBlock, Outcome.map]
  | cons i is ih =>
    simp only [List.map_cons, execWhen, execBlock]
    cases exec v call i s with
    | ok p =>
      obtain ⟨w, s'⟩ := p
      simp only [Outcome.bind]
      split
      · simp [Outcome.map]
      · exact ih w s'
    | fail => rfl
    | diverge => rfl
    | ub => rfl

theorem execChoose_pick (v : Virt S) (call) (c : Cond) (body : List Instr) (rest : List Opt) (s s1 : S)
    (h : evalCond v c s = .ok (true, s1)) :
    execChoose v call (mkWhen c body :: rest) (-1) s = execBlock v call body (-1) s1 := by
  simp only [mkWhen, execChoose, execWhen, evalTest, h, Outcome.bind, if_true]
  rw [execWhen_body]
  cases execBlock v call body (-1) s1 with
  | ok p => simp [Outcome.map]
  | fail => rfl
  | diverge => rfl
  | ub => rfl

theorem execChoose_skip (v : Virt S) (call) (c : Cond) (body : List Instr) (rest : List Opt) (s s1 : S)
    (h : evalCond v c s = .ok (false, s1)) :
    execChoose v call (mkWhen c body :: rest) (-1) s = execChoose v call rest (-1) s1 := by
  simp [mkWhen, execChoose, execWhen, evalTest, h, Outcome.bind]

theorem execChoose_allFail (v : Virt S) (call) {ws : List (Cond × List Instr)} {s s1 : S} (h : AllFail v ws s s1)
    (rest : List Opt) :
    execChoose v call (ws.map (fun p => mkWhen p.1 p.2) ++ rest) (-1) s = execChoose v call rest (-1) s1 := by
  induction h with
  | nil => simp
  | cons h _ ih =>
    simp only [List.map_cons, List.cons_append]
    rw [execChoose_skip _ _ _ _ _ _ _ h, ih]

/-- C12: when the tests before it fail and its own test holds, the body of a `<when>` is executed, and nothing of
what follows it (`rest` is arbitrary: it does not appear in the result). -/
theorem C12_choose_first (v : Virt S) (call) (ws : List (Cond × List Instr)) (c : Cond) (body : List Instr)
    (rest : List Opt) (s s1 s2 : S) (h : AllFail v ws s s1) (hc : evalCond v c s1 = .ok (true, s2)) :
    exec v call (.choose (ws.map (fun p => mkWhen p.1 p.2) ++ mkWhen c body :: rest)) s =
      execBlock v call body (-1) s2 := by
  simp only [exec]
  rw [execChoose_allFail v call h, execChoose_pick v call c body rest s1 s2 hc]

/-- C12: when no test holds the body of `<otherwise>` is executed. -/
theorem C12_choose_otherwise (v : Virt S) (call) (ws : List (Cond × List Instr)) (body : List Instr)
    (s s1 : S) (h : AllFail v ws s s1) :
    exec v call (.choose (ws.map (fun p => mkWhen p.1 p.2) ++ [.otherwise body])) s =
      execBlock v call body (-1) s1 := by
  simp only [exec]
  rw [execChoose_allFail v call h]
  simp only [execChoose]
  cases execBlock v call body (-1) s1 with
  | ok p =>
    obtain ⟨w, s'⟩ := p
    simp only [Outcome.bind]
    split
    · rfl
    · rename_i hw; simp only [ne_eq, Decidable.not_not] at hw; rw [hw]
  | fail => rfl
  | diverge => rfl
  | ub => rfl

/-- C12: when no test holds and there is no `<otherwise>`, nothing is executed. -/
theorem C12_choose_none (v : Virt S) (call) (ws : List (Cond × List Instr)) (s s1 : S) (h : AllFail v ws s s1) :
    exec v call (.choose (ws.map fun p => mkWhen p.1 p.2)) s = .ok (-1, s1) := by
  simp only [exec]
  have := execChoose_allFail v call h []
  rw [List.append_nil] at this
  rw [this]; simp [execChoose]

theorem allFail_transfer (env : TEnv) (s : TSt) (hs : s.WbsOk) (ho : s.inOut = false) (hl : s.inLetVar = false)
    (val : Expr → Text) (ws : List (Cond × List Instr)) (hw : ∀ p ∈ ws, p.1.wf)
    (hval : ∀ p ∈ ws, ∀ e ∈ p.1.exprs, ∃ s', evalExpr env e s = .ok (val e, s'))
    (hn : ∀ p ∈ ws, ¬ p.1.holds val env.tolower env.list) (s0 : TSt) (h0 : Sim s s0 ∧ s0.WbsOk) :
    ∃ s1, AllFail (virt env) ws s0 s1 ∧ Sim s s1 ∧ s1.WbsOk := by
  induction ws generalizing s0 with
  | nil => exact ⟨s0, .nil _, h0⟩
  | cons p ws ih =>
    obtain ⟨b, s1, h1, i1, hb⟩ := cond_sim env s hs ho hl val p.1 (hw p (by simp)) (hval p (by simp)) s0 h0
    have : b = false := by
      cases b
      · rfl
      · exact absurd (hb.1 rfl) (hn p (by simp))
    subst this
    obtain ⟨s2, h2, i2⟩ := ih (fun q hq => hw q (by simp [hq])) (fun q hq => hval q (by simp [hq]))
      (fun q hq => hn q (by simp [hq])) s1 i1
    exact ⟨s2, .cons h1 h2, i2⟩

/-- C12 in apertium-transfer: if the condition of a `<when>` is true in the current state and those before it are false,
then `<choose>` does what its body does, in a state with the same words, variables, blanks and output. -/
theorem C12_transfer_choose (env : TEnv) (call) (s : TSt) (hs : s.WbsOk) (ho : s.inOut = false)
    (hl : s.inLetVar = false) (val : Expr → Text) (ws : List (Cond × List Instr)) (c : Cond) (body : List Instr)
    (rest : List Opt) (hw : ∀ p ∈ ws, p.1.wf) (hwc : c.wf)
    (hval : ∀ p ∈ ws, ∀ e ∈ p.1.exprs, ∃ s', evalExpr env e s = .ok (val e, s'))
    (hvalc : ∀ e ∈ c.exprs, ∃ s', evalExpr env e s = .ok (val e, s'))
    (hn : ∀ p ∈ ws, ¬ p.1.holds val env.tolower env.list) (hc : c.holds val env.tolower env.list) :
    ∃ s', SameObservable s s' ∧
      exec (virt env) call (.choose (ws.map (fun p => mkWhen p.1 p.2) ++ mkWhen c body :: rest)) s =
        execBlock (virt env) call body (-1) s' := by
  obtain ⟨s1, h1, i1⟩ := allFail_transfer env s hs ho hl val ws hw hval hn s ⟨Sim.refl s, hs⟩
  obtain ⟨b, s2, h2, i2, hb⟩ := cond_sim env s hs ho hl val c hwc hvalc s1 i1
  rw [hb.2 hc] at h2
  exact ⟨s2, i2.1.same, C12_choose_first (virt env) call ws c body rest s s1 s2 h1 h2⟩

/-! ## C13: clip and let on words -/

/-- C13: reading a part after assigning it gives the assigned value, when the part was present and the regular expression
finds the assigned value at the same place. -/
theorem C13_read_after_write (re : Re) (hre : re.Valid) (t value : Text) (a b : Nat) (h : re.find t = some (a, b))
    (hstable : re.find (t.take a ++ value ++ t.drop b) = some (a, a + value.length)) :
    re.matchText (re.replace t value).1 = value := by
  have ha := hre t a b h
  simp only [Re.replace, h, Re.matchText, hstable]
  have : (t.take a).length = a := by simp; omega
  rw [List.append_assoc, List.drop_append_of_le_length (by omega)]
  simp [this]

/-- C13: assigning changes only the part found: the text before and after it stays. -/
theorem C13_write_frame (re : Re) (hre : re.Valid) (t value : Text) (a b : Nat) (h : re.find t = some (a, b)) :
    ∃ pre old post, t = pre ++ old ++ post ∧ re.matchText t = old ∧ (re.replace t value).1 = pre ++ value ++ post := by
  have ha := hre t a b h
  refine ⟨t.take a, (t.drop a).take (b - a), t.drop b, ?_, ?_, ?_⟩
  · have : t.drop b = (t.drop a).drop (b - a) := by rw [List.drop_drop]; congr 1; omega
    rw [this, List.append_assoc, List.take_append_drop, List.take_append_drop]
  · simp [Re.matchText, h]
  · simp [Re.replace, h]

/-- C13: assigning to an absent part changes nothing, and the part reads as empty. -/
theorem C13_write_absent (re : Re) (t value : Text) (h : re.find t = none) :
    (re.replace t value).1 = t ∧ re.matchText t = [] := by
  simp [Re.replace, Re.matchText, h]

/-- C13: assigning a part the value it has changes nothing. -/
theorem C13_write_same (re : Re) (hre : re.Valid) (t : Text) : (re.replace t (re.matchText t)).1 = t := by
  cases h : re.find t with
  | none => simp [Re.replace, h]
  | some p =>
    obtain ⟨a, b⟩ := p
    obtain ⟨pre, old, post, h1, h2, h3⟩ := C13_write_frame re hre t (re.matchText t) a b h
    rw [h3, h2, ← h1]

/-- C13 for words, `queue="yes"`: assigning to one side of a word leaves the other sides, the
word-bound blank and the queue as they are. -/
theorem C13_word_frame (w w' : TWord) (sd : Side) (re : Re) (q : Bool) (value : Text)
    (h : w.write sd re q value = .ok w') :
    (sd ≠ .tl → w'.tgt = w.tgt) ∧ (sd ≠ .ref → w'.ref = w.ref) ∧ (sd = .tl ∨ sd = .ref → w'.src = w.src) ∧
      w'.wb = w.wb ∧ w'.queue = w.queue := by
  cases sd <;> simp only [TWord.write] at h <;> obtain ⟨t, _, rfl⟩ := ok_map_eq h <;> simp

/-- C13 for words: with `queue="no"` the queue itself is never changed. -/
theorem C13_queue_kept (n : Nat) (re : Re) (t value t' : Text) (h : writePart n re false value t = .ok t') :
    ∃ front q front', q.length = n ∧ t = front ++ q ∧ t' = front' ++ q ∧ readPart n re false t = re.matchText front ∧
      front' = (re.replace front value).1 := by
  simp only [writePart] at h
  split at h
  · contradiction
  split at h
  · rename_i _ hn
    cases h
    refine ⟨t.take (t.length - n), t.drop (t.length - n), _, by simp; omega, by simp, ?_, ?_, rfl⟩
    · simp [cutQueue, hn]
    · simp [readPart, cutQueue, hn]
  · simp at h

example : lemRe.Valid := by
  intro t a b h
  simp only [lemRe, Option.some.injEq, Prod.mk.injEq] at h
  obtain ⟨rfl, rfl⟩ := h
  exact ⟨by simp, (List.takeWhile_prefix _).length_le⟩
example : lemRe.matchText (lemRe.replace t!"cat<n>" t!"dog").1 = t!"dog" := by decide
example : lemRe.find t!"cat<n>" = some (0, 3) ∧
    lemRe.find (t!"cat<n>".take 0 ++ t!"dog" ++ t!"cat<n>".drop 3) = some (0, 0 + 3) := by decide

/-- C13 (the hypothesis of `C13_read_after_write` is needed): a value the attribute does not recognise is not read back:
after assigning `<xx>` to a number the number reads as empty. -/
theorem C13_read_after_write_needs_stability :
    numRe.matchText (numRe.replace t!"cat<n><sg>" t!"<xx>").1 = [] := by decide

/-! ## C14: merging word-bound blanks -/

/-- A word-bound blank with the given pieces. -/
def wbOf (pieces : List (List Atom)) : Text := t!"[[" ++ List.intercalate t!"; " (pieces.map renderAtoms) ++ t!"]]"

theorem takeWhile_append_stop {α : Type} (p : α → Bool) (x : List α) (a : α) (y : List α) (ha : p a = false) :
    (x ++ a :: y).takeWhile p = x.takeWhile p := by
  induction x with
  | nil => simp [List.takeWhile_cons, ha]
  | cons b x ih => simp only [List.cons_append, List.takeWhile_cons, ih]

theorem trailing_even (t : Text) (as : List Atom) (h : ∀ a ∈ as, a.wf []) :
    (((t ++ '[' :: renderAtoms as).reverse).takeWhile (· = '\\')).length % 2 = 0 := by
  induction as using List.reverseRecOn with
  | nil => simp
  | append_singleton as a ih =>
    have ih := ih (fun x hx => h x (by simp [hx]))
    have ha := h a (by simp)
    cases a with
    | lit c =>
      have : c ≠ '\\' := ha.1
      simp [renderAtoms, List.flatMap_append, Atom.render, this]
    | esc c =>
      by_cases hc : c = '\\'
      · subst hc
        have e : (t ++ '[' :: renderAtoms (as ++ [Atom.esc '\\'])).reverse =
            '\\' :: '\\' :: (t ++ '[' :: renderAtoms as).reverse := by
          simp [renderAtoms, List.flatMap_append, Atom.render]
        rw [e]
        simp only [List.takeWhile_cons, decide_true, if_true, List.length_cons]
        omega
      · simp [renderAtoms, List.flatMap_append, Atom.render, hc]

theorem trailing_even_intercalate (pieces : List (List Atom)) (h : ∀ p ∈ pieces, ∀ a ∈ p, a.wf []) :
    (((t!"[[" ++ List.intercalate t!"; " (pieces.map renderAtoms)).reverse).takeWhile (· = '\\')).length % 2 = 0 := by
  have key : ∃ as : List Atom, (∀ a ∈ as, a.wf []) ∧
      List.intercalate t!"; " (pieces.map renderAtoms) = renderAtoms as := by
    induction pieces with
    | nil => exact ⟨[], by simp, by simp⟩
    | cons p ps ih =>
      obtain ⟨as, h1, h2⟩ := ih (fun q hq => h q (by simp [hq]))
      cases ps with
      | nil => exact ⟨p, h p (by simp), by simp⟩
      | cons q qs =>
        refine ⟨p ++ [.lit ';', .lit ' '] ++ as, ?_, ?_⟩
        · intro a ha
          simp only [List.mem_append, List.mem_cons, List.not_mem_nil, or_false] at ha
          rcases ha with (ha | ha | ha) | ha
          · exact h p (by simp) a ha
          · subst ha; simp [Atom.wf]
          · subst ha; simp [Atom.wf]
          · exact h1 a ha
        · simp only [List.map_cons] at h2 ⊢
          rw [List.intercalate_cons_cons, h2]
          simp [renderAtoms, List.flatMap_append, Atom.render]
  obtain ⟨as, h1, h2⟩ := key
  rw [h2]
  exact trailing_even ['['] as h1

/-- C14: merging two word-bound blanks gives the one with the pieces of the first, then those of the second. -/
theorem C14_combine (ps qs : List (List Atom)) (hp : ps ≠ []) (hq : qs ≠ []) (h : ∀ p ∈ ps, ∀ a ∈ p, a.wf []) :
    combineWblanks (wbOf ps) (wbOf qs) = .ok (wbOf (ps ++ qs)) := by
  have hint : List.intercalate t!"; " ((ps ++ qs).map renderAtoms) =
      List.intercalate t!"; " (ps.map renderAtoms) ++ t!"; " ++ List.intercalate t!"; " (qs.map renderAtoms) := by
    clear h
    induction ps with
    | nil => contradiction
    | cons p ps ih =>
      cases ps with
      | nil =>
        cases qs with
        | nil => contradiction
        | cons q qs => simp [List.intercalate_cons_cons]
      | cons p' ps =>
        have := ih (by simp)
        simp only [List.cons_append, List.map_cons] at this ⊢
        rw [List.intercalate_cons_cons, this, List.intercalate_cons_cons]
        simp
  unfold combineWblanks
  rw [if_neg (by simp [wbOf]), if_neg (by simp [wbOf])]
  have he : endsWith (wbOf ps) t!"]]" = true := by
    rw [endsWith_iff]; exact ⟨_, rfl⟩
  have hb : beginsWith (wbOf qs) t!"[[" = true := by
    rw [beginsWith_iff]; exact ⟨_, by simp [wbOf]; rfl⟩
  have htake : (wbOf ps).take ((wbOf ps).length - 2) = t!"[[" ++ List.intercalate t!"; " (ps.map renderAtoms) := by
    have : wbOf ps = (t!"[[" ++ List.intercalate t!"; " (ps.map renderAtoms)) ++ t!"]]" := rfl
    rw [this]
    generalize t!"[[" ++ List.intercalate t!"; " (ps.map renderAtoms) = x
    simp
  rw [he, hb]
  simp only [if_true]
  rw [if_pos (by simp [wbOf]), htake, if_neg (by simp), if_neg (by
    have := trailing_even_intercalate ps h; omega)]
  congr 1
  simp only [wbOf, hint]
  simp

/-- C14: an empty word-bound blank is neutral. -/
theorem C14_empty (t : Text) : combineWblanks [] t = .ok t ∧ combineWblanks t [] = .ok t := by
  unfold combineWblanks
  by_cases h : t = [] <;> simp [h]

/-- C14: merging is associative. -/
theorem C14_assoc (ps qs rs : List (List Atom)) (hp : ps ≠ []) (hq : qs ≠ []) (hr : rs ≠ [])
    (h1 : ∀ p ∈ ps, ∀ a ∈ p, a.wf []) (h2 : ∀ p ∈ qs, ∀ a ∈ p, a.wf []) :
    ((combineWblanks (wbOf ps) (wbOf qs)).bind fun x => combineWblanks x (wbOf rs)) =
      (combineWblanks (wbOf qs) (wbOf rs)).bind fun y => combineWblanks (wbOf ps) y := by
  rw [C14_combine ps qs hp hq h1, C14_combine qs rs hq hr h2]
  simp only [Outcome.bind]
  rw [C14_combine (ps ++ qs) rs (by simp [hp]) hr (by
      intro p hp'; rcases List.mem_append.1 hp' with h | h
      · exact h1 p h
      · exact h2 p h),
    C14_combine ps (qs ++ rs) hp (by simp [hq]) h1, List.append_assoc]

example : combineWblanks t!"[[a\\\\]]" t!"[[b; c]]" = .ok t!"[[a\\\\; b; c]]" := by decide
example : ∀ p ∈ [[Atom.lit 'a', .esc '\\']], ∀ a ∈ p, a.wf [] := by decide

/-! ## Relations preserved by a rule run -/

section Rel
variable (v : Virt S) (call : Text → List Int → S → Outcome S) (R : S → S → Prop)

/-- Everything a rule does goes through the virtual methods and macro calls: a reflexive and transitive relation
that these preserve is preserved by every instruction. -/
structure Closed : Prop where
  refl : ∀ s, R s s
  trans : ∀ {a b c}, R a b → R b c → R a c
  eval : ∀ {e s t s'}, v.evalString e s = .ok (t, s') → R s s'
  assign : ∀ {l r s s'}, v.processLet l r s = .ok s' → R s s'
  append : ∀ {n es s s'}, v.processAppend n es s = .ok s' → R s s'
  out : ∀ {es s s'}, v.processOut es s = .ok s' → R s s'
  modify : ∀ {l r s s'}, v.processModifyCase l r s = .ok s' → R s s'
  call : ∀ {n args s s'}, call n args s = .ok s' → R s s'

variable {v call R}

theorem Closed.eval2 (hR : Closed v call R) {a b : Expr} {s s' : S} {p : Text × Text} (h : eval2 v a b s = .ok (p, s')) : R s s' := by
  unfold Verif.Transfer.eval2 at h
  obtain ⟨⟨x, s1⟩, h1, h⟩ := ok_bind_eq h
  obtain ⟨⟨y, s2⟩, h2, h3⟩ := ok_map_eq h
  cases h3
  exact hR.trans (hR.eval h1) (hR.eval h2)

mutual
theorem Closed.cond (hR : Closed v call R) : (c : Cond) → ∀ {s s' : S} {b : Bool}, evalCond v c s = .ok (b, s') → R s s'
  | .equal _ _ _, _, _, _, h => by
    simp only [evalCond] at h; obtain ⟨⟨p, s1⟩, h1, h2⟩ := ok_map_eq h; cases h2; exact hR.eval2 h1
  | .beginsWith _ _ _, _, _, _, h => by
    simp only [evalCond] at h; obtain ⟨⟨p, s1⟩, h1, h2⟩ := ok_map_eq h; cases h2; exact hR.eval2 h1
  | .endsWith _ _ _, _, _, _, h => by
    simp only [evalCond] at h; obtain ⟨⟨p, s1⟩, h1, h2⟩ := ok_map_eq h; cases h2; exact hR.eval2 h1
  | .containsSubstring _ _ _, _, _, _, h => by
    simp only [evalCond] at h; obtain ⟨⟨p, s1⟩, h1, h2⟩ := ok_map_eq h; cases h2; exact hR.eval2 h1
  | .beginsWithList _ _ _, _, _, _, h => by
    simp only [evalCond] at h; obtain ⟨⟨p, s1⟩, h1, h2⟩ := ok_map_eq h; cases h2; exact hR.eval h1
  | .endsWithList _ _ _, _, _, _, h => by
    simp only [evalCond] at h; obtain ⟨⟨p, s1⟩, h1, h2⟩ := ok_map_eq h; cases h2; exact hR.eval h1
  | .isIn _ _ _, _, _, _, h => by
    simp only [evalCond] at h; obtain ⟨⟨p, s1⟩, h1, h2⟩ := ok_map_eq h; cases h2; exact hR.eval h1
  | .and cs, _, _, _, h => by simp only [evalCond] at h; exact Closed.condAnd hR cs h
  | .or cs, _, _, _, h => by simp only [evalCond] at h; exact Closed.condOr hR cs h
  | .not [], _, _, _, h => by simp only [evalCond, evalNot] at h; cases h; exact hR.refl _
  | .not (c :: _), _, _, _, h => by
    simp only [evalCond, evalNot] at h; obtain ⟨⟨p, s1⟩, h1, h2⟩ := ok_map_eq h; cases h2; exact Closed.cond hR c h1
  | .unknown, _, _, _, h => by simp only [evalCond] at h; cases h; exact hR.refl _
theorem Closed.condAnd (hR : Closed v call R) : (cs : List Cond) → ∀ {s s' : S} {b : Bool}, evalAnd v cs s = .ok (b, s') → R s s'
  | [], _, _, _, h => by simp only [evalAnd] at h; cases h; exact hR.refl _
  | c :: cs, _, _, _, h => by
    simp only [evalAnd] at h
    obtain ⟨⟨p, s1⟩, h1, h⟩ := ok_bind_eq h
    dsimp only at h
    split at h
    · exact hR.trans (Closed.cond hR c h1) (Closed.condAnd hR cs h)
    · cases h; exact Closed.cond hR c h1
theorem Closed.condOr (hR : Closed v call R) : (cs : List Cond) → ∀ {s s' : S} {b : Bool}, evalOr v cs s = .ok (b, s') → R s s'
  | [], _, _, _, h => by simp only [evalOr] at h; cases h; exact hR.refl _
  | c :: cs, _, _, _, h => by
    simp only [evalOr] at h
    obtain ⟨⟨p, s1⟩, h1, h⟩ := ok_bind_eq h
    dsimp only at h
    split at h
    · cases h; exact Closed.cond hR c h1
    · exact hR.trans (Closed.cond hR c h1) (Closed.condOr hR cs h)
end

theorem Closed.test (hR : Closed v call R) (cs : List Cond) {s s' : S} {b : Bool} (h : evalTest v cs s = .ok (b, s')) : R s s' := by
  cases cs with
  | nil => simp only [evalTest] at h; cases h; exact hR.refl _
  | cons c cs => exact Closed.cond hR c h

mutual
theorem Closed.exec (hR : Closed v call R) : (i : Instr) → ∀ {s s' : S} {w : Int}, exec v call i s = .ok (w, s') → R s s'
  | .choose opts, _, _, _, h => by simp only [Verif.Transfer.exec] at h; exact Closed.choose hR opts h
  | .assign l r, _, _, _, h => by
    simp only [Verif.Transfer.exec] at h; obtain ⟨s1, h1, h2⟩ := ok_map_eq h; cases h2; exact hR.assign h1
  | .append n es, _, _, _, h => by
    simp only [Verif.Transfer.exec] at h; obtain ⟨s1, h1, h2⟩ := ok_map_eq h; cases h2; exact hR.append h1
  | .out es, _, _, _, h => by
    simp only [Verif.Transfer.exec] at h; obtain ⟨s1, h1, h2⟩ := ok_map_eq h; cases h2; exact hR.out h1
  | .callMacro n args, _, _, _, h => by
    simp only [Verif.Transfer.exec] at h; obtain ⟨s1, h1, h2⟩ := ok_map_eq h; cases h2; exact hR.call h1
  | .modifyCase l r, _, _, _, h => by
    simp only [Verif.Transfer.exec] at h; obtain ⟨s1, h1, h2⟩ := ok_map_eq h; cases h2; exact hR.modify h1
  | .reject sh, _, _, _, h => by simp only [Verif.Transfer.exec] at h; cases h; exact hR.refl _
  | .unknown, _, _, _, h => by simp only [Verif.Transfer.exec] at h; cases h; exact hR.refl _
theorem Closed.choose (hR : Closed v call R) : (os : List Opt) → ∀ {k : Int} {s s' : S} {w : Int},
    execChoose v call os k s = .ok (w, s') → R s s'
  | [], _, _, _, _, h => by simp only [execChoose] at h; cases h; exact hR.refl _
  | .when items :: opts, _, _, _, _, h => by
    simp only [execChoose] at h
    obtain ⟨⟨p, w1, s1⟩, h1, h⟩ := ok_bind_eq h
    dsimp only at h
    split at h
    · cases h; exact Closed.when hR items h1
    · exact hR.trans (Closed.when hR items h1) (Closed.choose hR opts h)
  | .otherwise body :: opts, _, _, _, _, h => by
    simp only [execChoose] at h
    obtain ⟨⟨w1, s1⟩, h1, h⟩ := ok_bind_eq h
    dsimp only at h
    split at h
    · cases h; exact Closed.block hR body h1
    · exact hR.trans (Closed.block hR body h1) (Closed.choose hR opts h)
  | .unknown :: opts, _, _, _, _, h => by simp only [execChoose] at h; exact Closed.choose hR opts h
theorem Closed.when (hR : Closed v call R) : (is : List WhenItem) → ∀ {p : Bool} {k : Int} {s s' : S} {p' : Bool} {w : Int},
    execWhen v call is p k s = .ok (p', w, s') → R s s'
  | [], _, _, _, _, _, _, h => by simp only [execWhen] at h; cases h; exact hR.refl _
  | .test cs :: items, _, _, _, _, _, _, h => by
    simp only [execWhen] at h
    obtain ⟨⟨b, s1⟩, h1, h⟩ := ok_bind_eq h
    dsimp only at h
    split at h
    · exact hR.trans (hR.test cs h1) (Closed.when hR items h)
    · cases h; exact hR.test cs h1
  | .instr i :: items, _, _, _, _, _, _, h => by
    simp only [execWhen] at h
    obtain ⟨⟨w1, s1⟩, h1, h⟩ := ok_bind_eq h
    dsimp only at h
    split at h
    · cases h; exact Closed.exec hR i h1
    · exact hR.trans (Closed.exec hR i h1) (Closed.when hR items h)
theorem Closed.block (hR : Closed v call R) : (is : List Instr) → ∀ {k : Int} {s s' : S} {w : Int},
    execBlock v call is k s = .ok (w, s') → R s s'
  | [], _, _, _, _, h => by simp only [execBlock] at h; cases h; exact hR.refl _
  | i :: is, _, _, _, _, h => by
    simp only [execBlock] at h
    obtain ⟨⟨w1, s1⟩, h1, h⟩ := ok_bind_eq h
    dsimp only at h
    split at h
    · cases h; exact Closed.exec hR i h1
    · exact hR.trans (Closed.exec hR i h1) (Closed.block hR is h)
end

theorem Closed.macroBody (hR : Closed v call R) (is : List Instr) {s s' : S} (h : execMacroBody v call is s = .ok s') : R s s' := by
  induction is generalizing s with
  | nil => simp only [execMacroBody] at h; cases h; exact hR.refl _
  | cons i is ih =>
    simp only [execMacroBody] at h
    obtain ⟨⟨w1, s1⟩, h1, h⟩ := ok_bind_eq h
    exact hR.trans (Closed.exec hR i h1) (ih h)

end Rel

/-! ## C15: blanks -/

/-- The blanks taken from the queue have been written, in order. -/
def BlankRel (s s' : TSt) : Prop :=
  s.inOut = false → s'.inOut = false ∧
    ∃ used o, s.blanks = used ++ s'.blanks ∧ s'.out = s.out ++ o ∧ InOrder used o

theorem BlankRel.refl (s : TSt) : BlankRel s s := fun h => ⟨h, [], [], by simp, by simp, trivial⟩

theorem BlankRel.trans {a b c : TSt} (h : BlankRel a b) (h' : BlankRel b c) : BlankRel a c := by
  intro ho
  obtain ⟨h1, u1, o1, e1, f1, i1⟩ := h ho
  obtain ⟨h2, u2, o2, e2, f2, i2⟩ := h' h1
  exact ⟨h2, u1 ++ u2, o1 ++ o2, by rw [e1, e2]; simp, by rw [f2, f1]; simp, i1.append i2⟩

/-- A change that touches neither blanks, output nor `in_out`. -/
theorem BlankRel.of_eq {s s' : TSt} (h1 : s'.blanks = s.blanks) (h2 : s'.out = s.out) (h3 : s'.inOut = s.inOut) :
    BlankRel s s' := fun h => ⟨by rw [h3, h], [], [], by simp [h1], by simp [h2], trivial⟩

theorem Facts.blankRel {s s' : TSt} {t : Text} (h : Facts s t s') : BlankRel s s' := by
  intro ho
  obtain ⟨used, e, _, f⟩ := h.blanks
  exact ⟨by rw [h.inOut, ho], [], [], by rw [e, f ho], by simp [h.out], trivial⟩

theorem outLoop_blanks {env : TEnv} : (es : List Expr) → ∀ {s s' : TSt}, outLoop env es s = .ok s' →
    ∃ used o, s.blanks = used ++ s'.blanks ∧ s'.out = s.out ++ o ∧ InOrder used o
  | [], s, s', h => by simp only [outLoop] at h; cases h; exact ⟨[], [], by simp, by simp, trivial⟩
  | e :: es, s, s', h => by
    simp only [outLoop] at h
    obtain ⟨⟨t, s1⟩, h1, h⟩ := ok_bind_eq h
    obtain ⟨u2, o2, e2, f2, i2⟩ := outLoop_blanks es h
    have F := evalExpr_facts env e h1
    obtain ⟨u1, e1, i1, _⟩ := F.blanks
    refine ⟨u1 ++ u2, t ++ o2, ?_, ?_, i1.append i2⟩
    · rw [e1]; simp only at e2; rw [e2]; simp
    · rw [f2]; simp [F.out]

theorem processOut_blanks {env : TEnv} {es : List Expr} {s s' : TSt} (h : processOut env es s = .ok s') :
    BlankRel s s' := by
  unfold processOut at h
  obtain ⟨s1, h1, rfl⟩ := ok_map_eq h
  intro _
  obtain ⟨u, o, e, f, i⟩ := outLoop_blanks es h1
  exact ⟨rfl, u, o, e, f, i⟩

theorem processLet_blanks {env : TEnv} {l r : Expr} {s s' : TSt} (h : processLet env l r s = .ok s') :
    BlankRel s s' := by
  unfold processLet at h
  split at h
  · obtain ⟨⟨t, s1⟩, h1, rfl⟩ := ok_map_eq h
    have F := (evalExpr_facts env r h1).blankRel
    intro ho
    exact F ho
  · split at h
    · cases h; exact BlankRel.refl _
    split at h
    · simp at h
    split at h
    · cases h; exact BlankRel.refl _
    · obtain ⟨⟨t, s1⟩, h1, h⟩ := ok_bind_eq h
      dsimp only at h
      split at h
      · simp at h
      · obtain ⟨w', _, rfl⟩ := ok_map_eq h
        have F := (evalExpr_facts env r h1).blankRel
        intro ho
        exact F ho
  · cases h; exact BlankRel.refl _

theorem processAppend_blanks {env : TEnv} {n : Text} : (es : List Expr) → ∀ {s s' : TSt},
    processAppend env n es s = .ok s' → BlankRel s s'
  | [], s, s', h => by simp only [processAppend] at h; cases h; exact BlankRel.refl _
  | e :: es, s, s', h => by
    simp only [processAppend] at h
    obtain ⟨⟨t, s1⟩, h1, h⟩ := ok_bind_eq h
    have F := (evalExpr_facts env e h1).blankRel
    have G := processAppend_blanks es h
    intro ho
    exact BlankRel.trans (a := s) (b := { s1 with vars := upd s1.vars n (s1.vars n ++ t), inLetVar := false })
      (fun h => F h) G ho

theorem processModify_blanks {env : TEnv} {l r : Expr} {s s' : TSt} (h : processModifyCase env l r s = .ok s') :
    BlankRel s s' := by
  unfold processModifyCase at h
  split at h
  · cases h; exact BlankRel.refl _
  split at h
  · split at h
    · simp at h
    · obtain ⟨⟨t, s1⟩, h1, h⟩ := ok_bind_eq h
      dsimp only at h
      split at h
      · simp at h
      · obtain ⟨w', _, rfl⟩ := ok_map_eq h
        have F := (evalExpr_facts env r h1).blankRel
        intro ho
        exact F ho
  · obtain ⟨⟨t, s1⟩, h1, rfl⟩ := ok_map_eq h
    have F := (evalExpr_facts env r h1).blankRel
    intro ho
    exact F ho
  · cases h; exact BlankRel.refl _

theorem blanks_closed (env : TEnv) (d : Nat) : Closed (virt env) (callMacro env d) BlankRel := by
  induction d with
  | zero =>
    exact ⟨BlankRel.refl, BlankRel.trans, fun h => (evalExpr_facts env _ h).blankRel, processLet_blanks,
      processAppend_blanks _, processOut_blanks, processModify_blanks, fun h => by simp [callMacro] at h⟩
  | succ d ih =>
    refine ⟨BlankRel.refl, BlankRel.trans, fun h => (evalExpr_facts env _ h).blankRel, processLet_blanks,
      processAppend_blanks _, processOut_blanks, processModify_blanks, ?_⟩
    intro n args s s' h
    have run : ∀ w s', ((execMacroBody (virt env) (callMacro env d) (env.macros n).2 { s with word := w }).map
        fun s' => { s' with word := s.word }) = .ok s' → BlankRel s s' := by
      intro w s' h
      obtain ⟨s1, h1, rfl⟩ := ok_map_eq h
      have := ih.macroBody _ h1
      intro ho
      exact this ho
    simp only [callMacro] at h
    split at h
    · exact run _ _ h
    split at h
    · split at h
      · simp at h
      · cases h; exact BlankRel.refl _
    · split at h
      · simp at h
      · exact run _ _ h

/-- C15: a rule run takes some of the blanks from the front of the queue; what it writes contains
them in order, and after it come all the others that are not a single space.  None is left. -/
theorem C15_blanks (env : TEnv) (d : Nat) (action : List Instr) (s s' : TSt) (w : Int) (ho : s.inOut = false)
    (h : processRule env d action s = .ok (w, s')) :
    ∃ used rest o, s.blanks = used ++ rest ∧ InOrder used o ∧
      s'.out = s.out ++ o ++ (rest.filter (· ≠ [' '])).flatten ∧ s'.blanks = [] := by
  unfold processRule at h
  obtain ⟨⟨w1, s1⟩, h1, h2⟩ := ok_map_eq h
  cases h2
  obtain ⟨_, used, o, e, f, i⟩ := (blanks_closed env d).block action h1 ho
  exact ⟨used, s1.blanks, o, e, i, by simp [f, flushBlanks], rfl⟩

/-- Non-vacuity of C15: a rule that swaps two words and puts the blank between them. -/
example : (processRule (exEnv 2) 0
    [.out [.lu [.simple (.clip 2 .tl t!"lem" true [])], .blank, .lu [.simple (.clip 1 .tl t!"lem" true [])]]] exState).map
      (fun p => (p.1, p.2.out)) = .ok (-1, t!"[[b]]^gran$[x][[a]]^gat$") := by decide +kernel

end Verif.Transfer
