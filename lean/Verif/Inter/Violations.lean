import Verif.Inter.Props
import Verif.Whole.Violations
/-!
# C75: an example, and where the property fails
-/
namespace Verif.Inter
open Verif.Transfer
open Verif.Bil (text)
open Verif.Token (Part renderParts)
open Verif.Chunk (Piece)
open Verif.Pattern (FitsRead Trans Minimal exCats exA exB CatItem)

/-- As `exEnv`, with `whole` (`(.+)`) and `content` (`(\{.+)`, transfer_data.cc:46-54), and a macro `m` with two parameters that writes the second. -/
def icEnv : TEnv :=
  { exEnv 0 with
    attr n := if n = t!"lem" then lemRe else if n = t!"whole" then ⟨fun t => if t = [] then none else some (0, t.length)⟩
      else if n = t!"content" then ⟨fun t => if (t.takeWhile (· ≠ '{')).length + 1 < t.length then some ((t.takeWhile (· ≠ '{')).length, t.length) else none⟩
      else ⟨fun _ => none⟩
    macros _ := (2, [.out [.chunk [] [] [] [.simple (.clip 2 .tl t!"lem" true [])]]]) }

/-- `<clip pos="k" part="whole"/>`, in a chunk -/
def icWhole (k : Int) : Expr := .chunk [] [] [] [.simple (.clip k .tl t!"whole" true [])]

/-- One rule: `A B` are swapped. -/
def icProgram : Whole.Program where
  cats := exCats
  rules := [([t!"A", t!"B"], [.out [icWhole 2, .blank, icWhole 1]])]

theorem icProgram_ok : icProgram.Ok where
  plain := Pattern.exCats_plain
  defined := by
    intro rule hr n hn
    simp only [icProgram, List.mem_cons, List.not_mem_nil, or_false] at hr
    subst hr
    have : n = t!"A" ∨ n = t!"B" := by simpa using hn
    rcases this with rfl | rfl
    · exact ⟨[exA], (Pattern.lookupCat_iff _ _ _).1 rfl, by simp⟩
    · exact ⟨[exB], (Pattern.lookupCat_iff _ _ _).1 rfl, by simp⟩
  nonempty := by
    intro rule hr
    simp only [icProgram, List.mem_cons, List.not_mem_nil, or_false] at hr
    subst hr; simp
  within := by
    intro rule hr
    simp only [icProgram, List.mem_cons, List.not_mem_nil, or_false] at hr
    subst hr
    simp [Instr.withinL, Instr.within, Expr.withinL, Expr.within, Simple.within, icWhole]

theorem icProgram_keeps : icProgram.Keeps := by
  intro rule hr
  simp only [icProgram, List.mem_cons, List.not_mem_nil, or_false] at hr
  subst hr; simp [Instr.keepsL, Instr.keeps]

def icA : CWord := { head := [.lit 'a'], content := some [.lit '^', .lit 'x', .lit '$'] }
def icB : CWord := { head := [.lit 'b'], content := some [.lit '^', .lit 'y', .lit '$', .esc '}'] }
def icC : CWord := { head := [.lit 'c', .tag t!"n"], content := none }

/-- `(^c<n>$ ^a{^x$}$;^b{^y$\}}$.` -/
def icInput : CStream where
  lead := [.ch (.lit '(')]
  words := [(icC, [.ch (.lit ' ')]), (icA, [.ch (.lit ';')]), (icB, [.ch (.lit '.')])]

theorem icFine (w : CWord) (h : w = icA ∨ w = icB ∨ w = icC) : w.Fine id := by
  rcases h with rfl | rfl | rfl
  · refine ⟨by decide +kernel, ?_, by decide +kernel⟩
    rintro b hb
    cases hb
    refine ⟨by decide +kernel, fun i => ?_⟩
    rintro ⟨h1, h2⟩
    match i, h1 with
    | 0, h1 => cases h1
    | 1, h1 => cases h1
    | 2, h1 => cases h1
  · refine ⟨by decide +kernel, ?_, by decide +kernel⟩
    rintro b hb
    cases hb
    refine ⟨by decide +kernel, fun i => ?_⟩
    rintro ⟨h1, h2⟩
    match i, h1 with
    | 0, h1 => cases h1
    | 1, h1 => cases h1
    | 2, h1 => cases h1
    | 3, h1 => cases h1
  · exact ⟨by decide +kernel, (by intro b hb; cases hb), by decide +kernel⟩

theorem icInput_fine : icInput.Fine id where
  lead := by decide +kernel
  words := by
    intro w hw
    simp only [icInput, List.mem_cons, List.not_mem_nil, or_false] at hw
    rcases hw with rfl | rfl | rfl
    · exact ⟨icFine _ (by simp), by decide +kernel⟩
    · exact ⟨icFine _ (by simp), by decide +kernel⟩
    · exact ⟨icFine _ (by simp), by decide +kernel⟩

theorem icFits {j : Nat} {us : List CWord} (h : fits id icProgram j us) :
    j = 0 ∧ ∃ u v, us = [u, v] ∧ FitsRead exCats [t!"A"] [u.head.map (Bil.pieceStep id)] := by
  obtain ⟨rule, h1, ws, h2, h3, h4⟩ := h
  match j, h1 with
  | 0, h1 =>
    cases h1
    refine ⟨rfl, ?_⟩
    have hl := congrArg List.length h2
    simp only [List.length_map] at hl
    have h3 : 2 = ws.length := h3
    match ws, h3 with
    | [w1, w2], _ =>
      obtain ⟨u, v, rfl⟩ : ∃ u v, us = [u, v] := by
        match us, hl with
        | [u, v], _ => exact ⟨u, v, rfl⟩
      simp only [List.map_cons, List.map_nil, List.cons.injEq] at h2
      refine ⟨u, v, rfl, [w1], by simp [h2.1], rfl, ?_⟩
      intro i hi _
      have : i = 0 := by simpa using hi
      subst this
      exact h4 0 (by simp) (by simp)

theorem icRule : ∃ y, runRule icEnv icProgram 0 0 ([(icA, t!";")] ++ [(icB, t!".")]) (fun _ => []) t!"^b{^y$\\}}$;^a{^x$}$" y := by
  have h : (processRule icEnv 0 [.out [icWhole 2, .blank, icWhole 1]] (ruleState (fun _ => []) ([(icA, t!";")] ++ [(icB, t!".")]))).map (fun x => x.2.out) =
      .ok t!"^b{^y$\\}}$;^a{^x$}$" := by decide +kernel
  obtain ⟨⟨n, s⟩, h1, h2⟩ := ok_map_eq h
  exact ⟨s.vars, _, n, s, rfl, h1, h2.symm, rfl⟩

/-- What the rule makes of the example. -/
theorem icOutput : Output id icEnv icProgram (fun _ => []) icInput.units t!"^c<n>$ ^b{^y$\\}}$;^a{^x$}$." := by
  obtain ⟨y, hy⟩ := icRule
  have h2 : fits id icProgram 0 [icA, icB] := by
    refine ⟨_, rfl, [⟨['a'], []⟩, ⟨['b'], []⟩], rfl, rfl, ?_⟩
    intro i h h'
    match i, h with
    | 0, _ => exact ⟨[exA], (Pattern.lookupCat_iff _ _ _).1 rfl, exA, by simp, .one .nil, rfl⟩
    | 1, _ => exact ⟨[exB], (Pattern.lookupCat_iff _ _ _).1 rfl, exB, by simp, .one .nil, rfl⟩
  have h3 := Rewrites.rule (fits := fits id icProgram) (run := fun i us x o y => ∃ d, runRule icEnv icProgram d i us x o y) (dflt := fun w => '^' :: w.text ++ ['$'])
    (x := fun _ => []) (us := [(icA, t!";")]) (u := (icB, t!".")) (ws := []) h2 (fun j hj => absurd hj (Nat.not_lt_zero j))
    (fun vs hvs hne => absurd (List.prefix_nil.1 hvs) hne) ⟨0, hy⟩ .done
  have h4 := Rewrites.word (fits := fits id icProgram) (dflt := fun w => '^' :: w.text ++ ['$']) (u := (icC, t!" ")) (fun vs hvs j hf => by
    obtain ⟨_, u, v, h5, h6⟩ := icFits hf
    simp only [List.map_cons, List.cons.injEq] at h5
    rw [← h5.1] at h6
    obtain ⟨es, h7, _, h8⟩ := h6
    obtain ⟨is, h9, it, h10, h11⟩ := h8 0 (by simp) (by cases es with | nil => cases h7 | cons a b => simp)
    have h9 : Pattern.lookupCat exCats t!"A" = some is := (Pattern.lookupCat_iff _ _ _).2 h9
    cases h9
    rw [List.mem_singleton.1 h10] at h11
    cases es with
    | nil => cases h7
    | cons w es =>
      have h12 : Pattern.Glob (Pattern.lemmaPat t!"a") w.lem := h11.1
      have h13 : w.lem = ['a'] := by
        generalize w.lem = l at h12
        cases h12 with
        | one h => cases h with
          | nil => rfl
      simp only [List.map_cons, List.cons.injEq] at h7
      have h7 := h7.1
      unfold Pattern.Word.events at h7
      rw [h13] at h7
      simp [icC, Bil.pieceStep] at h7) h3
  exact h4

/-- The hypotheses of C75 are met by this example. -/
example (minimize : Trans → Trans) (hm : ∀ t, Minimal t (minimize t)) :
    Runs minimize id icEnv (fun _ => []) icProgram t!"(^c<n>$ ^a{^x$}$;^b{^y$\\}}$." t!"(^c<n>$ ^b{^y$\\}}$;^a{^x$}$." := by
  have h := (C75_interchunk_partial minimize hm icEnv (fun _ => []) icProgram icProgram_ok icProgram_keeps icInput icInput_fine _).2 ⟨_, rfl, icOutput⟩
  have e1 : icInput.render = t!"(^c<n>$ ^a{^x$}$;^b{^y$\\}}$." := by decide +kernel
  rw [e1] at h
  exact h

/-! ## Where it fails -/

/-- **Finding.** As in apertium-transfer (C74), a rule whose positions go beyond its pattern gets the words that were read to see whether a longer pattern fits. -/
theorem C75_position_violation :
    (applyRule icEnv 0 [[.out [icWhole 2]]] 1 [t!"a{}"] [] 1 (startState fun _ => [])).map (fun x => x.2.1) = .ok t!"^$" ∧
    (applyRule icEnv 0 [[.out [icWhole 2]]] 1 [t!"a{}", t!"b{}"] [t!" "] 1 (startState fun _ => [])).map (fun x => x.2.1) = .ok t!"^b{}$" := by decide +kernel

/-- **Finding.** `<clip part="content">` of a word without braces ends the program (an exception of `substr`). -/
theorem C75_no_content_violation :
    (applyRule icEnv 0 [[.out [.simple (.clip 1 .tl t!"content" true [])]]] 1 [t!"a"] [] 1 (startState fun _ => [])).map (fun x => x.2.1) = .fail ∧
    (applyRule icEnv 0 [[.out [.simple (.clip 1 .tl t!"content" true [])]]] 1 [t!"a{^x$}"] [] 1 (startState fun _ => [])).map (fun x => x.2.1) = .ok t!"^x$" := by decide +kernel

/-- **Finding.** The lemma of a chunk without tags contains what is inside the chunk. -/
theorem C75_lemma_violation :
    (applyRule icEnv 0 [[.out [.simple (.clip 1 .tl t!"lem" true [])]]] 1 [t!"a{^x$}"] [] 1 (startState fun _ => [])).map (fun x => x.2.1) = .ok t!"a{^x$}" ∧
    (applyRule icEnv 0 [[.out [.simple (.clip 1 .tl t!"lem" true [])]]] 1 [t!"a<n>{^x$}"] [] 1 (startState fun _ => [])).map (fun x => x.2.1) = .ok t!"a" := by decide +kernel

/-- **Finding.** `<let>` and `<modify-case>` do not check the position, and `<call-macro>` does not check the number of arguments: each of these rules makes the program
read or write outside an array (undefined behaviour), where `<clip>` only warns. -/
theorem C75_unchecked_violation :
    (applyRule icEnv 0 [[.assign (.simple (.clip 2 .tl t!"lem" true [])) (.simple (.lit t!"x"))]] 1 [t!"a"] [] 1 (startState fun _ => [])).map (fun x => x.2.1) = .ub ∧
    (applyRule icEnv 0 [[.modifyCase (.simple (.clip 2 .tl t!"lem" true [])) (.simple (.lit t!"x"))]] 1 [t!"a"] [] 1 (startState fun _ => [])).map (fun x => x.2.1) = .ub ∧
    (applyRule icEnv 1 [[.callMacro t!"m" [1]]] 1 [t!"a"] [] 1 (startState fun _ => [])).map (fun x => x.2.1) = .ub ∧
    (applyRule icEnv 1 [[.callMacro t!"m" [1, 1, 1]]] 1 [t!"a"] [] 1 (startState fun _ => [])).map (fun x => x.2.1) = .ub ∧
    (applyRule icEnv 1 [[.callMacro t!"m" [1, 1]]] 1 [t!"a<n>"] [] 1 (startState fun _ => [])).map (fun x => x.2.1) = .ok t!"^a$" ∧
    (applyRule icEnv 0 [[.out [.simple (.clip 2 .tl t!"lem" true [])]]] 1 [t!"a"] [] 1 (startState fun _ => [])).map (fun x => x.2.1) = .ok [] := by decide +kernel

/-- **Finding.** `<lu-count>`, `<lu>` and `<mlu>` in a rule of apertium-interchunk end the program at the first chunk that the rule matches, not when the rules are loaded. -/
theorem C75_lu_violation :
    (applyRule icEnv 0 [[.out [.luCount]]] 1 [t!"a"] [] 1 (startState fun _ => [])).map (fun x => x.2.1) = .fail ∧
    (applyRule icEnv 0 [[.out [.lu [.simple (.lit t!"x")]]]] 1 [t!"a"] [] 1 (startState fun _ => [])).map (fun x => x.2.1) = .fail := by decide +kernel

end Verif.Inter
