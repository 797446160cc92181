import Verif.Whole.Props
import Verif.Pattern.Violations
/-!
# C74: an example, and where the property fails
-/
namespace Verif.Whole
open Verif.Transfer
open Verif.Bil (BilStream text)
open Verif.Token (Part renderParts)
open Verif.Chunk (Piece)
open Verif.Pattern (FirstRule FitsRead Trans Minimal exCats exA exB CatItem)

/-- `<lu><clip pos="k" side="tl" part="lem"/></lu>` -/
def exLu (k : Int) : Expr := .lu [.simple (.clip k .tl t!"lem" true [])]

/-- Two rules: `A`, which is translated by itself, and `A B`, which are swapped. -/
def exProgram : Program where
  cats := exCats
  rules := [([t!"A"], [.out [exLu 1]]), ([t!"A", t!"B"], [.out [exLu 2, .blank, exLu 1]])]

theorem exProgram_ok : exProgram.Ok where
  plain := Pattern.exCats_plain
  defined := by
    intro rule hr n hn
    simp only [exProgram, List.mem_cons, List.not_mem_nil, or_false] at hr
    have : n = t!"A" ∨ n = t!"B" := by
      rcases hr with rfl | rfl
      · exact Or.inl (by simpa using hn)
      · simpa using hn
    rcases this with rfl | rfl
    · exact ⟨[exA], (Pattern.lookupCat_iff _ _ _).1 rfl, by simp⟩
    · exact ⟨[exB], (Pattern.lookupCat_iff _ _ _).1 rfl, by simp⟩
  nonempty := by
    intro rule hr
    simp only [exProgram, List.mem_cons, List.not_mem_nil, or_false] at hr
    rcases hr with rfl | rfl <;> simp
  within := by
    intro rule hr
    simp only [exProgram, List.mem_cons, List.not_mem_nil, or_false] at hr
    rcases hr with rfl | rfl <;> simp [Instr.withinL, Instr.within, Expr.withinL, Expr.within, Simple.within, exLu]

theorem exProgram_keeps : exProgram.Keeps := by
  intro rule hr
  simp only [exProgram, List.mem_cons, List.not_mem_nil, or_false] at hr
  rcases hr with rfl | rfl <;> simp [Instr.keepsL, Instr.keeps]

def exUnitA : Bil.Unit := { wb := some [.lit 'p'], source := [.lit 'a'], targets := [[.lit 'x']] }
def exUnitB : Bil.Unit := { wb := none, source := [.lit 'b'], targets := [[.lit 'y']] }
def exUnitC : Bil.Unit := { wb := none, source := [.lit 'c'], targets := [[.lit 'z'], [.lit 't']] }

/-- `(^c/z/t$ [[p]]^a/x$;^b/y$.` -/
def exInput : BilStream where
  lead := [.ch (.lit '(')]
  words := [(exUnitC, [.ch (.lit ' ')]), (exUnitA, [.ch (.lit ';')]), (exUnitB, [.ch (.lit '.')])]

example : exInput.render = t!"(^c/z/t$ [[p]]^a/x$;^b/y$." := by decide +kernel

theorem exInput_fine : FineStream id exInput where
  lead := by decide +kernel
  words := by
    intro w hw
    simp only [exInput, List.mem_cons, List.not_mem_nil, or_false] at hw
    rcases hw with rfl | rfl | rfl
    · exact ⟨⟨by simp [exUnitC], by decide +kernel, by decide +kernel, by decide +kernel⟩, by decide +kernel⟩
    · refine ⟨⟨?_, by decide +kernel, by decide +kernel, by decide +kernel⟩, by decide +kernel⟩
      intro b hb
      simp only [exUnitA, Option.some.injEq] at hb
      subst hb
      exact ⟨by decide, by simp⟩
    · exact ⟨⟨by simp [exUnitB], by decide +kernel, by decide +kernel, by decide +kernel⟩, by decide +kernel⟩

theorem fitsUnits_length {lower : Char → Char} {p : Program} {ns : List Text} {ws : List (Bil.Unit × List Part)} (h : FitsUnits lower p ns ws) : ns.length = ws.length := by
  obtain ⟨es, h1, h2, _⟩ := h
  have := congrArg List.length h1
  simp only [List.length_map] at this
  omega

theorem exFits_a {c : Char} : FitsRead exCats [t!"A"] [[.char c]] → c = 'a' := by
  rintro ⟨es, h1, h2, h3⟩
  cases es with
  | nil => cases h1
  | cons w es =>
    simp only [List.map_cons, List.cons.injEq] at h1
    obtain ⟨is, h4, it, h5, h6⟩ := h3 0 (by simp) (by simp)
    have h4 : Pattern.lookupCat exCats t!"A" = some is := (Pattern.lookupCat_iff _ _ _).2 h4
    cases h4
    rw [List.mem_singleton.1 h5] at h6
    have h7 : Pattern.Glob (Pattern.lemmaPat t!"a") w.lem := h6.1
    have h8 : w.lem = ['a'] := by
      generalize w.lem = l at h7
      cases h7 with
      | one h => cases h with
        | nil => rfl
    have := h1.1
    unfold Pattern.Word.events at this
    rw [h8] at this
    simp at this
    exact this.1

theorem exRule : ∃ n s, processRule { exEnv 0 with lastLword := [(exUnitA, [Part.ch (.lit ';')])].length + 1 } 0 [.out [exLu 2, .blank, exLu 1]]
    (ruleState (startState fun _ => []) ([(exUnitA, [.ch (.lit ';')])] ++ [(exUnitB, [.ch (.lit '.')])])) = .ok (n, s) ∧ s.out = t!"^y$;[[p]]^x$" := by
  have h : (processRule { exEnv 0 with lastLword := [(exUnitA, [Part.ch (.lit ';')])].length + 1 } 0 [.out [exLu 2, .blank, exLu 1]]
    (ruleState (startState fun _ => []) ([(exUnitA, [.ch (.lit ';')])] ++ [(exUnitB, [.ch (.lit '.')])]))).map (fun x => x.2.out) = .ok t!"^y$;[[p]]^x$" := by
    decide +kernel
  obtain ⟨⟨n, s⟩, h1, h2⟩ := ok_map_eq h
  exact ⟨n, s, h1, h2⟩

/-- What the two rules make of the example. -/
theorem exTranslates : Translates id (exEnv 0) false exProgram (startState fun _ => []) exInput.words
    t!"^default<default>{^z$}$ ^y$;[[p]]^x$." := by
  have hab : FitsUnits id exProgram [t!"A", t!"B"] [(exUnitA, [.ch (.lit ';')]), (exUnitB, [.ch (.lit '.')])] := by
    refine ⟨[⟨['a'], []⟩, ⟨['b'], []⟩], rfl, rfl, ?_⟩
    intro i h h'
    match i, h with
    | 0, _ => exact ⟨[exA], (Pattern.lookupCat_iff _ _ _).1 rfl, exA, by simp, .one .nil, rfl⟩
    | 1, _ => exact ⟨[exB], (Pattern.lookupCat_iff _ _ _).1 rfl, exB, by simp, .one .nil, rfl⟩
  have hc : ∀ c, (c = exUnitC ∨ c = exUnitB) → ∀ b, ¬ FitsUnits id exProgram [t!"A"] [(c, b)] := by
    intro c hc b h
    rcases hc with rfl | rfl
    · exact absurd (exFits_a h) (by decide)
    · exact absurd (exFits_a h) (by decide)
  obtain ⟨n, s, h1, h2⟩ := exRule
  have hrule := Translates.rule (lower := id) (env := exEnv 0) (lu := false) (p := exProgram) (v := startState fun _ => [])
    (us := [(exUnitA, [.ch (.lit ';')])]) (u := (exUnitB, [.ch (.lit '.')])) (r := 2) (ws := []) (rule := ([t!"A", t!"B"], [.out [exLu 2, .blank, exLu 1]]))
    ⟨⟨1, _, rfl, rfl, hab⟩, ?_⟩ ?_ rfl h1 .done
  have key := Translates.word (lower := id) (env := exEnv 0) (lu := false) (p := exProgram) (v := startState fun _ => []) (u := (exUnitC, [.ch (.lit ' ')]))
    (ws := [(exUnitA, [.ch (.lit ';')]), (exUnitB, [.ch (.lit '.')])]) ?_ hrule
  · rw [h2] at key
    exact key
  · intro vs hvs rule hr hf
    simp only [exProgram, List.mem_cons, List.not_mem_nil, or_false] at hr
    rcases hr with rfl | rfl
    · have := fitsUnits_length hf
      cases vs with
      | nil => exact hc _ (Or.inl rfl) _ hf
      | cons w vs => simp at this
    · have := fitsUnits_length hf
      match vs, hvs, this with
      | [w], hvs, _ =>
        obtain ⟨r, hr⟩ := hvs
        simp only [List.cons_append, List.nil_append, List.cons.injEq] at hr
        obtain ⟨rfl, _⟩ := hr
        refine hc _ (Or.inl rfl) [] ?_
        obtain ⟨es, h3, h4, h5⟩ := hf
        match es, h3, h4 with
        | [w1, w2], h3, _ =>
          simp only [List.map_cons, List.cons.injEq] at h3
          refine ⟨[w1], by simp [h3.1], rfl, ?_⟩
          intro i hi _
          have : i = 0 := by simpa using hi
          subst this
          exact h5 0 (by simp) (by simp)
  · intro k rule hk hr hf
    have : k = 0 := by omega
    subst this
    cases hr
    exact absurd (fitsUnits_length hf) (by simp)
  · intro vs hvs hne
    exact absurd (List.prefix_nil.1 hvs) hne

/-- The hypotheses of C74 are met by this example. -/
example (minimize : Trans → Trans) (hm : ∀ t, Minimal t (minimize t)) :
    Runs minimize id (exEnv 0) false (fun _ => []) exProgram t!"(^c/z/t$ [[p]]^a/x$;^b/y$." t!"(^default<default>{^z$}$ ^y$;[[p]]^x$." := by
  have h := (C74_transfer_partial minimize hm (exEnv 0) false (fun _ => []) exProgram exProgram_ok exProgram_keeps exInput exInput_fine _).2
    ⟨_, rfl, exTranslates⟩
  have e1 : exInput.render = t!"(^c/z/t$ [[p]]^a/x$;^b/y$." := by decide +kernel
  rw [e1] at h
  exact h

/-! ## Positions after the pattern -/

/-- **Finding.** A rule whose positions go beyond its pattern does not get nothing for them, but the words that were read to see whether a longer pattern fits: the rule
`A` with `<clip pos="2">` writes nothing when it is the only one, and writes the next word when there is a rule `A B C` that did not fit. -/
theorem C74_position_violation :
    (applyRule (exEnv 0) 0 [[.out [exLu 2]]] 1 [t!"a/x"] [] 1 (startState fun _ => [])).map (fun x => x.2.1) = .ok [] ∧
    (applyRule (exEnv 0) 0 [[.out [exLu 2]]] 1 [t!"a/x", t!"b/y"] [t!" "] 1 (startState fun _ => [])).map (fun x => x.2.1) = .ok t!"^y$" := by decide +kernel

/-- **Finding.** A lexical unit without translation (`^a$`) that no rule matches is not written. -/
theorem C74_untranslated_violation : (actions (exEnv 0) 0 false []).dflt t!"a" = .ok [] := by decide +kernel

/-! ## Null flush -/

/-- `Transfer::tmp_clear` (transfer.cc:905-911): what is done before each part of the input in null flush mode. -/
def tmpClear (defaults : Text → Text) (v : TSt) : TSt := { v with vars := defaults }

/-- A rule that keeps the lemma of the first word in a variable. -/
def exKeep : List Instr := [.assign (.simple (.var t!"v")) (.simple (.clip 1 .tl t!"lem" true []))]
/-- A rule that writes the variable after the first lemma. -/
def exUse : List Instr := [.out [.lu [.simple (.clip 1 .tl t!"lem" true []), .simple (.var t!"v")]]]

/-- **Finding.** In null flush mode the word-bound blank of a variable is kept from one part to the next, although the variables themselves are reset: after the part
`[[p]]^a/x$ ^b/y$`, the part `^a/x$ ^b/y$` is written with the word-bound blank `[[p]]`; alone it is written without. -/
theorem C46_transfer_violation :
    ((applyRule (exEnv 0) 0 [exKeep, exUse] 1 [t!"[[p]]^a/x", t!"b/y"] [t!" "] 2 (startState fun _ => [])).bind fun r =>
      (applyRule (exEnv 0) 0 [exKeep, exUse] 2 [t!"a/x", t!"b/y"] [t!" "] 2 (tmpClear (fun _ => []) r.2.2)).map fun x => x.2.1) = .ok t!"[[p]]^x$" ∧
    ((applyRule (exEnv 0) 0 [exKeep, exUse] 2 [t!"a/x", t!"b/y"] [t!" "] 2 (startState fun _ => [])).map fun x => x.2.1) = .ok t!"^x$" := by decide +kernel

end Verif.Whole
