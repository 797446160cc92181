import Verif.Postchunk.Props
import Verif.Whole.Violations
/-!
# C76: an example, and where the property fails
-/
namespace Verif.Postchunk
open Verif.Transfer
open Verif.Stream (Atom renderAtoms plainAtoms)
open Verif.Token (Part renderParts)
open Verif.Chunk (Uni Chunk Case ascii lits plits)
open Verif.Pattern (Trans Minimal exCats exA exB)

/-- `<lu><clip pos="k" part="lem"/></lu>` -/
def pcLu (k : Int) : Expr := .lu [.simple (.clip k .tl t!"lem" true [])]

/-- One rule: in chunks named `a`, two words are swapped. -/
def pcProgram : Whole.Program where
  cats := exCats
  rules := [([t!"A"], [.out [pcLu 2, .blank, pcLu 1]])]

theorem pcProgram_ok : Ok pcProgram where
  plain := Pattern.exCats_plain
  one := by
    intro rule hr
    simp only [pcProgram, List.mem_cons, List.not_mem_nil, or_false] at hr
    subst hr
    exact ⟨t!"A", [exA], rfl, (Pattern.lookupCat_iff _ _ _).1 rfl, by simp⟩
  keeps := by
    intro rule hr
    simp only [pcProgram, List.mem_cons, List.not_mem_nil, or_false] at hr
    subst hr; simp [Instr.keepsL, Instr.keeps]

/-- `a{^x$[;][[p]]^y$}` -/
def pcA : Chunk where
  lem := lits "a"
  tags := []
  lead := []
  words := [({ wb := none, pieces := plits "x" }, [.sup (lits ";")]), ({ wb := some (lits "p"), pieces := plits "y" }, [])]

/-- `C<n>{^z<1>$}` -/
def pcC : Chunk where
  lem := lits "C"
  tags := [t!"n"]
  lead := []
  words := [({ wb := none, pieces := plits "z" ++ [.ref t!"1"] }, [])]

theorem pcA_fine : Fine ascii id pcA where
  lem := by decide +kernel
  tags := by decide +kernel
  lead := rfl
  wblanks := by
    intro w hw b hb
    simp only [pcA, List.mem_cons, List.not_mem_nil, or_false] at hw
    rcases hw with rfl | rfl
    · cases hb
    · cases hb; exact ⟨by decide +kernel, by decide +kernel⟩
  words := by
    intro w hw
    simp only [pcA, List.mem_cons, List.not_mem_nil, or_false] at hw
    rcases hw with rfl | rfl
    · refine ⟨fun p hp => ?_, by decide +kernel⟩
      have : p = .lit 'x' := by simpa [plits] using hp
      subst this
      exact ⟨by decide, by decide⟩
    · refine ⟨fun p hp => ?_, by decide +kernel⟩
      have : p = .lit 'y' := by simpa [plits] using hp
      subst this
      exact ⟨by decide, by decide⟩
  closed := by intro x; simp [Chunk.Chunk.lastBlank, pcA]
  name := by decide +kernel

theorem pcC_fine : Fine ascii id pcC where
  lem := by decide +kernel
  tags := by decide +kernel
  lead := rfl
  wblanks := by
    intro w hw b hb
    simp only [pcC, List.mem_cons, List.not_mem_nil, or_false] at hw
    subst hw
    cases hb
  words := by
    intro w hw
    simp only [pcC, List.mem_cons, List.not_mem_nil, or_false] at hw
    subst hw
    refine ⟨fun p hp => ?_, by decide +kernel⟩
    have : p = .lit 'z' ∨ p = .ref t!"1" := by simpa [plits] using hp
    rcases this with rfl | rfl
    · exact ⟨by decide, by decide⟩
    · exact ⟨by decide +kernel, _, _, rfl, by decide +kernel⟩
  closed := by intro x; simp [Chunk.Chunk.lastBlank, pcC]
  name := by decide +kernel

/-- `(^a{^x$[;][[p]]^y$}$ ^C<n>{^z<1>$}$.` -/
def pcInput : PStream where
  lead := [.ch (.lit '(')]
  words := [(pcA, [.ch (.lit ' ')]), (pcC, [.ch (.lit '.')])]

theorem pcInput_fine : pcInput.Fine ascii id where
  lead := by decide +kernel
  words := by
    intro w hw
    simp only [pcInput, List.mem_cons, List.not_mem_nil, or_false] at hw
    rcases hw with rfl | rfl
    · exact ⟨pcA_fine, by decide +kernel⟩
    · exact ⟨pcC_fine, by decide +kernel⟩

theorem pcFits {c : Chunk} (j : Nat) : fits id pcProgram j c ↔ j = 0 ∧ plainAtoms c.lem = t!"a" := by
  have hid : ((plainAtoms c.lem).map id) = plainAtoms c.lem := List.map_id _
  constructor
  · rintro ⟨rule, h1, h2, h3⟩
    match j, h1 with
    | 0, h1 =>
      cases h1
      refine ⟨rfl, ?_⟩
      obtain ⟨is, h4, it, h5, h6⟩ := h3 0 (by simp) (by simp)
      have h4 : Pattern.lookupCat exCats t!"A" = some is := (Pattern.lookupCat_iff _ _ _).2 h4
      cases h4
      rw [List.mem_singleton.1 h5] at h6
      have h7 : Pattern.Glob (Pattern.lemmaPat t!"a") ((plainAtoms c.lem).map id) := h6.1
      rw [hid] at h7
      generalize plainAtoms c.lem = l at h7
      cases h7 with
      | one h => cases h with
        | nil => rfl
  · rintro ⟨rfl, h⟩
    refine ⟨_, rfl, rfl, fun i hi _ => ?_⟩
    have : i = 0 := by simpa using hi
    subst this
    refine ⟨[exA], (Pattern.lookupCat_iff _ _ _).1 rfl, exA, by simp, ?_⟩
    unfold Pattern.CatItem.Fits
    rw [if_neg (by simp [exA])]
    refine ⟨?_, rfl⟩
    simp only [List.getElem_cons_zero, h]
    exact Pattern.Glob.one Pattern.Glob.nil

theorem pcRule : ∃ n s, processRule (exEnv 0) 0 [.out [pcLu 2, .blank, pcLu 1]] (ruleState ascii pcA (startState fun _ => [])) = .ok (n, s) ∧ s.out = t!"[[p]]^y$[;]^x$" := by
  have h : (processRule (exEnv 0) 0 [.out [pcLu 2, .blank, pcLu 1]] (ruleState ascii pcA (startState fun _ => []))).map (fun x => x.2.out) =
      .ok t!"[[p]]^y$[;]^x$" := by decide +kernel
  obtain ⟨⟨n, s⟩, h1, h2⟩ := ok_map_eq h
  exact ⟨n, s, h1, h2⟩

theorem pcOutput : Output id ascii (exEnv 0) pcProgram (startState fun _ => []) pcInput.units t!"[[p]]^y$[;]^x$ ^Z<n>$." := by
  obtain ⟨n, s, h1, h2⟩ := pcRule
  have hw := Output.word (lower := id) (u := ascii) (env := exEnv 0) (p := pcProgram) (v := s.rest) (c := pcC) (b := t!".") (cs := []) (fun j hj => by
    have := ((pcFits j).1 hj).2
    exact absurd this (by decide +kernel)) .done
  have e : pcC.unfolded ascii (if (exEnv 0).dictCase then Case.aa else ascii.getcase (renderAtoms pcC.lem)) = t!"^Z<n>$" := by decide +kernel
  rw [e] at hw
  have hr := Output.rule (lower := id) (u := ascii) (env := exEnv 0) (p := pcProgram) (v := startState fun _ => []) (s := s) (c := pcA) (b := t!" ") (i := 0) (d := 0) (n := n)
    (rule := ([t!"A"], [.out [pcLu 2, .blank, pcLu 1]])) ((pcFits 0).2 ⟨rfl, by decide +kernel⟩) (fun j hj => by omega) rfl h1 hw
  rw [h2] at hr
  exact hr

/-- The hypotheses of C76 are met by this example. -/
example (minimize : Trans → Trans) (hm : ∀ t, Minimal t (minimize t)) :
    Runs minimize id ascii (exEnv 0) (fun _ => []) pcProgram t!"(^a{^x$[;][[p]]^y$}$ ^C<n>{^z<1>$}$." t!"([[p]]^y$[;]^x$ ^Z<n>$." := by
  have h := (C76_postchunk_partial minimize hm (by decide) (exEnv 0) (fun _ => []) pcProgram pcProgram_ok pcInput pcInput_fine _).2 ⟨_, rfl, pcOutput⟩
  have e1 : pcInput.render = t!"(^a{^x$[;][[p]]^y$}$ ^C<n>{^z<1>$}$." := by decide +kernel
  rw [e1] at h
  exact h

/-! ## Findings -/

/-- **Finding.** A word that is not a chunk (without braces) and that no rule matches is not written. -/
theorem C76_no_braces_violation (env : TEnv) : (actions ascii env 0 []).dflt t!"a<n>" = .ok [] := by
  cases h : env.dictCase <;> simp only [actions, h] <;> decide +kernel

/-- **Finding.** For a pattern of two chunks (which the DTD, but not the program, excludes) the words of the second chunk are lost. -/
theorem C76_two_chunks_violation :
    (applyRule ascii (exEnv 0) 0 [[.out [pcLu 1, pcLu 2]]] 1 [t!"a{^x$}", t!"b{^y$}"] [t!" "] 2 (startState fun _ => [])).map (fun x => x.2.1) = .ok t!"^x$" := by
  decide +kernel

/-- **Finding.** A macro without parameters, which apertium-transfer and apertium-interchunk call, ends apertium-postchunk. -/
theorem C76_macro_violation (env : TEnv) (d : Nat) (n : Text) (h : (env.macros n).1 = 0) (s : PSt) : callMacro env (d + 1) n [] s = .fail := by
  simp only [callMacro, if_pos h]

/-- **Finding.** A macro called with a position beyond the words of a chunk without words (`^x<x>{}$`) makes the program read after the end of the array of words: the check
that is meant for this case (postchunk.cc:430-433) takes word 1 instead. -/
theorem C76_empty_chunk_violation (env : TEnv) (d : Nat) (n : Text) (h : 0 < (env.macros n).1) (s : PSt) (i : Nat) (hs : s.word = [some i]) (pos : Int) (hp : pos > 0) :
    callMacro env (d + 1) n [pos] s = .ub := by
  have h0 : (env.macros n).1 ≠ 0 := by omega
  have h1 : ¬ [pos].length > (env.macros n).1 := by simp; omega
  have h2 : macroArgs [some i] [pos] = .ub := by
    simp only [macroArgs]
    rw [if_pos (Or.inl (by simpa using hp))]
    rfl
  simp only [callMacro, if_neg h0, if_neg h1, hs, h2]
  rfl

/-- **Finding.** An assignment to a part of a word beyond the words of the chunk is not ignored (as reading is) but is undefined behaviour. -/
theorem C76_assign_violation (env : TEnv) (s : PSt) (pos : Int) (hp : pos > s.lword) (hs : s.word ≠ []) (sd : Side) (part : Text) (q : Bool) (lt : Text) (r : Expr) :
    processLet env (.simple (.clip pos sd part q lt)) r s = .ub ∧ evalExpr env (.simple (.clip pos sd part q lt)) s = .ok ([], s) := by
  have h1 : s.word[pos.toNat]? = none := by
    rw [List.getElem?_eq_none_iff]
    have : 0 < s.word.length := List.length_pos_iff.2 hs
    unfold PSt.lword at hp
    omega
  have h0 : ¬ pos < 0 := by unfold PSt.lword at hp; omega
  constructor
  · simp only [processLet, PSt.wordRaw, if_neg h0, h1]
    rfl
  · simp only [evalExpr, evalSimple, PSt.wordAt, if_pos hp]
    rfl

/-! ## Null flush -/

/-- What is done before each part of the input in null flush mode (postchunk.cc:540). -/
def flush (defaults : Text → Text) (v : PSt) : PSt := { v with vars := defaults }

/-- A rule that keeps the lemma of the first word in a variable. -/
def pcKeep : List Instr := [.assign (.simple (.var t!"v")) (.simple (.clip 1 .tl t!"lem" true []))]
/-- A rule that writes the variable after the first lemma. -/
def pcUse : List Instr := [.out [.lu [.simple (.clip 1 .tl t!"lem" true []), .simple (.var t!"v")]]]

/-- **Finding.** As in apertium-transfer, in null flush mode the word-bound blank of a variable is kept from one part to the next, although the variables themselves are
reset. -/
theorem C46_postchunk_violation :
    ((applyRule ascii (exEnv 0) 0 [pcKeep, pcUse] 1 [t!"a{[[p]]^x$ ^y$}"] [[]] 1 (startState fun _ => [])).bind fun r =>
      (applyRule ascii (exEnv 0) 0 [pcKeep, pcUse] 2 [t!"b{^x$ ^y$}"] [[]] 1 (flush (fun _ => []) r.2.2)).map fun x => x.2.1) = .ok t!"[[p]]^x$" ∧
    ((applyRule ascii (exEnv 0) 0 [pcKeep, pcUse] 2 [t!"b{^x$ ^y$}"] [[]] 1 (startState fun _ => [])).map fun x => x.2.1) = .ok t!"^x$" := by decide +kernel

end Verif.Postchunk
