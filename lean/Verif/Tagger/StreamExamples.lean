import Verif.Tagger.StreamProps
/-!
# C20 on texts: a case that meets the hypotheses, and inputs where the property fails
-/
namespace Verif.Tagger
open Verif.Stream

/-- A recogniser like those of small tagger definitions: nouns 1, verbs 2, pronouns 3; a `+` after a tag is not
part of any pattern. -/
def exMatcher : PMatcher where
  S := Text
  init := []
  char s c := s ++ [c]
  tag s t := s ++ t
  dead s := t!">+".isSuffixOf s
  fin s := if t!"<n>".isSuffixOf s = true then some 1 else if t!"<vb>".isSuffixOf s = true then some 2
    else if t!"<prn>".isSuffixOf s = true then some 3 else none

/-- coarse tags: 0 end of sentence, 4 undefined, 5 end of file -/
def exCfg : MCfg := { m := exMatcher, keof := 5, kundef := 4, pref := fun _ => false }

def exTD2 : TD := ⟨[1, 2], Coll.ofList [[1, 2], [0], [1], [2], [3], [4], [5]]⟩

/-- Nouns are more likely than verbs. -/
def exParams2 : Params Nat where
  A _ j := if j = 1 then 3 else 1
  B _ _ := 1
  eos := 0

def lits (t : Text) : List Atom := t.map .lit

/-- two requests: an ambiguous word after a superblank with escapes, an unknown word, and a word whose only
analysis has no coarse tag -/
def exReqs : List TReq :=
  [{ lus := [⟨lits t!"[<b>] " ++ [.esc '^'], lits t!"casa", [lits t!"casa<n>", lits t!"casar<vb>"]⟩,
             ⟨lits t!" ", lits t!"xyz", [lits t!"*xyz"]⟩], tail := lits t!" fin" },
   { lus := [⟨[], lits t!"y", [lits t!"y<cnj>"]⟩], tail := [] }]

theorem exTD2_model : exTD2.Model 5 :=
  ⟨Coll.WF.ofList _, by decide, by decide, by decide +kernel, by decide, by decide +kernel⟩

theorem exReqs_wf : ∀ r ∈ exReqs, r.Wf exCfg := by
  intro r hr
  simp only [exReqs, List.mem_cons, List.not_mem_nil, or_false] at hr
  rcases hr with rfl | rfl
  · refine ⟨?_, by decide⟩
    intro l hl
    simp only [List.mem_cons, List.not_mem_nil, or_false] at hl
    rcases hl with rfl | rfl
    · refine ⟨by decide, by decide, by decide, by simp, .inr ?_⟩
      intro x hx
      simp only [List.mem_cons, List.not_mem_nil, or_false] at hx
      rcases hx with rfl | rfl
      · exact ⟨by decide, .inr (by decide), by decide +kernel⟩
      · exact ⟨by decide, .inr (by decide), by decide +kernel⟩
    · exact ⟨by decide, by decide, by decide, by simp, .inl ⟨lits t!"xyz", rfl⟩⟩
  · refine ⟨?_, by decide⟩
    intro l hl
    simp only [List.mem_cons, List.not_mem_nil, or_false] at hl
    subst hl
    refine ⟨by decide, by decide, by decide, by simp, .inr ?_⟩
    intro x hx
    simp only [List.mem_cons, List.not_mem_nil, or_false] at hx
    subst hx
    exact ⟨by decide, .inr (by decide), by decide +kernel⟩

theorem discOk_id : DiscOk id := fun _ h1 h2 => ⟨h1, h2, List.Sublist.refl _, rfl, rfl, rfl, rfl⟩

/-- the hypotheses of `C20_stream` are met by this case -/
example : ∃ out, tagText exCfg exParams2 true id exTD2 (·.lexicalForm false 5) (renderReqs exReqs) = .ok out ∧
    ReqsOk false true exReqs out :=
  C20_stream exCfg exParams2 true false id exTD2 exReqs exReqs_wf (by simp [exReqs]) (.inl rfl) discOk_id exTD2_model

example := C19_stream exCfg exParams2 true false exTD2 exReqs exReqs_wf (by simp [exReqs]) (.inl rfl) exTD2_model

example : tagText exCfg exParams2 true id exTD2 (·.lexicalForm false 5) (renderReqs exReqs) =
    .ok (t!"[<b>] \\^^casa<n>$ ^*xyz$ fin" ++ '\x00' :: t!"^y<cnj>$" ++ ['\x00']) := by decide +kernel

/-- Multiwords: when an analysis is cut at `+` into two words and the tag of another analysis is chosen for the
first, the second is written all the same: the output is not an analysis of the word. -/
theorem C20_multiword_violation :
    ∃ (l : TLu), l.ans = [lits t!"dar<vb>+me<prn>", lits t!"damelo<n>"] ∧
      ∃ out, tagText exCfg exParams2 false id exTD2 (·.lexicalForm false 5) (renderReqs [⟨[l], []⟩]) = .ok out ∧
        out = t!"^damelo<n>+me<prn>$" ∧ ∀ x ∈ l.ans, out ≠ '^' :: renderAtoms x ++ ['$'] :=
  ⟨⟨[], lits t!"damelo", [lits t!"dar<vb>+me<prn>", lits t!"damelo<n>"]⟩, rfl, _, by decide +kernel, rfl,
    by decide +kernel⟩

/-- A lexical unit without analyses: what follows is read as its analyses. -/
theorem C20_no_analysis_violation :
    tagText exCfg exParams2 false id exTD2 (·.lexicalForm false 5) t!"^a$ b ^c/c<n>$ d" =
      .ok t!"$^c<n>$ d" := by decide +kernel

/-- Input that ends inside a lexical unit: its text is lost if it is ambiguous. -/
theorem C20_truncated_violation :
    tagText exCfg exParams2 false id exTD2 (·.lexicalForm false 5) t!"a ^casa/casa<n>/casar<vb>" = .ok [] := by
  decide +kernel

/-- A recogniser with a longer pattern that continues after `+z`. -/
def exCfg2 : MCfg :=
  { exCfg with m := { exMatcher with dead := fun s => t!">+b".isSuffixOf s || t!">+c".isSuffixOf s } }

/-- The undo branch of the reader (file_morpho_stream.cc:268-276) assumes that the word being undone is the last
one.  After another analysis of the same lexical unit with three parts it is not: the branch deletes a word that
stays in use, undefined behaviour. -/
theorem C20_undo_violation :
    tagText exCfg2 exParams2 false id exTD2 (·.lexicalForm false 5)
      t!"^x/a<vb>+b<prn>+c<prn>/a<vb>+zz$" = .ub := by decide +kernel

end Verif.Tagger
