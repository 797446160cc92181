import Verif.Tagger.LswProps
import Verif.Tagger.StreamExamples
/-!
# C51 on texts: inputs where the property fails
-/
namespace Verif.Tagger.Lsw
open Verif.Stream

/-- Nouns are more likely than verbs. -/
def exCube : Cube := fun _ m _ => if m = 1 then 2 else 1

/-- The text after the last word is not written. -/
theorem C51_tail_violation : tagText exCfg exCube false 0 false t!"a ^casa/casa<n>/casar<vb>$ ^x/x<vb>$ fin" =
    .ok t!"a ^casa<n>$ ^x<vb>$" := by decide +kernel

/-- A text without words is not written at all. -/
theorem C51_no_words_violation : tagText exCfg exCube false 0 false t!"fin" = .ok [] := by decide +kernel

/-- In null-flush mode the text after the last word of a request is written after the NUL that ends the reply. -/
theorem C51_flush_violation :
    tagText exCfg exCube true 0 false (t!"^x/x<vb>$ fin" ++ '\x00' :: t!"^y/y<n>$ end" ++ ['\x00']) =
      .ok (t!"^x<vb>$" ++ '\x00' :: t!" fin^y<n>$" ++ '\x00' :: t!" end" ++ ['\x00']) := by decide +kernel

/-- If the first request has no words, nothing is written for any request. -/
theorem C51_empty_request_violation :
    tagText exCfg exCube true 0 false (t!"fin" ++ '\x00' :: t!"^y/y<n>$ end" ++ ['\x00']) = .ok [] := by decide +kernel

/-- An unknown word has no tags (`LSWPoST::tagger` does not use the open class, unlike training): the first element of an empty
set is read. -/
theorem C51_unknown_violation : tagText exCfg exCube false 0 false t!"^xyz/*xyz$ ^y/y<n>$" = .ub := by decide +kernel

/-- the hypotheses of `C51_words_partial` are met by the words of a text -/
example : ∃ (items : List (Item Nat)) (out : List (Ev Nat)), items.length = 3 ∧ tagger exCube false 0 items = some out ∧
    evWords out = [(10, 1), (11, 2)] := by
  obtain ⟨out, ts, h1, _, h3, _⟩ := C51_words_partial exCube (by intro a b c; unfold exCube; split <;> decide) false 0
    [⟨10, [1, 2], false⟩, ⟨11, [2], false⟩, ⟨12, [5], true⟩] (by decide) (by simp) (by simp)
  refine ⟨_, out, rfl, h1, ?_⟩
  have : tagger exCube false 0 [⟨10, [1, 2], false⟩, ⟨11, [2], false⟩, ⟨12, [5], true⟩] =
      some [Ev.word 10 1, Ev.word 11 2] := by decide +kernel
  rw [this] at h1
  cases h1
  rfl

end Verif.Tagger.Lsw
