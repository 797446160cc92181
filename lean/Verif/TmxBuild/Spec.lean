import Mathlib.Data.List.Forall2
import Verif.TmxBuild.Model
/-!
# C96: what the aligner should read and hand on

From the model only `isSpace` (which characters are white space?) is used.
-/
namespace Verif.TmxBuild

/-- Text of spaces and tabs. -/
def Blank (b : Text) : Prop := ∀ c ∈ b, c = ' ' ∨ c = '\t'

/-- `Spaced l ws`: the line `l` is made of the words `ws`, with spaces and tabs before, between and after them. -/
inductive Spaced : Text → List Text → Prop
  | nil (b : Text) : Blank b → Spaced b []
  | cons (b w r : Text) (ws : List Text) : Blank b → w ≠ [] → (∀ c ∈ w, isSpace c = false) → (r = [] ∨ r.head? = some ' ' ∨ r.head? = some '\t') → Spaced r ws →
      Spaced (b ++ w ++ r) (w :: ws)

/-- The words of a text: what is between white space. -/
def wordsOf (t : Text) : List Text := (t.splitOnP isSpace).filter fun w => decide (w ≠ [])

/-- The words of several sentences, with single spaces. -/
def plainText (l : List (List Text)) : Text := t!" ".intercalate (l.map fun ws => t!" ".intercalate ws)

/-- The pairs that come from lines of sentences: all of them with a left side (a pair whose left side is empty is left out only in the first line; the characters that end the
fields stay at the beginning of the next ones). -/
def expected : List (List (List Text) × List (List Text)) → List (Text × Text)
  | [] => []
  | l :: r => (if plainText l.1 = [] then [] else [(plainText l.1, '\t' :: plainText l.2)]) ++ r.map fun l => ('\n' :: plainText l.1, '\t' :: plainText l.2)

end Verif.TmxBuild
