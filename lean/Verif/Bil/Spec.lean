import Verif.Chunk.Spec
import Verif.Bil.Model
/-!
# Specification: lexical units with translations
-/
namespace Verif.Bil
open Verif.Stream
open Verif.Chunk (Piece)

/-- `[[wb]]^source/target1/target2...`, as pieces. -/
structure Unit where
  wb : Option (List Atom)
  source : List Piece
  targets : List (List Piece)

def text (ps : List Piece) : Text := ps.flatMap Piece.render

def Unit.wbText (x : Unit) : Text :=
  match x.wb with
  | none => []
  | some b => '[' :: '[' :: renderAtoms b ++ [']', ']']

/-- Between `^` and `$`. -/
def Unit.body (x : Unit) : Text := text x.source ++ x.targets.flatMap fun t => '/' :: text t

/-- The token: the body; with a word-bound blank, that and `^` before it. -/
def Unit.token (x : Unit) : Text :=
  match x.wb with
  | none => x.body
  | some _ => x.wbText ++ '^' :: x.body

/-- The first translation, and the last if there are more. -/
def Unit.target (x : Unit) : List Piece := x.targets.head?.getD []
def Unit.reference (x : Unit) : List Piece := x.targets.tail.getLast?.getD []

/-- The characters with a meaning are escaped; a tag contains any characters but `>`, `\`, `[` (a `/` in a tag is no delimiter). -/
def PieceWf : Piece → Prop
  | .lit c => c ∉ ['\\', '[', '/', '<']
  | .esc _ => True
  | .tag n => ∀ c ∈ n, c ∉ ['>', '\\', '[']
  | .ref n => ∀ c ∈ n, c ∉ ['>', '\\', '[']

instance (p : Piece) : Decidable (PieceWf p) := by cases p <;> unfold PieceWf <;> infer_instance

structure Unit.wf (x : Unit) : Prop where
  wb : ∀ b, x.wb = some b → ∀ a ∈ b, a.wf ['[', ']']
  source : ∀ p ∈ x.source, PieceWf p
  targets : ∀ t ∈ x.targets, ∀ p ∈ t, PieceWf p

/-- What the pattern automaton should see of a piece: the characters in lower case, the tags. -/
def pieceStep (lower : Char → Char) : Piece → Step
  | .lit c => .char (lower c)
  | .esc c => .char (lower c)
  | .tag n => .tag (Chunk.tagText n)
  | .ref n => .tag (Chunk.tagText n)

end Verif.Bil
