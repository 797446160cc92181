import Verif.Postchunk.Model
import Verif.Chunk.Props
import Verif.Whole.Spec
import Verif.Token.Spec
/-!
# C76: what apertium-postchunk should write

The words of the input are chunks `^name<tags>{content}$` (`Verif.Chunk.Spec`).  Each is given to the first rule whose pattern fits its name, or written as it is, word by word.
-/
namespace Verif.Postchunk
open Verif.Transfer
open Verif.Stream (Atom renderAtoms plainAtoms)
open Verif.Token (Part renderParts)
open Verif.Chunk (Uni Piece Blank renderBlanks Chunk Case)

/-! ## The input -/

/-- In a word inside a chunk, special characters are escaped (and upper case does not make one). -/
def PlainPiece (u : Uni) : Piece → Prop
  | .lit c => c ∉ ['\\', '<', '$', '{', '}', ']', '\x00'] ∧ u.toupper c ∉ ['\\', '{', ']', '\x00']
  | .esc c => c ≠ '\x00'
  | .tag n => (∀ c ∈ n, c ∉ ['>', '\\', '{', '}', ']', '\x00']) ∧ ∀ c ∈ n.head?, u.isdigit c = false
  | .ref d => (∀ c ∈ d, c ∉ ['>', '\\', '{', '}', ']', '\x00']) ∧ ∃ c r, d = c :: r ∧ u.isdigit c = true

/-- In what is between the words of a chunk, special characters are escaped. -/
def PlainBlank : Blank → Prop
  | .ch c => c ∉ ['\\', '^', '[', '}', '\x00']
  | .esc c => c ≠ '\x00'
  | .sup b => ∀ a ∈ b, a.wf ['[', ']', '}']

instance (b : Blank) : Decidable (PlainBlank b) := by cases b <;> unfold PlainBlank <;> infer_instance

/-- A chunk in which special characters are escaped, that begins with a word (C42) and does not end with a character outside words and superblanks (C41), in which no word-bound
blank ends with an escaped `]` (C42), and the name of which has no `$` (C72). -/
structure Fine (u : Uni) (lower : Char → Char) (c : Chunk) : Prop where
  lem : ∀ a ∈ c.lem, a.wf ['[', ']', '<', '^', '{', '$']
  tags : ∀ t ∈ c.tags, ∀ x ∈ t, x ∉ ['>', '{', '\\', '[', ']', '^', '$', '\x00']
  lead : c.lead = []
  wblanks : ∀ w ∈ c.words, ∀ b, w.1.wb = some b → (∀ a ∈ b, a.wf ['[', ']', '{', '}']) ∧ b.getLast? ≠ some (.esc ']')
  words : ∀ w ∈ c.words, (∀ p ∈ w.1.pieces, PlainPiece u p) ∧ ∀ b ∈ w.2, PlainBlank b
  closed : c.Closed
  name : '$' ∉ (plainAtoms c.lem).map lower

/-- An input: text, then chunks each with the text after it. -/
structure PStream where
  lead : List Part
  words : List (Chunk × List Part)

def PStream.render (s : PStream) : Text := renderParts s.lead ++ s.words.flatMap fun w => '^' :: w.1.render ++ '$' :: renderParts w.2

structure PStream.Fine (u : Uni) (lower : Char → Char) (s : PStream) : Prop where
  lead : ∀ p ∈ s.lead, p.wf
  words : ∀ w ∈ s.words, Postchunk.Fine u lower w.1 ∧ ∀ p ∈ w.2, p.wf

/-- The chunks, each with the text after it. -/
def PStream.units (s : PStream) : List (Chunk × Text) := s.words.map fun w => (w.1, renderParts w.2)

/-! ## The rules -/

/-- What is assumed of the rules file: categories as in C72, every pattern is one category (as `postchunk.dtd` demands), which is defined, and no rule rejects. -/
structure Ok (p : Whole.Program) : Prop where
  plain : ∀ c ∈ p.cats, ∀ i ∈ c.2, i.Plain
  one : ∀ rule ∈ p.rules, ∃ n is, rule.1 = [n] ∧ Pattern.Defined p.cats n is ∧ is ≠ []
  keeps : p.Keeps

/-- The pattern of rule `i` fits the name of the chunk, in lower case and without escapes. -/
def fits (lower : Char → Char) (p : Whole.Program) (i : Nat) (c : Chunk) : Prop :=
  ∃ rule : List Text × List Instr, p.rules[i]? = some rule ∧ Pattern.Fits p.cats rule.1 [⟨(plainAtoms c.lem).map lower, []⟩]

/-- The state in which a rule is run for the chunk: word 0 is the head of the chunk, then come its words with the references replaced and the case of the name transferred
(C42), each with its word-bound blank; the blanks are those between the words. -/
def ruleState (u : Uni) (c : Chunk) (v : PSt) : PSt :=
  { v with
    heap := ⟨c.head, [], []⟩ :: List.zipWith (fun w t => ⟨t, [], w.1.wbText⟩) c.words (c.wordTexts u (u.getcase (renderAtoms c.lem)))
    word := (List.range (c.words.length + 1)).map some
    blanks := c.words.dropLast.map fun w => renderBlanks w.2
    count := c.words.length
    out := [] }

/-- What is kept from one rule to the next. -/
def PSt.rest (s : PSt) : PSt := { s with heap := [], word := [], count := 0, out := [] }

/-- What should be written. -/
inductive Output (lower : Char → Char) (u : Uni) (env : TEnv) (p : Whole.Program) : PSt → List (Chunk × Text) → Text → Prop
  | done {v : PSt} : Output lower u env p v [] []
  | rule {v s : PSt} {c : Chunk} {b out : Text} {cs : List (Chunk × Text)} {i d : Nat} {n : Int} {rule : List Text × List Instr} :
      fits lower p i c → (∀ j, j < i → ¬ fits lower p j c) → p.rules[i]? = some rule → processRule env d rule.2 (ruleState u c v) = .ok (n, s) →
      Output lower u env p s.rest cs out → Output lower u env p v ((c, b) :: cs) (s.out ++ b ++ out)
  | word {v : PSt} {c : Chunk} {b out : Text} {cs : List (Chunk × Text)} :
      (∀ j, ¬ fits lower p j c) → Output lower u env p v cs out →
      Output lower u env p v ((c, b) :: cs) (c.unfolded u (if env.dictCase then Case.aa else u.getcase (renderAtoms c.lem)) ++ b ++ out)

end Verif.Postchunk
