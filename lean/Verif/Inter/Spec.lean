import Verif.Inter.Model
import Verif.Inter.Engine
/-!
# C75: what apertium-interchunk should write

The words of the input are chunks `^head{content}$` (or words `^head$`); the order of things is that of `Rewrites` (`Verif.Inter.Engine`).
-/
namespace Verif.Inter
open Verif.Transfer
open Verif.Stream (Atom renderAtoms)
open Verif.Bil (text)
open Verif.Token (Part renderParts)
open Verif.Chunk (Piece)

/-- A chunk, or a word: the head (characters and tags), and what is in braces. -/
structure CWord where
  head : List Piece
  content : Option (List Atom)
  deriving DecidableEq, Repr

/-- The braces, with what is in them. -/
def CWord.inside (w : CWord) : Text :=
  match w.content with
  | none => []
  | some b => '{' :: renderAtoms b ++ ['}']

def CWord.text (w : CWord) : Text := Bil.text w.head ++ w.inside

/-- An input: text, then words each with the text after it. -/
structure CStream where
  lead : List Part
  words : List (CWord × List Part)

def CStream.render (s : CStream) : Text := renderParts s.lead ++ s.words.flatMap fun w => '^' :: w.1.text ++ '$' :: renderParts w.2

/-- In a head the characters that delimit things are escaped. -/
def HeadPiece : Piece → Prop
  | .lit c => c ∉ ['\\', '[', ']', '<', '^', '{', '$', '\x00']
  | .esc c => c ≠ '\x00'
  | .tag n => ∀ c ∈ n, c ∉ ['>', '\\', '[', ']', '^', '{', '$', '\x00']
  | .ref _ => False

instance (p : Piece) : Decidable (HeadPiece p) := by cases p <;> unfold HeadPiece <;> infer_instance

/-- Special characters are escaped; `}$` is not in the content; the head has no `$` (not even escaped) and no tag `<ANY_CHAR>` (C72). -/
structure CWord.Fine (lower : Char → Char) (w : CWord) : Prop where
  head : ∀ p ∈ w.head, HeadPiece p
  content : ∀ b, w.content = some b → (∀ a ∈ b, a.wf []) ∧ ∀ i, ¬ (b[i]? = some (.lit '}') ∧ b[i + 1]? = some (.lit '$'))
  read : .char '$' ∉ w.head.map (Bil.pieceStep lower) ∧ .tag t!"<ANY_CHAR>" ∉ w.head.map (Bil.pieceStep lower)

structure CStream.Fine (lower : Char → Char) (s : CStream) : Prop where
  lead : ∀ p ∈ s.lead, p.wf
  words : ∀ w ∈ s.words, w.1.Fine lower ∧ ∀ p ∈ w.2, p.wf

/-- The words, each with the text after it. -/
def CStream.units (s : CStream) : List (CWord × Text) := s.words.map fun w => (w.1, renderParts w.2)

/-- What a rule gets for a chunk: its head, and apart from that what is inside. -/
def CWord.chunk (w : CWord) : IWord where
  chunk := Bil.text w.head
  queue := w.inside
  wb := []

/-- The state in which the rule for the words `us` is run: it gets those words, the blanks between them and the variables. -/
def ruleState (vars : Text → Text) (us : List (CWord × Text)) : ISt where
  heap := us.map fun u => u.1.chunk
  word := (List.range us.length).map some
  vars := vars
  inOut := false
  blanks := us.dropLast.map (·.2)
  out := []

/-- The pattern of rule `i` fits the heads of the words. -/
def fits (lower : Char → Char) (p : Whole.Program) (i : Nat) (us : List CWord) : Prop :=
  ∃ rule, p.rules[i]? = some rule ∧ Pattern.FitsRead p.cats rule.1 (us.map fun u => u.head.map (Bil.pieceStep lower))

/-- Rule `i` with the words `us` writes `o` and leaves the variables `y`, with at most `d` nested calls. -/
def runRule (env : TEnv) (p : Whole.Program) (d i : Nat) (us : List (CWord × Text)) (x : Text → Text) (o : Text) (y : Text → Text) : Prop :=
  ∃ rule n s, p.rules[i]? = some rule ∧ processRule env d rule.2 (ruleState x us) = .ok (n, s) ∧ o = s.out ∧ y = s.vars

/-- What should be written. -/
abbrev Output (lower : Char → Char) (env : TEnv) (p : Whole.Program) : (Text → Text) → List (CWord × Text) → Text → Prop :=
  Rewrites (fits lower p) (fun i us x o y => ∃ d, runRule env p d i us x o y) (fun w => '^' :: w.text ++ ['$'])

end Verif.Inter
