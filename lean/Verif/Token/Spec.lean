import Verif.Stream.Grammar
import Verif.Transfer.LoopProps
import Verif.Token.Model
/-!
# Specification: streams of chunks and of lexical units
-/
namespace Verif.Token
open Verif.Stream
open Verif.Transfer (tokensOf)

/-- A part of the text between words: a character, or a superblank (which may contain anything but an unescaped `]`, so `[[..]]` is a
superblank and a `]`). -/
inductive Part where
  | ch (a : Atom)
  | sup (b : List Atom)
  deriving DecidableEq, Repr

def Part.render : Part → Text
  | .ch a => a.render
  | .sup b => '[' :: renderAtoms b ++ [']']

def renderParts (ps : List Part) : Text := ps.flatMap Part.render

/-- A chunk `^head{content}$`, or a word `^head$`. -/
structure IcWord where
  head : List Atom
  content : Option (List Atom)
  deriving DecidableEq, Repr

/-- What is between `^` and `$`. -/
def IcWord.text (w : IcWord) : Text :=
  renderAtoms w.head ++
    match w.content with
    | none => []
    | some b => '{' :: renderAtoms b ++ ['}']

/-- A stream: text, then words each with the text after it. -/
structure IcStream where
  lead : List Part
  words : List (IcWord × List Part)

def IcStream.render (s : IcStream) : Text :=
  renderParts s.lead ++ s.words.flatMap fun w => '^' :: w.1.text ++ '$' :: renderParts w.2

/-- In text, `[` and `^` are escaped, in a superblank `]`. -/
def Part.wf : Part → Prop
  | .ch a => a.wf ['[', '^']
  | .sup b => ∀ a ∈ b, a.wf [']']

instance (p : Part) : Decidable p.wf := by cases p <;> unfold Part.wf <;> infer_instance

/-- In the head the characters that delimit things are escaped; `}$` does not occur in the content. -/
def IcWord.wf (w : IcWord) : Prop :=
  (∀ a ∈ w.head, a.wf ['[', '^', '{', '$']) ∧
  ∀ b, w.content = some b → (∀ a ∈ b, a.wf []) ∧ ∀ i, ¬ (b[i]? = some (.lit '}') ∧ b[i + 1]? = some (.lit '$'))

structure IcStream.wf (s : IcStream) : Prop where
  lead : ∀ p ∈ s.lead, p.wf
  words : ∀ w ∈ s.words, w.1.wf ∧ ∀ p ∈ w.2, p.wf

/-- The words of the stream, each with the text after it. -/
def IcStream.units (s : IcStream) : List (Text × Text) := s.words.map fun w => (w.1.text, renderParts w.2)

/-- A lexical unit in the input of apertium-transfer: `^...$`, or `[[...]]^...$`. -/
structure TrWord where
  wb : Option (List Atom)
  text : List Atom
  deriving DecidableEq, Repr

def TrWord.render (w : TrWord) : Text :=
  match w.wb with
  | none => '^' :: renderAtoms w.text ++ ['$']
  | some b => '[' :: '[' :: renderAtoms b ++ ']' :: ']' :: '^' :: renderAtoms w.text ++ ['$']

/-- What transfer gets: without `^` and `$`, but with the word-bound blank and the `^` after it. -/
def TrWord.token (w : TrWord) : Text :=
  match w.wb with
  | none => renderAtoms w.text
  | some b => '[' :: '[' :: renderAtoms b ++ ']' :: ']' :: '^' :: renderAtoms w.text

structure TrStream where
  lead : List Part
  words : List (TrWord × List Part)

def TrStream.render (s : TrStream) : Text :=
  renderParts s.lead ++ s.words.flatMap fun w => w.1.render ++ renderParts w.2

def TrStream.units (s : TrStream) : List (Text × Text) := s.words.map fun w => (w.1.token, renderParts w.2)

/-- Between words `[`, `^`, `$` are escaped, in a superblank `[` and `]`. -/
def Part.trWf : Part → Prop
  | .ch a => a.wf ['[', '^', '$']
  | .sup b => ∀ a ∈ b, a.wf ['[', ']']

instance (p : Part) : Decidable p.trWf := by cases p <;> unfold Part.trWf <;> infer_instance

/-- `[`, `^`, `$` are escaped in a word without word-bound blank; otherwise `$`. -/
def TrWord.wf (w : TrWord) : Prop :=
  match w.wb with
  | none => ∀ a ∈ w.text, a.wf ['[', '^', '$']
  | some b => (∀ a ∈ b, a.wf ['$']) ∧ ∀ a ∈ w.text, a.wf ['$']

structure TrStream.wf (s : TrStream) : Prop where
  lead : ∀ p ∈ s.lead, p.trWf
  words : ∀ w ∈ s.words, w.1.wf ∧ ∀ p ∈ w.2, p.trWf

/-- No word-bound blank begins with an escaped character. -/
def TrStream.PlainStart (s : TrStream) : Prop := ∀ w ∈ s.words, ∀ b, w.1.wb = some b → ∀ c, b.head? ≠ some (.esc c)

end Verif.Token
