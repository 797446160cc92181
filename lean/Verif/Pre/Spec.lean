import Verif.Stream.Grammar
/-!
# Specification side of the pretransfer properties
-/
namespace Verif.Pre
open Verif.Stream

/-- Items of a stream in which a word-bound blank always belongs to the lexical unit that follows.
`β` is the type of what is between `^` and `$`. -/
inductive PItem (β : Type) where
  | txt (a : Atom)
  | blank (b : List Atom)
  | word (wb : Option (List Atom)) (b : β)
  | nul

/-- The text `[[..]]` of an optional word-bound blank. -/
def wbText : Option (List Atom) → Text
  | none => []
  | some w => '[' :: '[' :: renderAtoms w ++ [']', ']']

/-- The text of a stream, when `f wb b` is the text between `^` and `$`. -/
def PItem.render {β : Type} (f : Option (List Atom) → β → Text) : PItem β → Text
  | .txt a => a.render
  | .blank b => '[' :: renderAtoms b ++ [']']
  | .word wb b => wbText wb ++ '^' :: f wb b ++ ['$']
  | .nul => ['\x00']

def renderP {β : Type} (f : Option (List Atom) → β → Text) (is : List (PItem β)) : Text :=
  is.flatMap (PItem.render f)

/-- Well-formedness of the items; `ok` says which word bodies are allowed. -/
def PItem.wf {β : Type} (ok : β → Prop) : PItem β → Prop
  | .txt a => a.wf ['[', '^', '$']
  | .blank b => ∀ a ∈ b, a.wf ['[', ']']
  | .word wb b => (∀ w, wb = some w → ∀ a ∈ w, a.wf ['[', ']']) ∧ ok b
  | .nul => True

/-! ## Multiwords -/

/-- A part of a multiword: lemma, tags (without `<` `>`), and the invariable queue (without `#`). -/
structure Part where
  lemma : Text
  tags : List Text
  queue : Option Text
  deriving DecidableEq, Repr

inductive Sep where
  | plus
  | tilde
  deriving DecidableEq, Repr

structure Multi where
  first : Part
  rest : List (Sep × Part)
  deriving DecidableEq, Repr

def tagsText (ts : List Text) : Text := ts.flatMap fun t => '<' :: t ++ ['>']

def queueText : Option Text → Text
  | none => []
  | some q => '#' :: q

def Part.text (p : Part) : Text := p.lemma ++ tagsText p.tags ++ queueText p.queue

def Sep.char : Sep → Char
  | .plus => '+'
  | .tilde => '~'

/-- The text of the multiword in the input of pretransfer. -/
def Multi.text (m : Multi) : Text := m.first.text ++ m.rest.flatMap fun (s, p) => s.char :: p.text

/-- All the queues of the multiword. -/
def Multi.queues (m : Multi) : Text :=
  queueText m.first.queue ++ m.rest.flatMap fun (_, p) => queueText p.queue

/-- What replaces a separator: `$`, a space for `+`, the word-bound blank again and `^`.  Without the
compound option a `~` is dropped and does not split. -/
def Sep.split (compoundSep : Bool) (wb : Text) : Sep → Text
  | .plus => '$' :: ' ' :: wb ++ ['^']
  | .tilde => if compoundSep then '$' :: wb ++ ['^'] else []

/-- The expected text between the first `^` and the last `$` in the output. -/
def Multi.splitText (compoundSep : Bool) (wb : Text) (m : Multi) : Text :=
  m.first.lemma ++ m.queues ++ tagsText m.first.tags ++
    m.rest.flatMap fun (s, p) => s.split compoundSep wb ++ p.lemma ++ tagsText p.tags

/-- A text without the given characters. -/
def Avoids (cs : List Char) (t : Text) : Prop := ∀ c ∈ t, c ∉ cs
instance (cs : List Char) (t : Text) : Decidable (Avoids cs t) := by unfold Avoids; infer_instance

def queueOk : Option Text → Prop
  | none => True
  | some q => Avoids ['<', '+', '$'] q
instance (q : Option Text) : Decidable (queueOk q) := by cases q <;> unfold queueOk <;> infer_instance

def tagsOk (ts : List Text) : Prop := ∀ t ∈ ts, Avoids ['<', '>', '#', '$'] t
instance (ts : List Text) : Decidable (tagsOk ts) := by unfold tagsOk; infer_instance

/-- The separator after a part with a queue must be `+`. -/
def restOk : Option Text → List (Sep × Part) → Prop
  | _, [] => True
  | prev, (s, p) :: rest =>
    (s = .plus ∨ prev = none) ∧ Avoids ['<', '$', '+', '~', '#'] p.lemma ∧ tagsOk p.tags ∧ queueOk p.queue ∧
      restOk p.queue rest
instance restOkDec : (prev : Option Text) → (l : List (Sep × Part)) → Decidable (restOk prev l)
  | _, [] => isTrue trivial
  | prev, (s, p) :: rest =>
    have := restOkDec p.queue rest
    inferInstanceAs (Decidable ((s = .plus ∨ prev = none) ∧ Avoids ['<', '$', '+', '~', '#'] p.lemma ∧
      tagsOk p.tags ∧ queueOk p.queue ∧ restOk p.queue rest))

/-- Which multiwords are considered: the delimiters do not occur (not even escaped) inside a lemma, tag or queue, and the first
part has at least one tag. -/
def Multi.ok (m : Multi) : Prop :=
  Avoids ['<', '$'] m.first.lemma ∧ m.first.tags ≠ [] ∧ tagsOk m.first.tags ∧ queueOk m.first.queue ∧
    restOk m.first.queue m.rest
instance (m : Multi) : Decidable m.ok := by unfold Multi.ok; infer_instance

end Verif.Pre
