import Verif.Base
/-!
# The Apertium stream format (specification side)

A small grammar of the stream format, independent of any tool: a stream is a sequence of
items, `render` gives its text.  It is used to state the properties of the stream filters
("for every well-formed stream ..."); no model of a tool uses it.
-/
namespace Verif.Stream

/-- A character of the stream: as it is, or escaped by a backslash. -/
inductive Atom where
  | lit (c : Char)
  | esc (c : Char)
  deriving DecidableEq, Repr

def Atom.render : Atom → Text
  | .lit c => [c]
  | .esc c => ['\\', c]

/-- The character meant by the atom. -/
def Atom.char : Atom → Char
  | .lit c => c
  | .esc c => c

def renderAtoms (as : List Atom) : Text := as.flatMap Atom.render

/-- The text meant by the atoms (without the escapes). -/
def plainAtoms (as : List Atom) : Text := as.map Atom.char

/-- Items of a stream: free text, superblank `[..]`, word-bound blank `[[..]]`, its closing mark `[[/]]`,
lexical unit `^..$`, and NUL. -/
inductive Item where
  | txt (a : Atom)
  | blank (b : List Atom)
  | wopen (b : List Atom)
  | wclose
  | lu (b : List Atom)
  | nul
  deriving DecidableEq, Repr

def Item.render : Item → Text
  | .txt a => a.render
  | .blank b => '[' :: renderAtoms b ++ [']']
  | .wopen b => '[' :: '[' :: renderAtoms b ++ [']', ']']
  | .wclose => ['[', '[', '/', ']', ']']
  | .lu b => '^' :: renderAtoms b ++ ['$']
  | .nul => ['\x00']

def render (is : List Item) : Text := is.flatMap Item.render

/-- An atom that is either escaped (anything but NUL) or a literal outside the forbidden characters.
A literal backslash or NUL is always forbidden. -/
def Atom.wf (forbidden : List Char) : Atom → Prop
  | .lit c => c ≠ '\\' ∧ c ≠ '\x00' ∧ c ∉ forbidden
  | .esc c => c ≠ '\x00'

instance (f : List Char) (a : Atom) : Decidable (a.wf f) := by
  cases a <;> unfold Atom.wf <;> infer_instance

/-- Well-formed items: the characters that delimit an item occur inside it only escaped. -/
def Item.wf : Item → Prop
  | .txt a => a.wf ['[', '^', '$']
  | .blank b => ∀ a ∈ b, a.wf ['[', ']']
  | .wopen b => (∀ a ∈ b, a.wf ['[', ']']) ∧ b ≠ [.lit '/']
  | .wclose => True
  | .lu b => ∀ a ∈ b, a.wf ['^', '$']
  | .nul => True

instance (i : Item) : Decidable i.wf := by
  cases i <;> unfold Item.wf <;> infer_instance

def WF (is : List Item) : Prop := ∀ i ∈ is, i.wf

instance (is : List Item) : Decidable (WF is) := by unfold WF; infer_instance

@[simp] theorem render_nil : render [] = [] := rfl
@[simp] theorem render_cons (i : Item) (is : List Item) : render (i :: is) = i.render ++ render is := rfl
@[simp] theorem renderAtoms_nil : renderAtoms [] = [] := rfl
@[simp] theorem renderAtoms_cons (a : Atom) (as : List Atom) :
    renderAtoms (a :: as) = a.render ++ renderAtoms as := rfl
theorem WF_cons {i : Item} {is : List Item} : WF (i :: is) ↔ i.wf ∧ WF is := by simp [WF]
@[simp] theorem WF_nil : WF [] := by simp [WF]

end Verif.Stream
