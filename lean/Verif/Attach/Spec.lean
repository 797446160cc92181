import Verif.Stream.Grammar
/-!
# Specification side of the wblank-attach properties
-/
namespace Verif.Attach
open Verif.Stream

/-- Items of a stream before word-bound blanks are distributed; `openw ws` is `[[w1; w2; ...]]`. -/
inductive AItem where
  | txt (a : Atom)
  | blank (b : List Atom)
  | openw (ws : List Text)
  | closew
  | lu (b : List Atom)
  | nul
  deriving DecidableEq, Repr

/-- `[[w1; w2; ...]]` -/
def wbMark (ws : List Text) : Text := ['[', '['] ++ List.intercalate [';', ' '] ws ++ [']', ']']

def AItem.render : AItem → Text
  | .txt a => a.render
  | .blank b => '[' :: renderAtoms b ++ [']']
  | .openw ws => wbMark ws
  | .closew => ['[', '[', '/', ']', ']']
  | .lu b => '^' :: renderAtoms b ++ ['$']
  | .nul => ['\x00']

def renderA (is : List AItem) : Text := is.flatMap AItem.render

/-- A word-bound blank: not empty, no escape and no delimiter in it, no space at its ends, and not the closing mark. -/
def wbOk (w : Text) : Prop :=
  w ≠ [] ∧ (∀ c ∈ w, c ∉ ['\\', '\x00', '[', ']', ';']) ∧ w.head? ≠ some ' ' ∧ w.getLast? ≠ some ' ' ∧ w ≠ ['/']
instance (w : Text) : Decidable (wbOk w) := by unfold wbOk; infer_instance

def AItem.wf : AItem → Prop
  | .txt a => a.wf ['[', '^', '$']
  | .blank b => ∀ a ∈ b, a.wf ['[', ']']
  | .openw ws => ∀ w ∈ ws, wbOk w
  | .closew => True
  | .lu b => ∀ a ∈ b, a.wf ['^', '$']
  | .nul => True
instance (i : AItem) : Decidable i.wf := by cases i <;> unfold AItem.wf <;> infer_instance

/-- No word-bound blank is open at a NUL; the first argument is the number of open ones. -/
def closedAtNul : Nat → List AItem → Prop
  | _, [] => True
  | n, .openw _ :: is => closedAtNul (n + 1) is
  | n, .closew :: is => closedAtNul (n - 1) is
  | n, .nul :: is => n = 0 ∧ closedAtNul n is
  | n, _ :: is => closedAtNul n is

/-- The mark put before a lexical unit: the open word-bound blanks in order of opening, without duplicates.
`openOnes` has the most recently opened first. -/
def mark (openOnes : List (List Text)) : Text :=
  let ws := openOnes.reverse.flatten.eraseDups
  if ws = [] then [] else wbMark ws

/-- The expected output. -/
def distributed : List (List Text) → List AItem → Text
  | _, [] => []
  | os, .openw ws :: is => distributed (ws :: os) is
  | os, .closew :: is => distributed os.tail is
  | os, .lu b :: is => mark os ++ (AItem.lu b).render ++ distributed os is
  | os, i :: is => i.render ++ distributed os is

end Verif.Attach
