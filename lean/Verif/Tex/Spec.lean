import Verif.Latex.Spec
/-!
# Letters as commands: a separate description
-/
namespace Verif.Tex
open Verif.Latex.Spec

/-- The letters that are written as commands, and their commands. -/
def commands : List (Char × Text) :=
  accented.map (fun p => (p.2.2, ['\\', p.1, '{', p.2.1, '}']))
    ++ [('ç', t!"\\c{c}"), ('Ç', t!"\\c{C}"), ('ì', t!"\\`{\\i}"), ('í', t!"\\'{\\i}"), ('î', t!"\\^{\\i}"), ('ï', t!"\\\"{\\i}"),
        ('œ', t!"{\\oe}"), ('Œ', t!"{\\OE}"), ('æ', t!"{\\ae}"), ('Æ', t!"{\\AE}"), ('å', t!"{\\aa}"), ('Å', t!"{\\AA}"), ('ø', t!"{\\o}"), ('Ø', t!"{\\O}"),
        ('ß', t!"{\\ss}"), ('ł', t!"\\l")]

/-- A character as it is written. -/
def tex (c : Char) : Text :=
  match commands.find? (fun p => decide (p.1 = c)) with
  | some p => p.2
  | none => [c]

/-- A text as it is written. -/
def texText (u : Text) : Text := u.flatMap tex

/-- A piece as it comes back: letters as commands, also in verbatim text, and everything else as it was. -/
def back (g : Bool) : Piece → Text
  | .chr c => tex c
  | .letter _ out => texText out
  | .short c => texText (Latex.Spec.back g (.short c))
  | .verb d body => t!"\\verb" ++ [d] ++ texText body ++ [d]
  | p => src p

/-- What a document is made of: the pieces that `apertium-postlatex-raw` copes with, and number signs. -/
inductive Part where
  | piece (p : Piece)
  /-- `#` -/
  | sign
  /-- `\#` and digits -/
  | number (digits : Text)

/-- A part as it is written. -/
def Part.src : Part → Text
  | .piece p => Latex.Spec.src p
  | .sign => t!"#"
  | .number ds => t!"\\#" ++ ds

/-- A document as it is written. -/
def text (doc : List Part) : Text := doc.flatMap Part.src

/-- Is ngerman loaded behind the part? -/
def Part.loads (g : Bool) : Part → Bool
  | .piece p => Latex.Spec.loads g p
  | _ => g

/-- A document as it comes back. -/
def returned : Bool → List Part → Text
  | _, [] => []
  | g, .piece p :: ps => back g p ++ returned (Latex.Spec.loads g p) ps
  | g, p :: ps => p.src ++ returned g ps

/-- What this program needs more: characters of sixteen bits, and no command or environment called `HASH`. -/
def Also : Piece → Prop
  | .chr c => c.toNat < 65536
  | .verb _ body => ∀ c ∈ body, c.toNat < 65536
  | .cmd name _ => name ≠ t!"HASH"
  | .env _ name _ _ => name ≠ t!"HASH"
  | _ => True

/-- Letters are written with the commands that the program uses, and with no other. -/
def Canonical : Piece → Prop
  | .chr c => ∀ p ∈ commands, p.1 ≠ c
  | .verb _ body => ∀ c ∈ body, ∀ p ∈ commands, p.1 ≠ c
  | .letter s out => texText out = s
  | .short _ => False
  | _ => True

/-- The parts the scanners cope with, in front of the rest of the document. -/
def Part.Fine : Part → Text → Prop
  | .piece p, rest => Latex.Spec.Fine p rest ∧ Also p
  | .sign, _ => True
  | .number ds, rest => (∀ c ∈ ds, Digit c) ∧ ¬ Next Digit rest

/-- A document all of whose parts are fine where they stand. -/
def Written : List Part → Prop
  | [] => True
  | p :: ps => p.Fine (text ps) ∧ Written ps

/-- The same of parts. -/
def Part.Canonical : Part → Prop
  | .piece p => Tex.Canonical p
  | _ => True

end Verif.Tex
