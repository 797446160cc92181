import Verif.Tmx.Builder
/-!
# What the sentences and the segments of a translation memory are
-/
namespace Verif.Tmx

/-! ## Sentences -/

/-- The elements of a text in Apertium's stream format, without lexical units: a character, an escaped character, a blank. -/
inductive Elem where
  | lit (c : Char)
  | esc (c : Char)
  | blank (b : Text)
  deriving DecidableEq, Repr

/-- The inside of a blank: a bracket that ends it or a backslash must be escaped. -/
inductive Inside : Text → Prop
  | nil : Inside []
  | lit {c : Char} {t : Text} : c ≠ '\\' → c ≠ ']' → Inside t → Inside (c :: t)
  | esc {d : Char} {t : Text} : Inside t → Inside ('\\' :: d :: t)

def Elem.Ok : Elem → Prop
  | .lit c => c ≠ '\\' ∧ c ≠ '['
  | .esc _ => True
  | .blank b => Inside b

/-- How it is written in the file. -/
def Elem.source : Elem → Text
  | .lit c => [c]
  | .esc c => ['\\', c]
  | .blank b => '[' :: b ++ [']']

/-- What it is in a sentence: a blank becomes a placeholder, and a space at its start or end is kept. -/
def Elem.text : Elem → Text
  | .lit c => [c]
  | .esc c => [c]
  | .blank b => (if b.head? = some ' ' then [' '] else []) ++ t!"<ph/>" ++ (if b.getLast? = some ' ' then [' '] else [])

/-- A question mark or an exclamation mark ends a sentence, a full stop if a blank or a space comes next. -/
def EndsSentence (k : Ctype) (e : Elem) (after : List Elem) : Prop :=
  e = .lit '?' ∨ e = .lit '!' ∨
    e = .lit '.' ∧ ((∃ b rest, after = .blank b :: rest) ∨ ∃ c rest, after = .lit c :: rest ∧ k.space c = true)

/-- No sentence ends in `s`, if `after` comes next. -/
def NoEnd (k : Ctype) (s after : List Elem) : Prop := ∀ a e b, s = a ++ e :: b → ¬ EndsSentence k e (b ++ after)

/-- `Split k es sentences rest`: `es` consists of these sentences, and of a rest in which no sentence ends. -/
inductive Split (k : Ctype) : List Elem → List (List Elem) → List Elem → Prop
  | rest (es : List Elem) : NoEnd k es [] → Split k es [] es
  | sentence (s : List Elem) (e : Elem) (after : List Elem) (l : List (List Elem)) (r : List Elem) :
      NoEnd k s (e :: after) → EndsSentence k e after → Split k after l r → Split k (s ++ e :: after) ((s ++ [e]) :: l) r

/-! ## Segments -/

/-- The parts of a sentence: characters and placeholders. -/
inductive Item where
  | chr (c : Char)
  | ph
  deriving DecidableEq, Repr

/-- How it is written in the sentence. -/
def Item.source : Item → Text
  | .chr c => [c]
  | .ph => t!"<ph/>"

/-- How it is written in XML. -/
def Item.xml : Item → Text
  | .chr c => if c = '<' then t!"&lt;" else if c = '>' then t!"&gt;" else if c = '&' then t!"&amp;" else [c]
  | .ph => t!"<ph/>"

/-- The characters do not look like a placeholder. -/
def NoFake (l : List Item) : Prop := ∀ a b, l ≠ a ++ [.chr '<', .chr 'p', .chr 'h', .chr '/', .chr '>'] ++ b

/-- A character that is kept at the start and at the end of a segment. -/
def Item.Kept (k : Ctype) : Item → Prop
  | .chr c => c = '<' ∨ c = '>' ∨ c = '&' ∨ k.word c = true
  | .ph => False

/-- A character that is removed there (a space, for example). -/
def Item.Removed (k : Ctype) : Item → Prop
  | .chr c => c ≠ '<' ∧ c ≠ '>' ∧ c ≠ '&' ∧ k.word c = false
  | .ph => False

/-- Without the full stops at the end. -/
def dropStops (l : List Item) : List Item := (l.reverse.dropWhile fun x => decide (x = .chr '.')).reverse

end Verif.Tmx
