import Verif.Unigram.Stream
/-!
# Specification: the texts and streams the unigram and sentence taggers read

Independent of the readers: what a well-formed analysis is, its text, and streams as lists of items.
-/
namespace Verif.Unigram

/-- A text in which every backslash is followed by the character it protects and none of the characters of
`stops` occurs unprotected; without NUL. -/
inductive Closed (stops : List Char) : Text → Prop
  | nil : Closed stops []
  | lit {c : Char} {t : Text} : c ≠ '\\' → c ≠ '\x00' → c ∉ stops → Closed stops t → Closed stops (c :: t)
  | esc {d : Char} {t : Text} : d ≠ '\x00' → Closed stops t → Closed stops ('\\' :: d :: t)

/-- A morpheme: a lemma and tags, neither of them empty. -/
def Morpheme.wf (m : Morpheme) : Prop :=
  m.lemma ≠ [] ∧ Closed ['<', '$', '/'] m.lemma ∧ m.tags ≠ [] ∧ ∀ t ∈ m.tags, t ≠ [] ∧ Closed ['>'] t

def Analysis.wf (a : Analysis) : Prop := a.morphemes ≠ [] ∧ ∀ m ∈ a.morphemes, m.wf

/-- The text of a morpheme: `lemma<tag>...<tag>`. -/
def Morpheme.text (m : Morpheme) : Text := m.lemma ++ m.tags.flatMap (fun t => '<' :: t ++ ['>'])

/-- The text of an analysis: the morphemes joined by `+`. -/
def Analysis.text (a : Analysis) : Text := List.intercalate ['+'] (a.morphemes.map Morpheme.text)

/-- A morpheme as it may be written in the input: the lemma queue `q` (from a `#` on) may stand after the tags. -/
def Morpheme.written (m : Morpheme) (w : Text) : Prop :=
  ∃ h q, m.lemma = h ++ q ∧ h ≠ [] ∧ (q = [] ∨ q.head? = some '#' ∧ Closed ['<', '$', '/', '+'] q) ∧
    w = h ++ m.tags.flatMap (fun t => '<' :: t ++ ['>']) ++ q

/-- Every morpheme is written as the text at the same position. -/
inductive WrittenAll : List Morpheme → List Text → Prop
  | nil : WrittenAll [] []
  | cons {m : Morpheme} {ms : List Morpheme} {w : Text} {ws : List Text} :
      m.written w → WrittenAll ms ws → WrittenAll (m :: ms) (w :: ws)

/-- A lexical unit: a surface form, and analyses; the first one must not begin with `*` (that is how unknown words
are marked). -/
def LexicalUnit.wf (u : LexicalUnit) : Prop :=
  u.surface ≠ [] ∧ Closed ['/', '$'] u.surface ∧ (∀ a ∈ u.analyses, a.wf) ∧
    ∀ a, u.analyses.head? = some a → a.text.head? ≠ some '*'

/-- The text of a lexical unit: `^surface/analysis/.../analysis$`, or `^surface/*surface$` for an unknown word. -/
def LexicalUnit.text (u : LexicalUnit) : Text :=
  '^' :: u.surface ++
    (if u.analyses = [] then '/' :: '*' :: u.surface else u.analyses.flatMap (fun a => '/' :: a.text)) ++ ['$']

/-- The text between lexical units: free characters, escaped characters and superblanks. -/
inductive BlankText : Text → Prop
  | nil : BlankText []
  | chr {c : Char} {t : Text} : c ≠ '\\' → c ≠ '\x00' → c ≠ '^' → c ≠ '[' → BlankText t → BlankText (c :: t)
  | esc {d : Char} {t : Text} : d ≠ '\x00' → BlankText t → BlankText ('\\' :: d :: t)
  | block {b t : Text} : Closed [']'] b → BlankText t → BlankText ('[' :: b ++ ']' :: t)

/-- Items of a stream. -/
inductive Item where
  | blank (t : Text)
  | unit (u : LexicalUnit)
  | nul
  deriving DecidableEq, Repr

def Item.wf : Item → Prop
  | .blank t => BlankText t
  | .unit u => u.wf
  | .nul => True

def Item.text : Item → Text
  | .blank t => t
  | .unit u => u.text
  | .nul => ['\x00']

def render (is : List Item) : Text := is.flatMap Item.text

/-- The text that a tagger should write for a lexical unit of which it selected `sel`: nothing but that analysis;
preceded by `=` when the unit has not exactly one analysis and `-m` was given; after the surface form with `-p`;
followed by the remaining different analyses with `-f`.  An unknown word stays unknown. -/
def LexicalUnit.tagged (f : Flags) (u : LexicalUnit) : Option Analysis → Text
  | none => '^' :: (if f.showSuperficial then u.surface ++ ['/'] else []) ++ '*' :: u.surface ++ ['$']
  | some a =>
    '^' :: (if f.mark ∧ u.analyses.length ≠ 1 then ['='] else []) ++
      (if f.showSuperficial then u.surface ++ ['/'] else []) ++ a.text ++
      (if f.first then (u.analyses.filter (fun b => decide (b ≠ a))).flatMap (fun b => '/' :: b.text) else []) ++ ['$']

end Verif.Unigram
