/-
  What adapting a Word document may and may not do (C87): a separate
  description, which does not mention the program's boundaries and lengths.
-/
import Verif.Docx.Model

namespace Verif.Docx.Spec

open Verif Verif.Docx

/-- What is known of the letters of the language: neither the hyphen, nor the middle dot, nor the
    character U+0000 is one. -/
structure Letters (letter : Char → Bool) : Prop where
  hyphen : letter '-' = false
  dot : letter '\u00B7' = false
  nul : letter '\x00' = false

/-- A Catalan `l` or `L`. -/
def Ell (c : Char) : Prop := c = 'l' ∨ c = 'L'

/-- The place between `u` and `v` lies inside a word: between two letters, next to a hyphen between
    two letters, or next to the dot of `l·l`. -/
def InWord (letter : Char → Bool) (u v : Text) : Prop :=
  (∃ a b, letter a = true ∧ letter b = true ∧ [a] <:+ u ∧ [b] <+: v) ∨
  (∃ a b, letter a = true ∧ letter b = true ∧ [a, '-'] <:+ u ∧ [b] <+: v) ∨
  (∃ a b, letter a = true ∧ letter b = true ∧ [a] <:+ u ∧ ['-', b] <+: v) ∨
  (∃ a b, Ell a ∧ Ell b ∧ [a, '\u00B7'] <:+ u ∧ [b] <+: v) ∨
  (∃ a b, Ell a ∧ Ell b ∧ [a] <:+ u ∧ ['\u00B7', b] <+: v)

/-- The place between a letter and a hyphen (or an `l` and a dot) that ends the text. -/
def Dangling (letter : Char → Bool) (u v : Text) : Prop :=
  (∃ a, letter a = true ∧ [a] <:+ u ∧ v = ['-']) ∨ (∃ a, Ell a ∧ [a] <:+ u ∧ v = ['\u00B7'])

/-- The places the program does not accept as the end of a run. -/
def Bad (letter : Char → Bool) (u v : Text) : Prop := InWord letter u v ∨ Dangling letter u v

/-- `q` is the first acceptable place of `text` at or behind `b`; the end of the text is acceptable. -/
def FirstGood (letter : Char → Bool) (text : Text) (b q : Nat) : Prop :=
  b ≤ q ∧ q ≤ text.length ∧
  (q = text.length ∨ ¬ Bad letter (text.take q) (text.drop q)) ∧
  ∀ p, b ≤ p → p < q → Bad letter (text.take p) (text.drop p)

/-- Where the `k`-th of the pieces ends (counted from 0). -/
def endOf (pieces : List Nat) (k : Nat) : Nat := (pieces.take (k + 1)).sum

/-- What a reader meets in a document: characters, and the beginnings and ends of elements. -/
inductive Mark where
  | ch (c : Char)
  | opens (name : String)
  | closes (name : String)
deriving DecidableEq

/-- The characters a word processor shows for the text nodes of a `t`: all of them if spaces are to be
    preserved, and without the spaces at both ends if not. -/
def rawText : List Xml → Text
  | [] => []
  | .text s :: rest => s ++ rawText rest
  | .cdata s :: rest => s ++ rawText rest
  | _ :: rest => rawText rest

def strip (s : Text) : Text :=
  ((s.dropWhile (fun x => decide (x = ' '))).reverse.dropWhile (fun x => decide (x = ' '))).reverse

def shown (preserve : Bool) (kids : List Xml) : Text :=
  if preserve then rawText kids else strip (rawText kids)

mutual
/-- What a reader meets in a node.  A run `r` only says how its text looks, and the elements that `quiet`
    accepts (`rPr`, say) are not seen at all.  `inh` says whether `xml:space="preserve"` is in force
    around the node. -/
def content (quiet : String → Bool) (inh : Bool) : Xml → List Mark
  | .elem n sp kids =>
    if n = "t" then (shown (sp.getD inh) kids).map .ch
    else if quiet n then []
    else if n = "r" then contentL quiet (sp.getD inh) kids
    else .opens n :: contentL quiet (sp.getD inh) kids ++ [.closes n]
  | .text _ => []
  | .cdata _ => []
  | .note _ => []
def contentL (quiet : String → Bool) (inh : Bool) : List Xml → List Mark
  | [] => []
  | x :: xs => content quiet inh x ++ contentL quiet inh xs
end

/-- A run that is only text: one `t`, with one text node at most, and nothing else that is seen. -/
def Simple (quiet : String → Bool) (inh : Bool) (x : Xml) : Prop :=
  ∃ sp before tsp tk after, x = .elem "r" sp (before ++ .elem "t" tsp tk :: after) ∧
    (tk = [] ∨ ∃ s, tk = [.text s]) ∧
    (∀ y ∈ before ++ after, isT y = false ∧ content quiet (sp.getD inh) y = [])

/-- Not a run with exactly one `t`. -/
def NoRun (x : Xml) : Prop := ∀ sp kids, x = .elem "r" sp kids → (kids.filter isT).length ≠ 1

/-- A paragraph in which nothing that is seen stands inside or between the runs with text. -/
def Tidy (quiet : String → Bool) (inh : Bool) (kids : List Xml) : Prop :=
  ∃ pre mid post, kids = pre ++ mid ++ post ∧ (∀ x ∈ pre, NoRun x) ∧ (∀ x ∈ post, NoRun x) ∧
    ∀ x ∈ mid, Simple quiet inh x ∨ (NoRun x ∧ content quiet inh x = [])

/-- The texts of the runs of a paragraph, as the program reads them. -/
def texts (inh : Bool) (kids : List Xml) : List Text := kids.filterMap (runText inh)

/-- A run with at most one text node in its `t`. -/
def OneText (x : Xml) : Prop :=
  ∀ sp kids n tsp tk, x = .elem "r" sp kids → kids.filter isT = [.elem n tsp tk] → tk = [] ∨ ∃ s, tk = [.text s]

mutual
/-- All the runs of the paragraphs of the document have at most one text node. -/
def AllOne : Xml → Prop
  | .elem n _ kids => AllOneL kids ∧ (n = "p" → ∀ x ∈ kids, OneText x)
  | .text _ => True
  | .cdata _ => True
  | .note _ => True
def AllOneL : List Xml → Prop
  | [] => True
  | x :: xs => AllOne x ∧ AllOneL xs
end

mutual
/-- In no paragraph of the document is a boundary between two runs inside a word, or dangling. -/
def AllLegal (letter : Char → Bool) (inh : Bool) : Xml → Prop
  | .elem n sp kids =>
    AllLegalL letter (sp.getD inh) kids ∧
    (n = "p" → ∀ us vs, texts (sp.getD inh) kids = us ++ vs → us.flatten ≠ [] → vs.flatten ≠ [] →
      ¬ Bad letter us.flatten vs.flatten)
  | .text _ => True
  | .cdata _ => True
  | .note _ => True
def AllLegalL (letter : Char → Bool) (inh : Bool) : List Xml → Prop
  | [] => True
  | x :: xs => AllLegal letter inh x ∧ AllLegalL letter inh xs
end

mutual
/-- All the paragraphs of the document are tidy. -/
def AllTidy (quiet : String → Bool) (inh : Bool) : Xml → Prop
  | .elem n sp kids =>
    AllTidyL quiet (sp.getD inh) kids ∧ (n = "p" → Tidy quiet (sp.getD inh) kids)
  | .text _ => True
  | .cdata _ => True
  | .note _ => True
def AllTidyL (quiet : String → Bool) (inh : Bool) : List Xml → Prop
  | [] => True
  | x :: xs => AllTidy quiet inh x ∧ AllTidyL quiet inh xs
end

end Verif.Docx.Spec
