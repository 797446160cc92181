/-
  What a LaTeX document is made of (C86): a separate description, which does
  not mention the scanners.
-/
import Verif.Base

namespace Verif.Latex.Spec

open Verif

/-- The pieces a document is written with. -/
inductive Piece where
  /-- an ordinary character -/
  | chr (c : Char)
  /-- one of the tokens of `tokens` -/
  | token (u : Text)
  /-- a backslash in front of a character that makes no command with it, as in `\,` or `\}` -/
  | backslash
  /-- an opening brace -/
  | brace
  /-- a straight double quote -/
  | quote
  /-- a straight double quote and a letter, `"o`: a German shorthand, if ngerman is loaded -/
  | short (c : Char)
  /-- `\name` or `\name*` -/
  | cmd (name : Text) (star : Bool)
  /-- `\usepackage[opts]` -/
  | use (opts : Text)
  /-- `[opts]` -/
  | param (opts : Text)
  /-- `\begin{name}` or `\end{name}`, `name*` with a star, and the white space behind it -/
  | env (closing : Bool) (name : Text) (star : Bool) (ws : Text)
  /-- `$body$` or `$$body$$` -/
  | math (double : Bool) (body : Text)
  /-- `%body` to the end of the line -/
  | comment (body : Text)
  /-- `\verb`, a delimiter, the text and the delimiter -/
  | verb (d : Char) (body : Text)
  /-- an accented or special letter written with a command, and the letter -/
  | letter (src out : Text)

/-- Tokens that stand for themselves. -/
def tokens : List Text :=
  [t!"\\\\", t!"\\{", t!"\\%", t!"\\(", t!"\\)", t!"\\[", t!"\\]", t!"\\&", t!"&", t!"}", t!"~",
   t!"'", t!"<", t!">", t!"?`", t!"!`"]

/-- Accent, letter, accented letter. -/
def accented : List (Char × Char × Char) :=
  [('`', 'a', 'à'), ('`', 'e', 'è'), ('`', 'o', 'ò'), ('`', 'u', 'ù'), ('`', 'y', 'ỳ'),
   ('`', 'A', 'À'), ('`', 'E', 'È'), ('`', 'I', 'Ì'), ('`', 'O', 'Ò'), ('`', 'U', 'Ù'),
   ('`', 'Y', 'Ỳ'),
   ('\'', 'a', 'á'), ('\'', 'e', 'é'), ('\'', 'o', 'ó'), ('\'', 'u', 'ú'), ('\'', 'y', 'ý'),
   ('\'', 'A', 'Á'), ('\'', 'E', 'É'), ('\'', 'I', 'Í'), ('\'', 'O', 'Ó'), ('\'', 'U', 'Ú'),
   ('\'', 'Y', 'Ý'),
   ('^', 'a', 'â'), ('^', 'e', 'ê'), ('^', 'o', 'ô'), ('^', 'u', 'û'), ('^', 'y', 'ŷ'),
   ('^', 'A', 'Â'), ('^', 'E', 'Ê'), ('^', 'I', 'Î'), ('^', 'O', 'Ô'), ('^', 'U', 'Û'),
   ('^', 'Y', 'Ŷ'),
   ('"', 'a', 'ä'), ('"', 'e', 'ë'), ('"', 'o', 'ö'), ('"', 'u', 'ü'), ('"', 'y', 'ÿ'),
   ('"', 'A', 'Ä'), ('"', 'E', 'Ë'), ('"', 'I', 'Ï'), ('"', 'O', 'Ö'), ('"', 'U', 'Ü'),
   ('"', 'Y', 'Ÿ'),
   ('~', 'n', 'ñ'), ('~', 'N', 'Ñ')]

/-- Letters written with commands, and the letters: accents with and without
    braces, the cedilla, the dotless i, and the letters of `{\oe}`.  The
    Spanish marks come back in their LaTeX form. -/
def letters : List (Text × Text) :=
  accented.map (fun p => (['\\', p.1, p.2.1], [p.2.2]))
    ++ accented.map (fun p => (['\\', p.1, '{', p.2.1, '}'], [p.2.2]))
    ++ [(t!"\\c{c}", t!"ç"), (t!"\\c{C}", t!"Ç"),
        (t!"\\`{\\i}", t!"ì"), (t!"\\'{\\i}", t!"í"), (t!"\\^{\\i}", t!"î"),
        (t!"\\\"{\\i}", t!"ï"), (t!"\\^{\\j}", t!"ĵ"),
        (t!"{\\oe}", t!"œ"), (t!"{\\OE}", t!"Œ"), (t!"{\\ae}", t!"æ"), (t!"{\\AE}", t!"Æ"),
        (t!"{\\aa}", t!"å"), (t!"{\\AA}", t!"Å"), (t!"{\\o}", t!"ø"), (t!"{\\O}", t!"Ø"),
        (t!"{\\ss}", t!"ß"),
        (t!"¿", t!"?`"), (t!"¡", t!"!`")]

/-- The German shorthands. -/
def shorthands : List (Char × Char) :=
  [('o', 'ö'), ('O', 'Ö'), ('a', 'ä'), ('A', 'Ä'), ('u', 'ü'), ('U', 'Ü'), ('s', 'ß'), ('S', 'ß')]

def Letter (c : Char) : Prop :=
  ('a'.toNat ≤ c.toNat ∧ c.toNat ≤ 'z'.toNat) ∨ ('A'.toNat ≤ c.toNat ∧ c.toNat ≤ 'Z'.toNat)

def Digit (c : Char) : Prop := '0'.toNat ≤ c.toNat ∧ c.toNat ≤ '9'.toNat

/-- White space. -/
def White (c : Char) : Prop := c = ' ' ∨ c = '\n' ∨ c = '\r' ∨ c = '\t'

def starred (star : Bool) : Text := if star = true then t!"*" else []

/-- A piece as it is written. -/
def src : Piece → Text
  | .chr c => [c]
  | .token u => u
  | .backslash => t!"\\"
  | .brace => t!"{"
  | .quote => t!"\""
  | .short c => ['"', c]
  | .cmd name star => t!"\\" ++ name ++ starred star
  | .use opts => t!"\\usepackage[" ++ opts ++ t!"]"
  | .param opts => t!"[" ++ opts ++ t!"]"
  | .env closing name star ws =>
      (if closing = true then t!"\\end{" else t!"\\begin{") ++ name ++ starred star ++ t!"}" ++ ws
  | .math true body => t!"$$" ++ body ++ t!"$$"
  | .math false body => t!"$" ++ body ++ t!"$"
  | .comment body => t!"%" ++ body
  | .verb d body => t!"\\verb" ++ [d] ++ body ++ [d]
  | .letter s _ => s

/-- A document as it is written. -/
def text (doc : List Piece) : Text := (doc.map src).flatten

/-- Does `u` occur in `s`? -/
def occurs (u s : Text) : Bool :=
  (List.range (s.length + 1)).any (fun i => u.isPrefixOf (s.drop i))

/-- Is ngerman loaded behind the piece? -/
def loads (g : Bool) : Piece → Bool
  | .use opts => g || occurs t!"ngerman" opts
  | _ => g

/-- A piece as it comes back: the letters as letters, everything else as it
    was. -/
def back (g : Bool) : Piece → Text
  | .letter _ out => out
  | .short c => if g = true then ((shorthands.find? (fun p => decide (p.1 = c))).map (fun p => [p.2])).getD []
      else ['"', c]
  | p => src p

/-- A document as it comes back. -/
def returned : Bool → List Piece → Text
  | _, [] => []
  | g, p :: ps => back g p ++ returned (loads g p) ps

/-- The text begins with a character of this kind. -/
def Next (P : Char → Prop) (rest : Text) : Prop := ∃ c t, rest = c :: t ∧ P c

/-- The pieces the scanners cope with, in front of the rest of the document. -/
def Fine : Piece → Text → Prop
  | .chr c, rest =>
      c ∉ t!"\\{}[%~$\"'<>&#¿¡" ∧ (c = '?' ∨ c = '!' → ¬ Next (fun x => x = '`') rest)
  | .token u, _ => u ∈ tokens
  | .backslash, rest => ¬ Next (fun c => Letter c ∨ c ∈ t!"\\`'^\"~=.#{%()[]&") rest
  | .brace, rest =>
      ∀ l ∈ [t!"\\oe}", t!"\\OE}", t!"\\ae}", t!"\\AE}", t!"\\aa}", t!"\\AA}", t!"\\o}", t!"\\O}",
        t!"\\ss}"], ¬ l <+: rest
  | .quote, rest => ¬ Next (fun c => c ∈ t!"oOaAuUsS") rest
  | .short c, _ => c ∈ t!"oOaAuUsS"
  | .cmd name star, rest =>
      name ≠ [] ∧ (∀ c ∈ name, Letter c) ∧ name ∉ [t!"begin", t!"end", t!"verb"]
        ∧ (Next (fun c => c ∈ t!"Hckbdruv") name → 2 ≤ name.length)
        ∧ (star = false →
            name ∉ [t!"l", t!"t", t!"cc", t!"cC", t!"AMP", t!"BR", t!"LEFTESCAPEDBRACE",
              t!"RIGHTESCAPEDBRACE", t!"ESCAPEDPERCENT"]
            ∧ ¬ Next (fun c => Letter c ∨ c = '*') rest
            ∧ (name = t!"usepackage" → ¬ Next (fun c => c = '[') rest))
  | .use opts, _ => ∀ c ∈ opts, c ≠ ']' ∧ c ≠ '<' ∧ c.toNat < 128
  | .param opts, _ => ∀ c ∈ opts, c ≠ ']' ∧ c ≠ '<'
  | .env _ name star ws, rest =>
      name ≠ [] ∧ (∀ c ∈ name, Letter c ∨ Digit c)
        ∧ (star = false → name ∉ [t!"CONTENTS", t!"COMMENT", t!"PARAM", t!"VERB"])
        ∧ (∀ c ∈ ws, White c) ∧ ¬ Next White rest
  | .math double body, rest =>
      '$' ∉ body ∧ ¬ t!"</" <:+: body
        ∧ (double = false → body ≠ [] ∧ ¬ Next (fun c => c = '$') rest)
  | .comment body, rest => (∀ c ∈ body, c ≠ '\n' ∧ c ≠ '<') ∧ (rest = [] ∨ Next (fun c => c = '\n') rest)
  | .verb d body, _ => d ∈ t!"|!?/+" ∧ body ≠ [] ∧ ∀ c ∈ body, c ≠ d ∧ c ∉ t!"<&#¿¡"
  | .letter s out, _ => (s, out) ∈ letters

/-- A document all of whose pieces are fine where they stand. -/
def Written : List Piece → Prop
  | [] => True
  | p :: ps => Fine p (text ps) ∧ Written ps

end Verif.Latex.Spec
