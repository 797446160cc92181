import Verif.Stream.Grammar
import Verif.Chunk.Model
/-!
# Specification: chunks

A chunk is `lemma<tag>...<tag>{content}`; the content is words and blanks; in a word, `<k>` stands for the `k`-th tag
of the chunk.
-/
namespace Verif.Chunk
open Verif.Stream

/-- A piece of a word inside a chunk. -/
inductive Piece where
  | lit (c : Char)
  | esc (c : Char)
  | tag (name : Text)
  | ref (digits : Text)
  deriving DecidableEq, Repr

def Piece.render : Piece → Text
  | .lit c => [c]
  | .esc c => ['\\', c]
  | .tag n => '<' :: n ++ ['>']
  | .ref d => '<' :: d ++ ['>']

def Piece.wf (u : Uni) : Piece → Prop
  | .lit c => c ∉ ['\\', '<', '$']
  | .esc _ => True
  | .tag n => '>' ∉ n ∧ ∀ c ∈ n.head?, u.isdigit c = false
  | .ref d => '>' ∉ d ∧ ∃ c r, d = c :: r ∧ u.isdigit c = true

/-- A piece of a blank inside a chunk. -/
inductive Blank where
  | ch (c : Char)
  | esc (c : Char)
  | sup (b : List Atom)
  deriving DecidableEq, Repr

def Blank.render : Blank → Text
  | .ch c => [c]
  | .esc c => ['\\', c]
  | .sup b => '[' :: renderAtoms b ++ [']']

def Blank.wf : Blank → Prop
  | .ch c => c ∉ ['\\', '^', '[']
  | .esc _ => True
  | .sup b => ∀ a ∈ b, a.wf ['[', ']']

def renderBlanks (bs : List Blank) : Text := bs.flatMap Blank.render

/-- A word: its word-bound blank, if it has one, and the pieces. -/
structure Word where
  wb : Option (List Atom)
  pieces : List Piece

def Word.wbText (w : Word) : Text :=
  match w.wb with
  | none => []
  | some b => '[' :: '[' :: renderAtoms b ++ [']', ']']

def Word.render (w : Word) : Text := w.wbText ++ '^' :: w.pieces.flatMap Piece.render ++ ['$']

def Word.wf (u : Uni) (w : Word) : Prop :=
  (∀ b ∈ w.wb, ∀ a ∈ b, a.wf ['[', ']']) ∧ ∀ p ∈ w.pieces, p.wf u

/-- A chunk: lemma, names of the tags, the blank before the first word, the words each with the blank after it. -/
structure Chunk where
  lem : List Atom
  tags : List Text
  lead : List Blank
  words : List (Word × List Blank)

def tagText (n : Text) : Text := '<' :: n ++ ['>']

def Chunk.head (c : Chunk) : Text := renderAtoms c.lem ++ c.tags.flatMap tagText

def Chunk.render (c : Chunk) : Text :=
  c.head ++ '{' :: renderBlanks c.lead ++ c.words.flatMap (fun w => w.1.render ++ renderBlanks w.2) ++ ['}']

structure Chunk.wf (u : Uni) (c : Chunk) : Prop where
  lem : ∀ a ∈ c.lem, a.wf ['<', '{']
  tags : ∀ t ∈ c.tags, ∀ x ∈ t, x ∉ ['>', '{', '\\']
  lead : ∀ b ∈ c.lead, b.wf
  words : ∀ w ∈ c.words, w.1.wf u ∧ ∀ b ∈ w.2, b.wf

/-- The last thing in the chunk. -/
def Chunk.lastBlank (c : Chunk) : List Blank :=
  match c.words.getLast? with
  | none => c.lead
  | some w => w.2

/-- The content does not end with a character of a blank (a word, an escaped character or a superblank may be the last). -/
def Chunk.Closed (c : Chunk) : Prop := ∀ x, c.lastBlank.getLast? ≠ some (.ch x)

/-! ## What is meant by the words -/

/-- A character of the lemma, whose case can change, or something that is copied. -/
inductive Sym where
  | lit (c : Char)
  | raw (t : Text)
  deriving DecidableEq, Repr

def Sym.text : Sym → Text
  | .lit c => [c]
  | .raw t => t

/-- The `k`-th tag of the chunk, if there is one, counting from 1. -/
def kthTag (tags : List Text) (k : Int) : Text :=
  if 1 ≤ k then ((tags.map tagText)[k.toNat - 1]?).getD [] else []

def Piece.sym (u : Uni) (tags : List Text) : Piece → Sym
  | .lit c => .lit c
  | .esc c => .raw ['\\', c]
  | .tag n => .raw (tagText n)
  | .ref d => .raw (kthTag tags (u.stoi d))

/-- There is a letter or digit whose case could change. -/
def Sym.isAlnum (u : Uni) : Sym → Bool
  | .lit c => u.isalnum c
  | .raw _ => false

def Sym.upper (u : Uni) : Sym → Sym
  | .lit c => .lit (u.toupper c)
  | .raw t => .raw t

/-- The first letter or digit becomes upper case. -/
def upperFirst (u : Uni) : List Sym → List Sym
  | [] => []
  | s :: ss => if s.isAlnum u then s.upper u :: ss else s :: upperFirst u ss

/-- The words with the case of the chunk: all in upper case, or only the first letter of the first word that has one. -/
def withCase (u : Uni) : Case → List (List Sym) → List (List Sym)
  | .aa, ws => ws
  | .AA, ws => ws.map fun w => w.map (·.upper u)
  | .Aa, [] => []
  | .Aa, w :: ws => if w.any (·.isAlnum u) then upperFirst u w :: ws else w :: withCase u .Aa ws

/-- The texts of the words of the chunk: references replaced, with case `k`. -/
def Chunk.wordTexts (u : Uni) (k : Case) (c : Chunk) : List Text :=
  (withCase u k (c.words.map fun w => w.1.pieces.map (Piece.sym u c.tags))).map fun w => w.flatMap Sym.text

end Verif.Chunk
