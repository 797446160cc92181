import Verif.Latex.Tags
/-!
# Model of apertium/apertium-postlatex.l

The scanner of `apertium-postlatex`, which writes accented letters as commands.  It is a flex scanner like those of Verif/Latex.
-/
namespace Verif.Tex
open Verif.Latex

/-- apertium/latex_accentsmap.cc 23-28, 103-109: `AccentsMap(true)` and `get`: the command of a letter; empty when there is none. -/
def camap (c : Char) : Text :=
  match accents.find? (fun p => decide (p.1 = [c])) with
  | some p => p.2
  | none => []

/-- The action of `[^A-Za-z\n]` (apertium/apertium-postlatex.l 265-285), when all bytes of a character are there; `UString(1, symbol)` keeps sixteen bits of it.  Simplification: where these are
those of half a surrogate pair, U+0000. -/
def symbolAct (c : Char) : Text :=
  let wt := Char.ofNat (c.toNat % 65536)
  match camap wt with
  | [] => [wt]
  | a :: wa => '\\' :: a :: '{' :: wa ++ t!"}"

/-- `[^A-Za-z\n]`: the action is for single bytes, and puts those of a character together; no other rule matches in the middle of one, so here the rule takes a character. -/
def symbolRule : Rule Unit := say [.one (fun x => !isLetter x && decide (x ≠ '\n'))] (fun w => w.flatMap symbolAct)

/-- apertium/apertium-postlatex.l 51-295, the rules in the order of the file. -/
def rules : List (Rule Unit) :=
  [ put t!"&quot;" t!"\"",
    put t!"&apos;" t!"'",
    put t!"&lt;" t!"<",
    put t!"&gt;" t!">",
    put t!"&amp;" t!"\\&",
    put t!"<AMP/>" t!"&",
    put t!"<LEFTESCAPEDBRACE/>" t!"\\{",
    put t!"<RIGHTESCAPEDBRACE/>" t!"\\}",
    put t!"<ESCAPEDPERCENT/>" t!"\\%",
    put t!"¿" t!"?`",
    put t!"¡" t!"!`",
    go 0 t!"<MATH_DOLLARS>" t!"$$" 1,
    go 1 t!"</MATH_DOLLARS>" t!"$$" 0,
    go 0 t!"<MATH_DOLLAR>" t!"$" 1,
    go 1 t!"</MATH_DOLLAR>" t!"$" 0,
    put t!"<MATH_PAR>" t!"\\(",
    put t!"</MATH_PAR>" t!"\\)",
    put t!"<MATH_BRA>" t!"\\[",
    put t!"</MATH_BRA>" t!"\\]",
    put t!"<CONTENTS>" t!"{",
    put t!"</CONTENTS>" t!"}",
    put t!"&NBSP;" t!"~",
    put t!"<BR/>" t!"\\\\",
    say (lit t!"<COMMENT>" ++ [.many (fun x => decide (x ≠ '<'))]) (fun w => t!"%" ++ w.drop 9),
    put t!"</COMMENT>" [],
    say (lit t!"<PARAM>" ++ [.many (fun x => decide (x ≠ '<'))]) (fun w => t!"[" ++ w.drop 7),
    put t!"</PARAM>" t!"]",
    put t!"<VERB>" t!"\\verb",
    put t!"</VERB>" [],
    put t!"ł" t!"\\l",
    put t!"œ" t!"{\\oe}",
    put t!"Œ" t!"{\\OE}",
    put t!"æ" t!"{\\ae}",
    put t!"Æ" t!"{\\AE}",
    put t!"å" t!"{\\aa}",
    put t!"Å" t!"{\\AA}",
    put t!"ø" t!"{\\o}",
    put t!"Ø" t!"{\\O}",
    put t!"ß" t!"{\\ss}",
    say (lit t!"<" ++ [.one isAlnum, .many isAlnum] ++ lit t!">")
      (fun w => t!"\\begin{" ++ (w.drop 1).take (w.length - 2) ++ t!"}"),
    say (lit t!"<HASH_" ++ [.one isDigit, .many isDigit] ++ lit t!"/>")
      (fun w => t!"\\#" ++ (w.drop 6).take (w.length - 8)),
    put t!"<HASH/>" t!"\\#",
    say (lit t!"<" ++ [.one isAlnum, .many isAlnum] ++ lit t!"_STAR>")
      (fun w => t!"\\begin{" ++ (w.drop 1).take (w.length - 7) ++ t!"*}"),
    say (lit t!"</" ++ [.one isAlnum, .many isAlnum] ++ lit t!">")
      (fun w => t!"\\end{" ++ (w.drop 2).take (w.length - 3) ++ t!"}"),
    say (lit t!"</" ++ [.one isAlnum, .many isAlnum] ++ lit t!"_STAR>")
      (fun w => t!"\\end{" ++ (w.drop 2).take (w.length - 8) ++ t!"*}"),
    say (lit t!"<" ++ [.one isAlnum, .many isAlnum] ++ lit t!"/>")
      (fun w => t!"\\" ++ (w.drop 1).take (w.length - 3)),
    say (lit t!"<" ++ [.one isAlnum, .many isAlnum] ++ lit t!"_STAR/>")
      (fun w => t!"\\" ++ (w.drop 1).take (w.length - 8) ++ t!"*"),
    symbolRule,
    say [.one (fun _ => true)] (fun w => w),
    { start := 1, pat := [.one (fun _ => true)], act := fun w sc g => (w, sc, g) } ]

/-- `apertium-postlatex`. -/
def post (s : Text) : Text := lex rules 0 () s

end Verif.Tex
