/-
  The scanners `apertium-prelatex` and `apertium-postlatex-raw` (C86).
  apertium/apertium-prelatex.l, apertium/apertium-postlatex-raw.l and
  apertium/latex_accentsmap.cc, rule by rule and in the order of the files.

  The scanners work on bytes; here a text is a list of characters.  The two
  differ only where a one-byte pattern (`.` behind an accent command or in
  `\t{..}`, or the character behind `\begin`) meets a character outside ASCII.
-/
import Verif.Latex.Lexer

namespace Verif.Latex

/-- The globals of apertium/apertium-prelatex.l 35-38: `closesym`, "" or "/", and
    `ngermanbabel`. -/
structure Globals where
  closing : Bool
  german : Bool
deriving DecidableEq

/-- apertium/latex_accentsmap.cc 43-101, `init_camap`: letter, LaTeX. -/
def accents : List (Text × Text) :=
  [(t!"à", t!"`a"), (t!"è", t!"`e"), (t!"ì", t!"`\\i"), (t!"ò", t!"`o"), (t!"ù", t!"`u"),
   (t!"ỳ", t!"`y"), (t!"À", t!"`A"), (t!"È", t!"`E"), (t!"Ì", t!"`I"), (t!"Ò", t!"`O"),
   (t!"Ù", t!"`U"), (t!"Ỳ", t!"`Y"),
   (t!"á", t!"'a"), (t!"é", t!"'e"), (t!"í", t!"'\\i"), (t!"ó", t!"'o"), (t!"ú", t!"'u"),
   (t!"ý", t!"'y"), (t!"Á", t!"'A"), (t!"É", t!"'E"), (t!"Í", t!"'I"), (t!"Ó", t!"'O"),
   (t!"Ú", t!"'U"), (t!"Ý", t!"'Y"),
   (t!"â", t!"^a"), (t!"ê", t!"^e"), (t!"î", t!"^\\i"), (t!"ô", t!"^o"), (t!"û", t!"^u"),
   (t!"ŷ", t!"^y"), (t!"Â", t!"^A"), (t!"Ê", t!"^E"), (t!"Î", t!"^I"), (t!"Ô", t!"^O"),
   (t!"Û", t!"^U"), (t!"Ŷ", t!"^Y"),
   (t!"ä", t!"\"a"), (t!"ë", t!"\"e"), (t!"ï", t!"\"\\i"), (t!"ö", t!"\"o"), (t!"ü", t!"\"u"),
   (t!"ÿ", t!"\"y"), (t!"Ä", t!"\"A"), (t!"Ë", t!"\"E"), (t!"Ï", t!"\"I"), (t!"Ö", t!"\"O"),
   (t!"Ü", t!"\"U"), (t!"Ÿ", t!"\"Y"),
   (t!"ñ", t!"~n"), (t!"Ñ", t!"~N"),
   (t!"ç", t!"cc"), (t!"Ç", t!"cC")]

/-- apertium/latex_accentsmap.cc 23-41 and 103-109, `AccentsMap(false)` and
    `get`: the map holds the table in both directions; empty when the key is
    not there. -/
def accGet (key : Text) : Text :=
  match ((accents.map (fun p => (p.2, p.1))) ++ accents).find? (fun p => decide (p.1 = key)) with
  | some p => p.2
  | none => []

/-- A rule of the INITIAL start condition whose action only writes. -/
def say (pat : Pat) (f : Text → Text) : Rule σ :=
  { start := 0, pat := pat, act := fun w sc g => (f w, sc, g) }

/-- A rule that writes a fixed text. -/
def put (u : Text) (out : Text) : Rule σ := say (lit u) (fun _ => out)

/-- A rule that writes a fixed text and begins another start condition. -/
def go (start : Nat) (u : Text) (out : Text) (next : Nat) : Rule σ :=
  { start := start, pat := lit u, act := fun _ _ g => (out, next, g) }

/-- apertium/apertium-prelatex.l 65-80: the letters of the German shorthands. -/
def umlautOf (c : Char) : Text :=
  if c = 'o' then t!"ö" else if c = 'O' then t!"Ö" else if c = 'a' then t!"ä"
  else if c = 'A' then t!"Ä" else if c = 'u' then t!"ü" else if c = 'U' then t!"Ü"
  else if c = 's' then t!"ß" else if c = 'S' then t!"ß" else []

/-- apertium/apertium-prelatex.l 84-111: the action of the dotless letters; it reads
    `yytext[4]`, which is the terminating 0 when there are no braces. -/
def dotless (w : Text) : Text :=
  if w[1]? = some '^' then (if w[4]? = some 'i' then t!"î" else t!"ĵ")
  else if w[1]? = some '"' then (if w[4]? = some 'i' then t!"ï" else t!"j")
  else if w[1]? = some '\'' then (if w[4]? = some 'i' then t!"í" else t!"j")
  else if w[1]? = some '`' then (if w[4]? = some 'i' then t!"ì" else t!"k")
  else []

/-- apertium/apertium-prelatex.l 159-173: the action of the accent commands. -/
def accentAct (w : Text) : Text :=
  let key := [w[1]?.getD '\x00', if w.length = 3 then w[2]?.getD '\x00' else w[3]?.getD '\x00']
  if accGet key = [] then t!"<" ++ w.drop 1 ++ t!"/>" else accGet key

/-- apertium/apertium-prelatex.l 179-188: the action of a comment. -/
def commentAct (w : Text) : Text :=
  if w.getLast? = some '\r' then
    t!"<COMMENT>" ++ (w.drop 1).dropLast ++ t!"</COMMENT>\r"
  else t!"<COMMENT>" ++ w.drop 1 ++ t!"</COMMENT>"

/-- Length of a text in UTF-8, the unit of `yyleng`. -/
def bytes (w : Text) : Nat := (w.map (fun c => c.utf8Size)).foldl (· + ·) 0

/-- apertium/apertium-prelatex.l 194: `to_ustring(yytext).substr(12, yyleng-13)`, an
    offset in characters and a length in bytes. -/
def useOpts (w : Text) : Text := (w.drop 12).take (bytes w - 13)

/-- apertium/apertium-prelatex.l 197: `ws.find("ngerman") != npos`. -/
def hasNgerman : Text → Bool
  | [] => false
  | c :: s => (t!"ngerman").isPrefixOf (c :: s) || hasNgerman s

/-- apertium/apertium-prelatex.l 219-226 and 242-250: the action in the braces, which
    leaves out the first `c`. -/
def without (c : Char) (w : Text) : Text := w.erase c

/-- apertium/apertium-prelatex.l 206-214: the text of `closesym`. -/
def closesym (g : Globals) : Text := if g.closing = true then t!"/" else []

/-- `\verb` with one of the six delimiters, apertium/apertium-prelatex.l 309-343. -/
def verbRule (d : Char) : Rule Globals :=
  say (lit (t!"\\verb" ++ [d]) ++ [.one (fun x => decide (x ≠ d)), .many (fun x => decide (x ≠ d)),
    .one (fun x => decide (x = d))])
    (fun w => t!"<VERB>" ++ w.drop 5 ++ t!"</VERB>")

/-- apertium/apertium-prelatex.l 159: the characters of the accent commands. -/
def accChars : Text := t!"`'^\"H~ck=b.druv"

/-- apertium/apertium-prelatex.l 58-403, the rules in the order of the file.  A pattern
    with two alternatives is two rules with one action.  Start conditions:
    1 is `mathenv`, 2 is `readbrackets`. -/
def preRules : List (Rule Globals) :=
  [ -- \t{..}
    say (lit t!"\\t{" ++ [dot, dot] ++ lit t!"}") (fun w => (w.drop 3).take (w.length - 4)),
    put t!"\\l" t!"ł",
    -- the shorthands of ngerman babel
    { start := 0, pat := lit t!"\"" ++ [oneOf t!"oOaAuUsS"],
      act := fun w sc g =>
        (if g.german = true then umlautOf (w[1]?.getD '\x00') else w, sc, g) },
    -- dotless i and j
    say (lit t!"\\" ++ [oneOf t!"^\"'`"] ++ lit t!"{\\" ++ [oneOf t!"ij"] ++ lit t!"}") dotless,
    say (lit t!"\\" ++ [oneOf t!"^\"'`"] ++ lit t!"\\" ++ [oneOf t!"ij"]) dotless,
    put t!"{\\oe}" t!"œ",
    put t!"{\\OE}" t!"Œ",
    put t!"{\\ae}" t!"æ",
    put t!"{\\AE}" t!"Æ",
    put t!"{\\aa}" t!"å",
    put t!"{\\AA}" t!"Å",
    put t!"{\\o}" t!"ø",
    put t!"{\\O}" t!"Ø",
    put t!"{\\ss}" t!"ß",
    say (lit t!"\\#" ++ [.one isDigit, .many isDigit]) (fun w => t!"<HASH_" ++ w.drop 2 ++ t!"/>"),
    put t!"\\#" t!"<HASH/>",
    -- accents
    say (lit t!"\\" ++ [oneOf accChars] ++ lit t!"{" ++ [dot] ++ lit t!"}") accentAct,
    say (lit t!"\\" ++ [oneOf accChars] ++ [dot]) accentAct,
    put t!"\\\\" t!"<BR/>",
    say (lit t!"%" ++ [.many (fun x => decide (x ≠ '\n'))]) commentAct,
    { start := 0,
      pat := lit t!"\\usepackage[" ++ [.many (fun x => decide (x ≠ ']'))] ++ lit t!"]",
      act := fun w sc g =>
        (t!"<usepackage/><PARAM>" ++ useOpts w ++ t!"</PARAM>", sc,
          { g with german := g.german || hasNgerman (useOpts w) }) },
    say (lit t!"[" ++ [.many (fun x => decide (x ≠ ']'))] ++ lit t!"]")
      (fun w => t!"<PARAM>" ++ (w.drop 1).dropLast ++ t!"</PARAM>"),
    { start := 0, pat := lit t!"\\begin" ++ [.one (fun c => !(isAlnum c || decide (c = '_')))],
      act := fun _ _ g => ([], 2, { g with closing := false }) },
    { start := 0, pat := lit t!"\\end" ++ [.one (fun c => !(isAlnum c || decide (c = '_')))],
      act := fun _ _ g => ([], 2, { g with closing := true }) },
    -- readbrackets
    { start := 2, pat := [.many isWs, .opt (fun x => decide (x = '{')), .many isWs],
      act := fun w sc g => (without '{' w, sc, g) },
    { start := 2, pat := [.one isAlnum, .many isAlnum] ++ lit t!"*",
      act := fun w sc g => (t!"<" ++ closesym g ++ w.dropLast ++ t!"_STAR>", sc, g) },
    { start := 2, pat := [.one isAlnum, .many isAlnum],
      act := fun w sc g => (t!"<" ++ closesym g ++ w ++ t!">", sc, g) },
    { start := 2, pat := [.many isWs] ++ lit t!"}" ++ [.many isWs],
      act := fun w _ g => (without '}' w, 0, g) },
    -- commands
    say (lit t!"\\" ++ [.one isLetter, .many isLetter] ++ lit t!"*")
      (fun w => t!"<" ++ (w.drop 1).dropLast ++ t!"_STAR/>"),
    say (lit t!"\\" ++ [.one isLetter, .many isLetter])
      (fun w => t!"<" ++ w.drop 1 ++ t!"/>"),
    put t!"\\{" t!"<LEFTESCAPEDBRACE/>",
    put t!"\\{" t!"<RIGHTESCAPEDBRACE/>",
    put t!"\\%" t!"<ESCAPEDPERCENT/>",
    put t!"{" t!"<CONTENTS>",
    put t!"}" t!"</CONTENTS>",
    put t!"~" t!"&NBSP;",
    go 0 t!"$$" t!"<MATH_DOLLARS>" 1,
    go 1 t!"$$" t!"</MATH_DOLLARS>" 0,
    go 0 t!"$" t!"<MATH_DOLLAR>" 1,
    go 1 t!"$" t!"</MATH_DOLLAR>" 0,
    verbRule '|', verbRule '!', verbRule '?', verbRule '/', verbRule '#', verbRule '+',
    put t!"\\(" t!"<MATH_PAR>",
    put t!"\\)" t!"</MATH_PAR>",
    put t!"\\[" t!"<MATH_BRA>",
    put t!"\\]" t!"</MATH_BRA>",
    put t!"?`" t!"¿",
    put t!"!`" t!"¡",
    put t!"\"" t!"&quot;",
    put t!"'" t!"&apos;",
    put t!"<" t!"&lt;",
    put t!">" t!"&gt;",
    put t!"\\&" t!"&amp;",
    put t!"&" t!"<AMP/>",
    say [.one (fun _ => true)] (fun w => w),
    { start := 1, pat := [.one (fun _ => true)], act := fun w sc g => (w, sc, g) } ]

/-- `apertium-prelatex`. -/
def pre (s : Text) : Text := lex preRules 0 { closing := false, german := false } s

/-- apertium/apertium-postlatex-raw.l 40-216, the rules in the order of the file;
    there are no globals. -/
def postRules : List (Rule Unit) :=
  [ put t!"&quot;" t!"\"",
    put t!"&apos;" t!"'",
    put t!"&lt;" t!"<",
    put t!"&gt;" t!">",
    put t!"&amp;" t!"\\&",
    put t!"<AMP/>" t!"&",
    put t!"<LEFTESCAPEDBRACE/>" t!"\\{",
    put t!"<RIGHTESCAPEDBRACE/>" t!"\\}",
    put t!"<ESCAPEDPERCENT/>" t!"\\%",
    put t!"¿" t!"?`",
    put t!"¡" t!"!`",
    go 0 t!"<MATH_DOLLARS>" t!"$$" 1,
    go 1 t!"</MATH_DOLLARS>" t!"$$" 0,
    go 0 t!"<MATH_DOLLAR>" t!"$" 1,
    go 1 t!"</MATH_DOLLAR>" t!"$" 0,
    put t!"<MATH_PAR>" t!"\\(",
    put t!"</MATH_PAR>" t!"\\)",
    put t!"<MATH_BRA>" t!"\\[",
    put t!"</MATH_BRA>" t!"\\]",
    put t!"<CONTENTS>" t!"{",
    put t!"</CONTENTS>" t!"}",
    put t!"&NBSP;" t!"~",
    put t!"<BR/>" t!"\\\\",
    say (lit t!"<COMMENT>" ++ [.many (fun x => decide (x ≠ '<'))]) (fun w => t!"%" ++ w.drop 9),
    put t!"</COMMENT>" [],
    say (lit t!"<PARAM>" ++ [.many (fun x => decide (x ≠ '<'))]) (fun w => t!"[" ++ w.drop 7),
    put t!"</PARAM>" t!"]",
    put t!"<VERB>" t!"\\verb",
    put t!"</VERB>" [],
    say (lit t!"<" ++ [.one isAlnum, .many isAlnum] ++ lit t!">")
      (fun w => t!"\\begin{" ++ (w.drop 1).take (w.length - 2) ++ t!"}"),
    say (lit t!"<" ++ [.one isAlnum, .many isAlnum] ++ lit t!"_STAR>")
      (fun w => t!"\\begin{" ++ (w.drop 1).take (w.length - 7) ++ t!"*}"),
    say (lit t!"</" ++ [.one isAlnum, .many isAlnum] ++ lit t!">")
      (fun w => t!"\\end{" ++ (w.drop 2).take (w.length - 3) ++ t!"}"),
    say (lit t!"</" ++ [.one isAlnum, .many isAlnum] ++ lit t!"_STAR>")
      (fun w => t!"\\end{" ++ (w.drop 2).take (w.length - 8) ++ t!"*}"),
    say (lit t!"<" ++ [.one isAlnum, .many isAlnum] ++ lit t!"/>")
      (fun w => t!"\\" ++ (w.drop 1).take (w.length - 3)),
    say (lit t!"<" ++ [.one isAlnum, .many isAlnum] ++ lit t!"_STAR/>")
      (fun w => t!"\\" ++ (w.drop 1).take (w.length - 8) ++ t!"*"),
    put t!"#" t!"\\#",
    say [.one (fun _ => true)] (fun w => w),
    { start := 1, pat := [.one (fun _ => true)], act := fun w sc g => (w, sc, g) } ]

/-- `apertium-postlatex-raw`. -/
def post (s : Text) : Text := lex postRules 0 () s

end Verif.Latex
