import Verif.Base
/-!
# Model of `apertium-wblank-mode`

`apertium/wblank-mode.cc`.  The mode is a sequence of bytes there; here it is a list of characters, all of the
characters that the program looks at being ASCII.  Reading the file and the command line are not modelled.
-/
namespace Verif.Mode

/-- `isspace` in the C locale. -/
def isSpace (c : Char) : Bool :=
  decide (c = ' ') || decide (c = '\t') || decide (c = '\n') || decide (c = '\x0b') || decide (c = '\x0c') || decide (c = '\r')

/-- `trim` (wblank-mode.cc:27-35). -/
def trim (s : Text) : Text := ((s.reverse.dropWhile isSpace).reverse).dropWhile isSpace

/-- `s.find(pat) != npos`. -/
def hasSub (pat : Text) : Text → Bool
  | [] => pat.isPrefixOf []
  | c :: s => pat.isPrefixOf (c :: s) || hasSub pat s

/-- The loop on `getline` (wblank-mode.cc:56-58): the lines are put together without their line ends. -/
def joinLines (s : Text) : Text := s.filter (fun c => !decide (c = '\n'))

/-- The pieces that the loop on `mode.find('|', e)` cuts out (wblank-mode.cc:75-82). -/
def splitBar : Text → List Text
  | [] => [[]]
  | c :: s =>
    if c = '|' then [] :: splitBar s
    else match splitBar s with
      | [] => [[c]]
      | p :: ps => (c :: p) :: ps

/-- The pieces put together with `" | "` (wblank-mode.cc:103-107). -/
def join : List Text → Text
  | [] => []
  | [p] => p
  | p :: ps => p ++ t!" | " ++ join ps

/-! ### The regular expression (wblank-mode.cc:68-70)

`apertium-transfer\s+'([^']+)'\s+'([^']+)'\s+'([^']+autobil\.bin)'`.  It can match in at most one way at any place,
because white space, quotes and the other characters exclude each other: the matcher below is
deterministic. -/

/-- A literal. -/
def literal : Text → Text → Option Text
  | [], s => some s
  | _ :: _, [] => none
  | p :: ps, c :: s => if p = c then literal ps s else none

/-- `\s+'`. -/
def spaceQuote (s : Text) : Option Text :=
  if s.takeWhile isSpace = [] then none
  else match s.dropWhile isSpace with
    | [] => none
    | c :: r => if c = '\'' then some r else none

/-- `([^']+)'`. -/
def quoted (s : Text) : Option (Text × Text) :=
  let g := s.takeWhile (fun c => !decide (c = '\''))
  if g = [] then none
  else match s.dropWhile (fun c => !decide (c = '\'')) with
    | [] => none
    | _ :: r => some (g, r)

/-- The whole expression: the three groups and the rest of the text. -/
def matchAt (s : Text) : Option (Text × Text × Text × Text) :=
  match literal t!"apertium-transfer" s with
  | none => none
  | some s =>
  match spaceQuote s with
  | none => none
  | some s =>
  match quoted s with
  | none => none
  | some (g1, s) =>
  match spaceQuote s with
  | none => none
  | some s =>
  match quoted s with
  | none => none
  | some (g2, s) =>
  match spaceQuote s with
  | none => none
  | some s =>
  match quoted s with
  | none => none
  | some (g3, s) =>
    if t!"autobil.bin".isSuffixOf g3 ∧ t!"autobil.bin".length < g3.length then some (g1, g2, g3, s) else none

/-- The text put in place of a match. -/
def replacement (g1 g2 g3 : Text) : Text :=
  t!"lt-proc -b '" ++ g3 ++ t!"' | apertium-transfer -b '" ++ g1 ++ t!"' '" ++ g2 ++ t!"'"

/-- `std::regex_replace`, looking at no more than `n` places. -/
def convertN : Nat → Text → Text
  | 0, s => s
  | _ + 1, [] => []
  | n + 1, c :: s =>
    match matchAt (c :: s) with
    | some (g1, g2, g3, r) => replacement g1 g2 g3 ++ convertN n r
    | none => c :: convertN n s

/-- `std::regex_replace`. -/
def convert (s : Text) : Text := convertN s.length s

/-- wblank-mode.cc:67-71. -/
def modernise (mode : Text) : Text := if hasSub t!"lt-proc -b" mode then mode else convert mode

/-! ### The stages -/

/-- `find_first_of(" \t\r\n")`. -/
def isBreak (c : Char) : Bool := decide (c = ' ') || decide (c = '\t') || decide (c = '\r') || decide (c = '\n')

/-- wblank-mode.cc:84-92: the option goes before the first white space, or to the end. -/
def addZ (z : Bool) (t : Text) : Text :=
  if z ∧ ¬ hasSub t!" -z" t then
    t.takeWhile (fun c => !isBreak c) ++ t!" -z" ++ t.dropWhile (fun c => !isBreak c)
  else t

/-- wblank-mode.cc:94-101. -/
def addHelper (helpers caps : Bool) (t : Text) : Text :=
  if helpers then t
  else if hasSub t!"automorf.bin" t || hasSub t!"automorf.hfst" t then t ++ t!" | apertium-wblank-attach"
  else if !caps && (hasSub t!"autogen.bin" t || hasSub t!"autogen.hfst" t) then t!"apertium-wblank-detach | " ++ t
  else t

/-- `main` (wblank-mode.cc:37-111) from the text of the input to the line written, without the line's end. -/
def rewrite (z : Bool) (input : Text) : Text :=
  let mode := trim (joinLines input)
  let helpers := hasSub t!"apertium-wblank-" mode
  let caps := hasSub t!"apertium-restore-caps" mode
  join ((splitBar (modernise mode)).map (fun p => addHelper helpers caps (addZ z (trim p))))

end Verif.Mode
