import Verif.Format.Deformat
/-!
# Model of the reformatters (apertium/reformat.xsl with a `*-format.xml`)

The rules of the generated lexer are written out as a function; longer matches are tried first, as flex does.
-/
namespace Verif.Format

/-- What the reformatter leaves behind: its output, the files that are still there, and whether it ended normally. -/
structure ReOut where
  out : Bytes
  files : List (Bytes × Bytes)
  ok : Bool
  deriving DecidableEq

/-- The text of a file. -/
def readFile (fs : List (Bytes × Bytes)) (name : Bytes) : Option Bytes := (fs.find? (fun p => decide (p.1 = name))).map (·.2)

/-- `unlink`. -/
def unlink (fs : List (Bytes × Bytes)) (name : Bytes) : List (Bytes × Bytes) := fs.filter (fun p => decide (p.1 ≠ name))

/-- The text written for one ordinary byte (reformat.xsl:108-131): the tables have the preferred replacements, by target, of two
with the same target the last (reformat.xsl:41-61); the key is one byte, so only a target of one byte can be found. -/
def reByte (f : Fmt) (b : UInt8) : Bytes :=
  match f.repls.findSome? (fun p => p.table.reverse.find? (fun q => decide (q.2.2 = true ∧ q.2.1 = cstr [b]))) with
  | some q => q.1
  | none => cstr [b]

/-- One rule of the lexer: what is left of the input, and what it does. -/
inductive ReAct where
  | put (t : Bytes)
  | file (name : Bytes)

/-- After an opening bracket: the rest of `[@…]`, of `[\@` or nothing (reformat.xsl:71-96). -/
def reOpen (r : Bytes) : Bytes × ReAct :=
  let name := (r.drop 1).takeWhile (fun b => decide (b ≠ 0x5D))
  if r.head? = some 0x40 ∧ name ≠ [] ∧ 0x5D ∈ r then (r.drop (name.length + 2), .file name)
  else if r.take 2 = [0x5C, 0x40] then (r.drop 2, .put [0x40])
  else (r, .put [])

/-- After a backslash: an escape character, or any byte (reformat.xsl:102-131). -/
def reSlash (f : Fmt) : Bytes → Bytes × ReAct
  | [] => ([], .put (reByte f 0x5C))
  | b :: r => if f.escape b then (r, .put [b]) else (b :: r, .put (reByte f 0x5C))

/-- The choice of the rule (reformat.xsl:71-131): `[@…]`, `[\@`, a bracket, `.[]`, a backslash with an escape character, any
byte. -/
def reTurn (f : Fmt) : Bytes → Bytes × ReAct
  | [] => ([], .put [])
  | b :: r =>
    if b = 0x5B then reOpen r
    else if b = 0x5D then (r, .put [])
    else if b = 0x2E ∧ r.take 2 = [0x5B, 0x5D] then (r.drop 2, .put [])
    else if b = 0x5C then reSlash f r
    else (r, .put (reByte f b))

/-- `yylex` of the reformatter; a missing file ends the program (reformat.xsl:82-86). -/
def reLoop (f : Fmt) : Nat → Bytes → ReOut → ReOut
  | 0, _, s => s
  | _ + 1, [], s => s
  | n + 1, input, s =>
    match reTurn f input with
    | (rest, .put t) => reLoop f n rest { s with out := s.out ++ t }
    | (rest, .file name) =>
      match readFile s.files (cstr name) with
      | none => { s with ok := false }
      | some c => reLoop f n rest { s with out := s.out ++ c, files := unlink s.files (cstr name) }

/-- The whole reformatter. -/
def reformat (f : Fmt) (files : List (Bytes × Bytes)) (input : Bytes) : ReOut :=
  reLoop f input.length input ⟨[], files, true⟩

end Verif.Format
