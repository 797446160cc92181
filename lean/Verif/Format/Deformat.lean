import Verif.Format.Flex
/-!
# Model of the deformatters (apertium/deformat.xsl with a `*-format.xml`), in their normal (not matxin) mode

The stylesheet turns a format description into a flex lexer.  The model interprets the description: `Fmt` is the part of a
`*-format.xml` file that the stylesheet uses, `deformat` is the program it generates.  Everything is in bytes.  Simplifications,
stated here once:

* `to_ustring` is lttoolbox's.  Together with the conversion back it is the identity on valid UTF-8; what it makes of other
  bytes is left open (`Env.toU`).
* A temporary file can always be written; `tmpnam` gives the names `Env.tmp 0`, `Env.tmp 1`, …
* `regexec` with `escape-chars` finds the bytes of that set; all the sets are ASCII.
* The `begin` expressions of the comment rules are different from each other (deformat.xsl:66-70 compares them to number the
  start conditions).
-/
namespace Verif.Format

/-- One `format-rule` of a format description: `fin` is the `end` of a comment rule, which has a `begin` in `re`; `bol` is for
an expression with `^`, that is only tried at the beginning of a line. -/
structure Rule where
  re : Re
  bol : Bool := false
  fin : Option Re := none
  eos : Bool := false
  eoh : Bool := false
  prio : Nat

/-- A `replacement-rule`: an expression and the table of its `replace` elements (source, target, `prefer="yes"`). -/
structure Repl where
  re : Re
  table : List (Bytes × Bytes × Bool)

/-- A format description (`format.dtd`). -/
structure Fmt where
  large : Nat
  escape : UInt8 → Bool
  space : UInt8 → Bool
  rules : List Rule
  repls : List Repl := []

/-- The options `-n`, `-i` and `-o` (deformat.xsl:681-700). -/
structure Opts where
  noDot : Bool := false
  eosIncond : Bool := false
  markEoh : Bool := false

/-- What the program takes from outside: the names that `tmpnam` gives, and `to_ustring` followed by the conversion back. -/
structure Env where
  tmp : Nat → Bytes
  toU : Bytes → Bytes

/-- The actions of the generated lexer. -/
inductive Act where
  | fmt (r : Rule)
  | repl (t : List (Bytes × Bytes × Bool))
  | space
  | esc
  | other
  | endComment
  | inComment

/-- The global variables of the program, with the start-condition stack, flex's beginning-of-line flag, the output and the
temporary files. -/
structure St where
  out : Bytes := []
  buf : Bytes := []
  sym : Bytes := []
  isDot : Bool := false
  isEoh : Bool := false
  stack : List Rule := []
  bol : Bool := true
  files : List (Bytes × Bytes) := []
  made : Nat := 0

/-- The part of a string that a `char const *` shows. -/
def cstr (s : Bytes) : Bytes := s.takeWhile (fun b => decide (b ≠ 0))

/-- `buffer.size()`: the number of UTF-16 units of a text in UTF-8. -/
def u16size (s : Bytes) : Nat :=
  (s.filter (fun b => decide (b.toNat < 128 ∨ 192 ≤ b.toNat))).length + (s.filter (fun b => decide (240 ≤ b.toNat))).length

/-- `escape` (deformat.xsl:249-277). -/
def escapeBuf (f : Fmt) (s : Bytes) : Bytes := s.flatMap (fun b => if f.escape b then [0x5C, b] else [b])

/-- The sentence mark: `[]` or `.[]`. -/
def mark (o : Opts) : Bytes := if o.noDot then [0x5B, 0x5D] else [0x2E, 0x5B, 0x5D]

/-- `preDot` (deformat.xsl:448-461). -/
def preDot (o : Opts) (s : St) : St := if o.eosIncond then { s with out := s.out ++ mark o } else s

/-- The end-of-header mark (deformat.xsl:465-469). -/
def eohMark (o : Opts) (s : St) : St :=
  if s.isEoh && o.markEoh then { s with out := s.out ++ [0x5B, 0x5D, 0xE2, 0x9D, 0xA1], isEoh := false } else s

/-- The end-of-sentence mark (deformat.xsl:470-481). -/
def dotMark (o : Opts) (s : St) : St :=
  if s.isDot && !o.eosIncond then { s with out := s.out ++ mark o, isDot := false } else s

/-- A superblank (deformat.xsl:494-518): `tmp[0]` of an empty text is not looked at, since the buffer is not empty. -/
def superblank (f : Fmt) (w : Bytes) : Bytes :=
  let t := escapeBuf f w
  [0x5B] ++ (if t.head? = some 0x40 then [0x5C] else []) ++ t ++ [0x5D]

/-- The buffer itself (deformat.xsl:482-524). -/
def flushBuf (f : Fmt) (o : Opts) (e : Env) (s : St) : St :=
  if u16size s.buf > f.large then
    let s := preDot o s
    { s with out := s.out ++ [0x5B, 0x40] ++ e.tmp s.made ++ [0x5D], files := s.files ++ [(e.tmp s.made, s.buf)],
             made := s.made + 1, buf := [] }
  else if u16size s.buf > 1 ∨ (u16size s.buf = 1 ∧ s.buf ≠ [0x20]) then
    let s := preDot o s
    { s with out := s.out ++ superblank f s.buf, buf := [] }
  else { s with out := s.out ++ s.buf, buf := [] }

/-- `printBuffer` (deformat.xsl:463-525). -/
def printBuffer (f : Fmt) (o : Opts) (e : Env) (s : St) : St := flushBuf f o e (dotMark o (eohMark o s))

/-- A rule is put before the first that does not have a smaller priority. -/
def insPrio (r : Rule) : List Rule → List Rule
  | [] => [r]
  | q :: qs => if r.prio ≤ q.prio then r :: q :: qs else q :: insPrio r qs

/-- The format rules in the order of their priority, those of the same priority as they are in the file (deformat.xsl:550-551). -/
def byPrio : List Rule → List Rule
  | [] => []
  | r :: rs => insPrio r (byPrio rs)

/-- The rules of the lexer in the start condition on the top of the stack (deformat.xsl:544-586 inside a comment, 588-649
outside), those with `^` only at the beginning of a line.  `\n|.` is every byte, `.` every byte but the newline. -/
def lexRules (f : Fmt) (bol : Bool) : List Rule → List (Re × Act)
  | [] => (f.rules.filter (fun r => !r.bol || bol)).map (fun r => (r.re, .fmt r)) ++ f.repls.map (fun p => (p.re, .repl p.table)) ++
      [(.cls f.space, .space), (.cls f.escape, .esc), (.cls (fun b => decide (b ≠ 0x0A)), .other)]
  | c :: _ => ((byPrio f.rules).filter (fun r => decide (r.prio < c.prio) && (!r.bol || bol))).map (fun r => (r.re, .fmt r)) ++
      [(c.fin.getD .none, .endComment), (.cls (fun _ => true), .inComment)]

/-- `bufferAppend(buffer, yytext)` (deformat.xsl:189-192). -/
def appendBuf (e : Env) (text : Bytes) (s : St) : St := { s with buf := s.buf ++ e.toU (cstr text) }

/-- The actions of the rules. -/
def act (f : Fmt) (o : Opts) (e : Env) (a : Act) (text : Bytes) (s : St) : St :=
  match a with
  | .fmt r =>
    -- deformat.xsl:46-78
    let s := appendBuf e text { s with isDot := s.isDot || r.eos, isEoh := s.isEoh || r.eoh }
    if r.fin.isSome then { s with stack := r :: s.stack } else s
  | .repl t =>
    -- deformat.xsl:600-616; of two entries with the same source the last is kept (281-298)
    match t.reverse.find? (fun p => decide (p.1 = cstr text)) with
    | some p => let s := printBuffer f o e s; { s with out := s.out ++ p.2.1 }
    | none => appendBuf e text s
  | .space => appendBuf e text s
  | .esc =>
    -- deformat.xsl:626-636
    let s := printBuffer f o e s
    { s with out := s.out ++ [0x5C] ++ text }
  | .other =>
    -- deformat.xsl:638-649
    let s := printBuffer f o e s
    let y := s.sym ++ cstr text
    if isValid y then { s with out := s.out ++ y, sym := [] } else { s with sym := y }
  | .endComment =>
    -- deformat.xsl:568-572
    let s := appendBuf e text s
    { s with stack := s.stack.tail }
  | .inComment =>
    -- deformat.xsl:574-583
    let y := s.sym ++ cstr text
    if isValid y then { s with buf := s.buf ++ y, sym := [] } else { s with sym := y }

/-- One turn of the lexer: the rule taken and its action, or one byte copied (flex's default rule); the next turn is at the
beginning of a line if the text ended with a newline. -/
def turn (f : Fmt) (o : Opts) (e : Env) (input : Bytes) (s : St) : Bytes × St :=
  match pick (lexRules f s.bol s.stack) input with
  | some (n, a) =>
    (input.drop n, { act f o e a (input.take n) s with bol := decide ((input.take n).getLast? = some 0x0A) })
  | none => (input.drop 1, { s with out := s.out ++ input.take 1, bol := decide ((input.take 1).getLast? = some 0x0A) })

/-- `yylex`, up to the end of the input; each turn consumes at least one byte, so the length of the input is fuel enough. -/
def lexLoop (f : Fmt) (o : Opts) (e : Env) : Nat → Bytes → St → St
  | 0, _, s => s
  | _ + 1, [], s => s
  | n + 1, input, s => let t := turn f o e input s; lexLoop f o e n t.1 t.2

/-- `<<EOF>>` (deformat.xsl:651-657). -/
def atEof (f : Fmt) (o : Opts) (e : Env) (s : St) : St := printBuffer f o e (preDot o { s with isDot := true })

/-- The whole deformatter on an input. -/
def deformat (f : Fmt) (o : Opts) (e : Env) (input : Bytes) : St := atEof f o e (lexLoop f o e input.length input {})

end Verif.Format
