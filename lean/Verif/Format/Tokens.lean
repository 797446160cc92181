import Verif.Format.Spec
/-!
# Small specification of what is text and what is markup

The rules of a format description, the token at a position (the longest match, of the longest the first rule), the tokens of a
document, and the stream that is written for them.  Nothing here is taken from the lexer of the model but the names of its
actions.
-/
namespace Verif.Format

/-- The rules that are active after some open comments (the innermost first), with their rank, in lexicographic order.

Outside comments: the format rules in the order of the file (those with `^` only at the beginning of a line), the replacement
rules, a white-space character, an escape character, any other character but the newline.  In a comment: the format rules of a
smaller priority number than that of the comment, by priority and then in the order of the file; the end of the comment; any
byte. -/
inductive Active (f : Fmt) (bol : Bool) : List Rule → Re → Act → List Nat → Prop where
  | rule (i : Nat) (r : Rule) : f.rules[i]? = some r → (r.bol = true → bol = true) → Active f bol [] r.re (.fmt r) [0, i]
  | repl (i : Nat) (p : Repl) : f.repls[i]? = some p → Active f bol [] p.re (.repl p.table) [1, i]
  | space : Active f bol [] (.cls f.space) .space [2]
  | esc : Active f bol [] (.cls f.escape) .esc [3]
  | other : Active f bol [] (.cls (fun b => decide (b ≠ 0x0A))) .other [4]
  | inner (i : Nat) (r c : Rule) (st : List Rule) : f.rules[i]? = some r → (r.bol = true → bol = true) → r.prio < c.prio →
      Active f bol (c :: st) r.re (.fmt r) [0, r.prio, i]
  | fin (c : Rule) (st : List Rule) (t : Re) : c.fin = some t → Active f bol (c :: st) t .endComment [1]
  | any (c : Rule) (st : List Rule) : Active f bol (c :: st) (.cls (fun _ => true)) .inComment [2]

/-- The token at the beginning of `input` has length `n` and is made by `a`. -/
structure Chosen (f : Fmt) (bol : Bool) (stack : List Rule) (input : Bytes) (n : Nat) (a : Act) : Prop where
  pos : 0 < n
  le : n ≤ input.length
  first : ∃ r k, Active f bol stack r a k ∧ r.Matches (input.take n) ∧
    ∀ r' a' k', Active f bol stack r' a' k' → k' < k → ¬ r'.Matches (input.take n)
  longest : ∀ r' a' k', Active f bol stack r' a' k' → ∀ j, n < j → j ≤ input.length → ¬ r'.Matches (input.take j)

/-- Markup, with the information whether it ends a sentence or a header; or text, as it is shown in the stream. -/
inductive Tok where
  | markup (t : Bytes) (eos eoh : Bool)
  | text (shown : Bytes)

/-- Format, white space and comments are markup; an escape character is shown with a backslash; an entity of a replacement table
(the last entry for it) is shown as its target, one that is not in the table is markup; all other characters are shown. -/
def tokOf (a : Act) (t : Bytes) : Tok :=
  match a with
  | .fmt r => .markup t r.eos r.eoh
  | .repl tbl =>
    match tbl.reverse.find? (fun p => decide (p.1 = t)) with
    | some p => .text p.2.1
    | none => .markup t false false
  | .space => .markup t false false
  | .endComment => .markup t false false
  | .inComment => .markup t false false
  | .esc => .text (0x5C :: t)
  | .other => .text t

/-- A rule with an end opens a comment, the end closes it. -/
def stackOf (a : Act) (stack : List Rule) : List Rule :=
  match a with
  | .fmt r => if r.fin.isSome then r :: stack else stack
  | .endComment => stack.tail
  | _ => stack

/-- The tokens of a document. -/
inductive Lexed (f : Fmt) : Bool → List Rule → Bytes → List Tok → Prop where
  | nil (bol : Bool) (stack : List Rule) : Lexed f bol stack [] []
  | cons {bol : Bool} {stack : List Rule} {input : Bytes} {n : Nat} {a : Act} {ts : List Tok} :
      Chosen f bol stack input n a →
      Lexed f (decide ((input.take n).getLast? = some 0x0A)) (stackOf a stack) (input.drop n) ts →
      Lexed f bol stack input (tokOf a (input.take n) :: ts)

/-- The markup between two texts. -/
structure Gap where
  all : Bytes := []
  eos : Bool := false
  eoh : Bool := false

/-- How it is written: nothing and a single space as they are, more than `large` characters in a file, else in brackets; with
`-i` after a mark. -/
def blankOf (f : Fmt) (o : Opts) (name : Bytes) (w : Bytes) : Bytes :=
  if w = [] ∨ w = [0x20] then w
  else (if o.eosIncond then mark o else []) ++
    (if u16size w > f.large then [0x5B, 0x40] ++ name ++ [0x5D] else [0x5B] ++ quoted f w ++ [0x5D])

/-- The marks before it: with `-o` the end of a header, and (without `-i`) the end of a sentence. -/
def marksOf (o : Opts) (g : Gap) : Bytes :=
  (if g.eoh && o.markEoh then [0x5B, 0x5D, 0xE2, 0x9D, 0xA1] else []) ++ (if g.eos && !o.eosIncond then mark o else [])

/-- The stream for some tokens: `g` is the markup just before, `k` the number of files written.  The end of the document ends a
sentence. -/
def written (f : Fmt) (o : Opts) (e : Env) : Nat → Gap → List Tok → Bytes
  | k, g, [] => (if o.eosIncond then mark o else []) ++ marksOf o { g with eos := true } ++ blankOf f o (e.tmp k) g.all
  | k, g, .markup t eos eoh :: ts => written f o e k ⟨g.all ++ t, g.eos || eos, g.eoh || eoh⟩ ts
  | k, g, .text x :: ts =>
    marksOf o g ++ blankOf f o (e.tmp k) g.all ++ x ++ written f o e (if u16size g.all > f.large then k + 1 else k) {} ts

end Verif.Format
