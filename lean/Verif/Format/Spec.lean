import Verif.Format.Deformat
/-!
# Small specification of the deformatted stream

A deformatted text is a sequence of pieces.  `Piece.render` is how a piece looks in the stream, `Piece.plain` is what it stands
for in the document.
-/
namespace Verif.Format

inductive Piece where
  /-- a byte of the text to be translated -/
  | chr (b : UInt8)
  /-- a byte of the text that has a meaning in the stream, with its backslash -/
  | esc (b : UInt8)
  /-- an artificial end of sentence -/
  | mark
  /-- the end of a header, written with `-o` -/
  | hmark
  /-- a piece of format in brackets -/
  | blank (w : Bytes)
  /-- a large piece of format in a file -/
  | big (name : Bytes) (content : Bytes)

/-- The bytes of a superblank: those with a meaning in the stream have a backslash; an initial `@` always has one. -/
def quoted (f : Fmt) : Bytes → Bytes
  | [] => []
  | b :: w => (if f.escape b ∨ b = 0x40 then [0x5C, b] else [b]) ++ w.flatMap (fun c => if f.escape c then [0x5C, c] else [c])

def Piece.render (f : Fmt) (o : Opts) : Piece → Bytes
  | .chr b => [b]
  | .esc b => [0x5C, b]
  | .mark => if o.noDot then [0x5B, 0x5D] else [0x2E, 0x5B, 0x5D]
  | .hmark => [0x5B, 0x5D, 0xE2, 0x9D, 0xA1]
  | .blank w => [0x5B] ++ quoted f w ++ [0x5D]
  | .big n _ => [0x5B, 0x40] ++ n ++ [0x5D]

def Piece.plain : Piece → Bytes
  | .chr b => [b]
  | .esc b => [b]
  | .mark => []
  | .hmark => []
  | .blank w => w
  | .big _ c => c

/-- The files of the large blocks, in their order. -/
def Piece.file : Piece → List (Bytes × Bytes)
  | .big n c => [(n, c)]
  | _ => []

/-- A piece that can stand in a stream: no escape character without its backslash, no empty superblank, a name that is not
empty and has no bracket. -/
def Piece.Good (f : Fmt) : Piece → Prop
  | .chr b => f.escape b = false ∧ b ≠ 0
  | .esc b => f.escape b = true
  | .mark => True
  | .hmark => True
  | .blank w => w ≠ [] ∧ 0 ∉ w
  | .big n _ => n ≠ [] ∧ 0x5D ∉ n ∧ 0x5C ∉ n ∧ 0x5B ∉ n ∧ 0 ∉ n

def renderAll (f : Fmt) (o : Opts) (ps : List Piece) : Bytes := ps.flatMap (·.render f o)
def plainAll (ps : List Piece) : Bytes := ps.flatMap (·.plain)
def filesAll (ps : List Piece) : List (Bytes × Bytes) := ps.flatMap (·.file)

/-- `y` is `x` with some of the sources of the replacement tables of the format put in the form of their targets. -/
inductive Decoded (f : Fmt) : Bytes → Bytes → Prop where
  | nil : Decoded f [] []
  | keep {x y} (b : UInt8) : Decoded f x y → Decoded f (b :: x) (b :: y)
  | repl {x y} (p : Repl) (q : Bytes × Bytes × Bool) : p ∈ f.repls → q ∈ p.table → Decoded f x y →
      Decoded f (q.1 ++ x) (q.2.1 ++ y)

/-- The longest match of the expression does not begin or end in the middle of a character: a match that begins or ends with a
byte above 127 is still one with another such byte there. -/
structure Whole (r : Re) : Prop where
  start : ∀ c s, r.Matches (c :: s) → 128 ≤ c.toNat → ∀ b : UInt8, 128 ≤ b.toNat → r.Matches (b :: c :: s)
  stop : ∀ s c, r.Matches (s ++ [c]) → 128 ≤ c.toNat → ∀ b : UInt8, 128 ≤ b.toNat → r.Matches (s ++ [c, b])

/-- The format descriptions the theorems are about: the brackets and the backslash are escape characters, the space and the full stop are not;
the newline is a space character; the two sets are ASCII; the expressions do not cut characters in two; the targets of the replacements have no escape character; and a preferred replacement has a target of more than
one byte, so that the reformatter never uses it, or does nothing. -/
structure Fmt.Plain (f : Fmt) : Prop where
  lb : f.escape 0x5B = true
  rb : f.escape 0x5D = true
  bs : f.escape 0x5C = true
  sp : f.escape 0x20 = false
  dot : f.escape 0x2E = false
  nl : f.space 0x0A = true
  escAscii : ∀ b, f.escape b = true → b.toNat < 128
  spaceAscii : ∀ b, f.space b = true → b.toNat < 128
  rules : ∀ r ∈ f.rules, Whole r.re ∧ ∀ t, r.fin = some t → Whole t
  replRe : ∀ p ∈ f.repls, Whole p.re
  repls : ∀ p ∈ f.repls, ∀ q ∈ p.table, (∀ b ∈ q.2.1, f.escape b = false ∧ b ≠ 0) ∧
    (q.2.2 = true → q.2.1.length ≠ 1 ∨ q.1 = q.2.1)
  large : 1 ≤ f.large

/-- What is asked of the environment: `tmpnam` gives different names, that are not empty and have neither brackets nor
backslashes, and `to_ustring` is faithful on UTF-8. -/
structure Env.Ok (e : Env) : Prop where
  inj : ∀ i j, e.tmp i = e.tmp j → i = j
  good : ∀ i, e.tmp i ≠ [] ∧ 0x5D ∉ e.tmp i ∧ 0x5C ∉ e.tmp i ∧ 0x5B ∉ e.tmp i ∧ 0 ∉ e.tmp i
  toU : ∀ s, isValid s = true → e.toU s = s

end Verif.Format
