import Verif.Base
/-!
# Model of apertium-tmxbuild around the aligner (tmx_builder.cc)

`space`, `alpha` and `word` are ICU's `u_isspace`, `u_isalpha` and "`u_isalnum` or `u_ispunct`"; they are parameters.
-/
namespace Verif.Tmx

/-- The classes of characters. -/
structure Ctype where
  space : Char → Bool
  alpha : Char → Bool
  word : Char → Bool

/-- What we assume of ICU: `&`, `;` are punctuation, `\` is not a space. -/
structure Ctype.Ok (k : Ctype) : Prop where
  amp : k.word '&' = true
  semi : k.word ';' = true
  back : k.space '\\' = false

/-- `restOfBlank` (tmx_builder.cc:62-71) after the `[` (lttoolbox's `readBlock` is assumed to read up to the first unescaped `]`): the text between the brackets and
the rest; `none` if the blank does not end (the code then returns the empty string). -/
def restOfBlank : Text → Option (Text × Text)
  | [] => none
  | c :: rest =>
    if c = ']' then some ([], rest)
    else if c = '\\' then
      match rest with
      | [] => none
      | d :: rest => (restOfBlank rest).map fun x => (c :: d :: x.1, x.2)
    else (restOfBlank rest).map fun x => (c :: x.1, x.2)

/-- What a blank becomes (tmx_builder.cc:180-191); `b` is the text between the brackets. -/
def placeholder (b : Text) : Text :=
  (if b.head? = some ' ' then [' '] else []) ++ t!"<ph/>" ++ (if b.getLast? = some ' ' then [' '] else [])

/-- `nextTU` (tmx_builder.cc:156-227): the sentence, and the rest of the input (`none` if the end of the input was seen).  In a blank that does not end,
`tmp.substr(tmp.size()-2, 2)` throws. `n` is more than the length of the input. -/
def nextTU (k : Ctype) : Nat → Text → Text → Outcome (Text × Option Text)
  | 0, _, _ => .fail
  | _ + 1, cur, [] => .ok (cur, none)
  | n + 1, cur, c :: rest =>
    if c = '\\' then
      match rest with
      | [] => .ok (cur, none)
      | d :: rest => nextTU k n (cur ++ [d]) rest
    else if c = '[' then
      match restOfBlank rest with
      | none => .fail
      | some (b, rest) => nextTU k n (cur ++ placeholder b) rest
    else if c = '.' then
      match rest with
      | [] => .ok (cur ++ [c], none)
      | d :: rest' => if d = '[' ∨ k.space d then .ok (cur ++ [c], some (d :: rest')) else nextTU k n (cur ++ [c]) (d :: rest')
    else if c = '?' ∨ c = '!' then .ok (cur ++ [c], some rest)
    else nextTU k n (cur ++ [c]) rest

/-- `sentenceList` (tmx_builder.cc:359-374); `n` is more than the length of the input. -/
def sentenceList (k : Ctype) : Nat → Text → Outcome (List Text)
  | 0, _ => .fail
  | n + 1, t => do
    let (f, rest) ← nextTU k (t.length + 1) [] t
    match rest with
    | none => .ok []
    | some rest => do
      let l ← sentenceList k n rest
      .ok (f :: l)

/-- The sentences of a file (tmx_builder.cc:459-468: `splitAndMove` writes them). -/
def sentencesOf (k : Ctype) (t : Text) : Outcome (List Text) := sentenceList k (t.length + 1) t

/-- The first loop of `xmlize` (tmx_builder.cc:234-263). -/
def escape : Text → Text
  | [] => []
  | '<' :: 'p' :: 'h' :: '/' :: '>' :: t => t!"<ph/>" ++ escape t
  | c :: t => (if c = '<' then t!"&lt;" else if c = '>' then t!"&gt;" else if c = '&' then t!"&amp;" else [c]) ++ escape t

/-- The first inner loop at the front (tmx_builder.cc:271-275). -/
def dropPh : Text → Text
  | '<' :: 'p' :: 'h' :: '/' :: '>' :: t => dropPh t
  | t => t

/-- The loops at the front (tmx_builder.cc:265-281); `n` is more than the length. -/
def stripFront (k : Ctype) : Nat → Text → Text
  | 0, t => t
  | n + 1, t =>
    let u := (dropPh t).dropWhile fun c => !k.word c
    if u.length = t.length then u else stripFront k n u

/-- The first inner loop at the end (tmx_builder.cc:288-292); `t` is the text from its end; more than five characters. -/
def dropPhEnd : Text → Text
  | '>' :: '/' :: 'h' :: 'p' :: '<' :: c :: t => dropPhEnd (c :: t)
  | t => t

/-- The loops at the end (tmx_builder.cc:282-298), on the text from its end. -/
def stripEnd (k : Ctype) : Nat → Text → Text
  | 0, t => t
  | n + 1, t =>
    let u := (dropPhEnd t).dropWhile fun c => !k.word c
    if u.length = t.length then u else stripEnd k n u

/-- The `for` loop for the punctuation at the end (tmx_builder.cc:303-310), on the text from its end: it finds a character that is not a full stop, but not the first of
the text. -/
def cutDots : Text → Option Text
  | [] => none
  | [_] => none
  | c :: t => if c = '.' then cutDots t else some (c :: t)

/-- tmx_builder.cc:300-315: the `for` loop and the `while` loop, on the text from its end. -/
def stripDots (t : Text) : Text := ((cutDots t).getD t).dropWhile fun c => decide (c = '.')

/-- `xmlize` (tmx_builder.cc:229-318). -/
def xmlize (k : Ctype) (s : Text) : Text :=
  let r := escape s
  let r := stripFront k (r.length + 1) r
  let r := stripEnd k (r.length + 1) r.reverse
  (stripDots r).reverse

/-- The loop of `filter` (tmx_builder.cc:733-746): is there a letter, and how many spaces are there after the first letter? -/
def countBlank (k : Ctype) : Bool → Nat → Text → Bool × Nat
  | has, n, [] => (has, n)
  | has, n, c :: t => if k.alpha c then countBlank k true n t else if has && k.space c then countBlank k has (n + 1) t else countBlank k has n t

/-- `filter` (tmx_builder.cc:730-754). -/
def filter (k : Ctype) (tu : Text) : Text :=
  let r := countBlank k false 0 tu
  if !r.1 || decide (r.2 ≤ 2) || tu.isEmpty then [] else xmlize k tu

/-- `printTU` (tmx_builder.cc:756-769): the two segments of the unit that is written, if one is. -/
def printTU (k : Ctype) (tu1 tu2 : Text) : Option (Text × Text) :=
  let a := filter k tu1
  let b := filter k tu2
  if a.isEmpty && !b.isEmpty then some (a, b) else none

/-- The state of the loop of `outputTU`: `conta` and `partes`. -/
structure Parts where
  conta : Nat
  p0 : Text
  p1 : Text
  deriving DecidableEq, Repr

/-- One round of the loop (tmx_builder.cc:496-514): the new state and the arguments of `printTU`, if it is called. -/
def Parts.step (s : Parts) (val : Char) : Parts × Option (Text × Text) :=
  let s' : Parts := if val = '\t' then { s with conta := s.conta + 1 } else if val = '\n' then ⟨0, [], []⟩ else s
  let call := if val = '\n' ∧ s.p0 ≠ [] ∧ s.p1 ≠ [] then some (s.p0, s.p1) else none
  (if s'.conta = 0 then { s' with p0 := s'.p0 ++ [val] } else if s'.conta = 1 then { s' with p1 := s'.p1 ++ [val] } else s', call)

/-- The loop (tmx_builder.cc:490-515): the calls of `printTU`.  (The round for the end of the input calls nothing.) -/
def readPairs : Parts → Text → List (Text × Text)
  | _, [] => []
  | s, c :: t => (s.step c).2.toList ++ readPairs (s.step c).1 t

/-- The units that `outputTU` writes (tmx_builder.cc:470-519) from the output of the aligner. -/
def outputUnits (k : Ctype) (aligned : Text) : List (Text × Text) :=
  (readPairs ⟨0, [], []⟩ aligned).filterMap fun p => printTU k p.1 p.2

/-! ## Examples -/

/-- ICU on a few characters. -/
def ascii : Ctype where
  space := fun c => c = ' ' ∨ c = '\n' ∨ c = '\t'
  alpha := fun c => c.isAlpha
  word := fun c => c.isAlphanum ∨ c ∈ ['.', ',', '?', '!', '&', ';', '/', '-']

theorem ascii_ok : ascii.Ok := ⟨by decide, by decide, by decide⟩

example : sentencesOf ascii t!"Hi[ <b>]you. Yes?[]No end" = .ok [t!"Hi <ph/>you.", t!" Yes?"] := by decide +kernel
example : xmlize ascii t!"<ph/> a < b & c <ph/>..." = t!"a &lt; b &amp; c <ph/>" := by decide +kernel

end Verif.Tmx
