/-
  `apertium-adapt-docx` (C87), which apertium-header.sh 300 runs over the XML
  of a Word document before the deformatter.  apertium/adapt_docx.cc.

  The XML tree is libxml2's, parsed with `XML_PARSE_NOENT` (line 404): elements
  with their local name and their own `xml:space`, text, CDATA and the rest.
  Attributes other than `xml:space` play no part and are left out, and so are
  the parsing and the printing of the tree; the last step of the printing, the
  removal of newlines, is `printAll` below.

  The program counts bytes of UTF-8; here a text is a list of characters and the
  counts are of characters.  All the positions that occur lie between two
  characters (they begin as lengths of texts of nodes and move by whole
  characters, lines 255-304), so comparing the counts is the same.
-/
import Verif.Base

namespace Verif.Docx

/-- A node.  `space` is the element's own `xml:space`: `some true` is "preserve",
    `some false` is "default". -/
inductive Xml where
  | elem (name : String) (space : Option Bool) (kids : List Xml)
  | text (s : Text)
  | cdata (s : Text)
  /-- a comment or a processing instruction -/
  | note (s : Text)

/-- apertium/adapt_docx.cc 279-281: the middle dot of Catalan `l·l`, 0xB7. -/
def dot : Char := '\u00B7'

/-- apertium/adapt_docx.cc 279-282, 295: `cur == 'L' || cur == 'l'`. -/
def isL (c : Char) : Bool := decide (c = 'L') || decide (c = 'l')

/-- apertium/adapt_docx.cc 272-282: `advance`, `expectAlpha` and `expectL`; `alpha` is ICU's `u_isalpha`. -/
def decision (alpha : Char → Bool) (c2 c1 cur : Char) : Bool × Bool × Bool :=
  if alpha c1 && alpha cur then (true, false, false)                     -- ?a|a
  else if alpha c2 && decide (c1 = '-') then (alpha cur, false, false)   -- a-|?
  else if alpha c1 && decide (cur = '-') then (false, true, false)       -- ?a|-
  else if isL c2 && decide (c1 = dot) then (isL cur, false, false)       -- l·|?
  else if isL c1 && decide (cur = dot) then (false, false, true)         -- ?l|·
  else (false, false, false)

/-- apertium/adapt_docx.cc 270-302: the loop of `findBoundary`: how many characters the iterator
    moves on.  `c2` and `c1` are `cur_2` and `cur_1`, the list begins with `cur`. -/
def scan (alpha : Char → Bool) : Char → Char → Text → Nat
  | _, _, [] => 0
  | c2, c1, cur :: rest =>
    let k := decision alpha c2 c1 cur
    if k.1 || k.2.1 || k.2.2 then
      match rest with
      | [] => 1
      | nxt :: _ =>
        if k.2.1 && !alpha nxt then 0
        else if k.2.2 && !isL nxt then 0
        else 1 + scan alpha c1 cur rest
    else 0

/-- apertium/adapt_docx.cc 255-304, `findBoundary`. -/
def findBoundary (alpha : Char → Bool) (text : Text) (b : Nat) : Nat :=
  if b = 0 ∨ b ≥ text.length then b
  else
    let c1 := text.getD (b - 1) '\x00'
    let c2 := if b - 1 = 0 then '\x00' else text.getD (b - 2) '\x00'
    b + scan alpha c2 c1 (text.drop b)

/-- The variables of `adjust`, apertium/adapt_docx.cc 312-314. -/
structure St where
  lengths : List Nat
  left : Nat
  right : Nat
  endLeft : Nat
  changes : Bool

/-- apertium/adapt_docx.cc 329-343: the inner loop of `adjust`.  `none` would be a subscript outside
    the vector (or a loop that is not done in `fuel` rounds). -/
def move : Nat → List Nat → Nat → Nat → Nat → Nat → Option (List Nat × Nat × Nat)
  | fuel, L, left, right, endLeft, toMove =>
    if toMove > 0 ∧ right < L.length then
      match fuel with
      | 0 => none
      | fuel + 1 =>
        (L[left]?).bind fun l =>
        (L[right]?).bind fun r =>
        if toMove ≥ r then
          move fuel ((L.set left (l + r)).set right 0) left (right + 1) (endLeft + r) (toMove - r)
        else
          move fuel ((L.set left (l + toMove)).set right (r - toMove)) left right (endLeft + toMove) 0
    else some (L, right, endLeft)

/-- apertium/adapt_docx.cc 345-346 (and 321-322): `++left; endLeft += lengths[left];` -/
def advance (s : St) : Option St :=
  (s.lengths[s.left + 1]?).map fun l =>
    { s with left := s.left + 1, endLeft := s.endLeft + l }

/-- apertium/adapt_docx.cc 315-347: one round of the loop of `adjust`. -/
def round (alpha : Char → Bool) (join : Text) (s : St) : Option St :=
  if s.left = s.right then some { s with right := s.right + 1 }
  else
    (s.lengths[s.left]?).bind fun l =>
    if l = 0 then advance s
    else
      let toMove := findBoundary alpha join s.endLeft - s.endLeft
      if toMove > 0 then
        (move (s.lengths.length + 1) s.lengths s.left s.right s.endLeft toMove).bind
          fun (L, right, endLeft) =>
            advance { lengths := L, left := s.left, right := right, endLeft := endLeft, changes := true }
      else advance s

/-- apertium/adapt_docx.cc 315-347: the loop of `adjust`. -/
def loop (alpha : Char → Bool) (join : Text) : Nat → St → Option St
  | 0, s => if s.right < s.lengths.length then none else some s
  | fuel + 1, s =>
    if s.right < s.lengths.length then (round alpha join s).bind (loop alpha join fuel) else some s

/-- apertium/adapt_docx.cc 308-347: the first half of `adjust`: the new lengths, if anything changed. -/
def adjust (alpha : Char → Bool) (join : Text) (lengths : List Nat) : Option (Option (List Nat)) :=
  if lengths.length = 1 then some none
  else
    (lengths[0]?).bind fun l0 =>
    (loop alpha join (2 * lengths.length)
      { lengths := lengths, left := 0, right := 1, endLeft := l0, changes := false }).map
      fun s => if s.changes then some s.lengths else none

/-- apertium/adapt_docx.cc 178-186: without `xml:space="preserve"` the spaces at both ends of a
    text node are dropped. -/
def trim (c : Text) : Text :=
  ((c.dropWhile (fun x => decide (x = ' '))).reverse.dropWhile (fun x => decide (x = ' '))).reverse

/-- apertium/adapt_docx.cc 171-189: the text nodes of a `t`. -/
def textOf (preserve : Bool) : List Xml → Text
  | [] => []
  | .text s :: rest => (if preserve then s else trim s) ++ textOf preserve rest
  | _ :: rest => textOf preserve rest

/-- apertium/adapt_docx.cc 89-92: `match` for the element `t`. -/
def isT : Xml → Bool
  | .elem n _ _ => decide (n = "t")
  | _ => false

/-- apertium/adapt_docx.cc 162-193: the constructor of `TextRun` for a child of a paragraph, given
    whether `xml:space="preserve"` is in force around it: the text of the run if the node is an
    `r` with exactly one `t`. -/
def runText (inh : Bool) : Xml → Option Text
  | .elem n sp kids =>
    if n = "r" then
      match kids.filter isT with
      | [.elem _ tsp tk] => some (textOf (tsp.getD (sp.getD inh)) tk)
      | _ => none
    else none
  | _ => none

/-- apertium/adapt_docx.cc 195-199, `setText`: the first child of the `t` is replaced, and
    `xml:space` is set. -/
def setT (s : Text) : Xml → Xml
  | .elem "t" _ kids =>
    .elem "t" (some (decide (s.head? = some ' ') || decide (s.getLast? = some ' ')))
      (match kids with
       | [] => []
       | _ :: ks => .text s :: ks)
  | x => x

/-- apertium/adapt_docx.cc 195-199, `setText` of a run. -/
def setText (s : Text) : Xml → Xml
  | .elem n sp kids => .elem n sp (kids.map (setT s))
  | x => x

/-- apertium/adapt_docx.cc 348-358: the second half of `adjust`: every run gets its piece of the
    text, or is removed. -/
def rewrite (inh : Bool) : List Xml → Text → List Nat → List Xml
  | [], _, _ => []
  | x :: xs, join, L =>
    match runText inh x with
    | none => x :: rewrite inh xs join L
    | some _ =>
      match L with
      | [] => x :: rewrite inh xs join []
      | l :: L =>
        if l = 0 then rewrite inh xs join L
        else setText (join.take l) x :: rewrite inh xs (join.drop l) L

/-- apertium/adapt_docx.cc 217-230 and 368-386: the runs of a paragraph and their adjustment; the
    argument is the list of the children of the paragraph. -/
def adaptPara (alpha : Char → Bool) (inh : Bool) (kids : List Xml) : Option (List Xml) :=
  let texts := kids.filterMap (runText inh)
  if texts.isEmpty then some kids
  else
    (adjust alpha texts.flatten (texts.map List.length)).map fun r =>
      match r with
      | none => kids
      | some L => rewrite inh kids texts.flatten L

mutual
/-- apertium/adapt_docx.cc 363-387, `process`: every element `p` of the tree is adjusted.  The
    program goes through them from the outside in, the model from the inside out; an
    adjustment changes only the `t`s of the children of its own `p` and removes children, so
    the order makes no difference. -/
def adapt (alpha : Char → Bool) (inh : Bool) : Xml → Option Xml
  | .elem n sp kids =>
    (adaptL alpha (sp.getD inh) kids).bind fun ks =>
      if n = "p" then (adaptPara alpha (sp.getD inh) ks).map (.elem n sp)
      else some (.elem n sp ks)
  | .text s => some (.text s)
  | .cdata s => some (.cdata s)
  | .note s => some (.note s)
/-- The same for a list of siblings. -/
def adaptL (alpha : Char → Bool) (inh : Bool) : List Xml → Option (List Xml)
  | [] => some []
  | x :: xs => (adapt alpha inh x).bind fun y => (adaptL alpha inh xs).map (y :: ·)
end

/-- apertium/adapt_docx.cc 389-396, `printNl2spc`: what is printed, and what is left. -/
def nl2spc (p : Text) : Text × Text :=
  let isNl := fun c : Char => decide (c = '\n') || decide (c = '\r')
  (p.takeWhile (fun c => !isNl c) ++ [' '], (p.dropWhile (fun c => !isNl c)).dropWhile isNl)

/-- apertium/adapt_docx.cc 420-422: the `do`-`while` loop; `fuel` is at least the number of characters
    left. -/
def printRest : Nat → Text → Text
  | 0, p => (nl2spc p).1
  | fuel + 1, p => if (nl2spc p).2.isEmpty then (nl2spc p).1 else (nl2spc p).1 ++ printRest fuel (nl2spc p).2

/-- apertium/adapt_docx.cc 415-422, without `--pretty`: what is printed for the document libxml2 wrote to
    `buffer`. -/
def printAll (buffer : Text) : Text :=
  (nl2spc buffer).1 ++ printRest (nl2spc buffer).2.length (nl2spc buffer).2

end Verif.Docx
