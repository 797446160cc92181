import Verif.Transfer.Word
import Verif.Transfer.Loop
/-!
# Model of how apertium-transfer takes a word apart when the bilingual dictionary has been applied before (`-b`)

A word is `[[wblank]]^source/target/...`; there are two copies of the code, one for rules (transfer.cc:1264-1345), one for words no
rule matches (transfer.cc:1063-1147), and a third that feeds the pattern automaton (transfer.cc:1371-1442).
-/
namespace Verif.Bil
open Verif.Transfer (TWord)

/-- The loop over a word-bound blank (transfer.cc:1090-1108, 1299-1312): to a `^` after `]]`, which is skipped.  `p2`, `p1` are the
two characters before. -/
def wbScan : Char → Char → Text → Outcome (Text × Text)
  | _, _, [] => .ub
  | p2, p1, c :: r =>
    if c = '\\' then
      match r with
      | [] => .ub
      | d :: r' => (wbScan c d r').map fun (o, t) => (c :: d :: o, t)
    else if c = '^' ∧ p1 = ']' ∧ p2 = ']' then .ok ([], r)
    else (wbScan p1 c r).map fun (o, t) => (c :: o, t)

/-- `sl`, `tl`, `ref` and `wblank`, without queue (`TransferWord(sl, tl, ref, wblank, false)`). -/
def TWord.new (sl tl ref wb : Text) : TWord := { src := sl, tgt := tl, ref := ref, wb := wb, queue := 0 }

/-- Add to the side that is being read (transfer.cc:1272-1290, 1314-1318, 1336-1338). -/
def addTo (k : Nat) (w : TWord) (t : Text) : TWord :=
  if k = 0 then { w with src := w.src ++ t }
  else if k = 1 then { w with tgt := w.tgt ++ t }
  else { w with ref := w.ref ++ t }

/-- The loop of `applyRule` (transfer.cc:1269-1340): `k` is `seenSlash`.  (The fuel is the length of the word.) -/
def parseRule : Nat → Nat → Bool → TWord → Text → Outcome TWord
  | 0, _, _, w, _ => .ok w
  | _ + 1, _, _, w, [] => .ok w
  | n + 1, k, inTag, w, c :: r =>
    if c = '\\' then
      match r with
      | [] => .ub
      | d :: r' => parseRule n k inTag (addTo k w [c, d]) r'
    else if c = '[' then
      if r.head? = some '[' then
        (wbScan c c r).bind fun (o, r') => parseRule n k inTag { w with wb := w.wb ++ c :: o } r'
      else parseRule n k inTag (addTo k w [c]) r
    else if c = '/' ∧ inTag = false then parseRule n (k + 1) inTag { w with ref := [] } r
    else parseRule n k (if c = '<' then true else if c = '>' then false else inTag) (addTo k w [c]) r

/-- The loop over a tag (transfer.cc:1126-1135): what is added and the rest, which begins with the `>`. -/
def tagScan : Text → Outcome (Text × Text)
  | [] => .ub
  | c :: r =>
    if c = '>' then .ok ([], c :: r)
    else if c = '\\' then
      match r with
      | [] => .ub
      | d :: r' => (tagScan r').map fun (o, t) => (c :: d :: o, t)
    else (tagScan r).map fun (o, t) => (c :: o, t)

/-- `cur.swap(sl)`, `cur.swap(tl)` or `cur.swap(ref)` after `ref.clear()` (transfer.cc:1116-1124, 1138-1145): the word and the new `cur`. -/
def swapIn (k : Nat) (w : TWord) (cur : Text) : TWord × Text :=
  if k = 0 then ({ w with ref := [], src := cur }, w.src)
  else if k = 1 then ({ w with ref := [], tgt := cur }, w.tgt)
  else ({ w with ref := cur }, [])

/-- The loop for a word no rule matches (transfer.cc:1063-1147). -/
def parseDefault : Nat → Nat → Text → TWord → Text → Outcome TWord
  | 0, _, _, w, _ => .ok w
  | _ + 1, k, cur, w, [] => if cur = [] then .ok w else .ok (swapIn k w cur).1
  | n + 1, k, cur, w, c :: r =>
    if c = '\\' then
      match r with
      | [] => .ub
      | d :: r' => parseDefault n k (cur ++ [c, d]) w r'
    else if c = '[' then
      if r.head? = some '[' then
        (wbScan c c r).bind fun (o, r') => parseDefault n k cur { w with wb := w.wb ++ c :: o } r'
      else parseDefault n k (cur ++ [c]) w r
    else if c = '/' then parseDefault n (k + 1) (swapIn k w cur).2 (swapIn k w cur).1 r
    else if c = '<' then
      (tagScan (c :: r)).bind fun (o, r') =>
        match r' with
        | [] => .ub
        | d :: r'' => parseDefault n k (cur ++ o ++ [d]) w r''
    else parseDefault n k (cur ++ [c]) w r

/-- What `applyRule` makes of a word. -/
def ruleWord (t : Text) : Outcome TWord := parseRule (t.length + 1) 0 false (TWord.new [] [] [] []) t

/-- What is written for a word no rule matches, in chunk mode or (`lu`) with `default="lu"` (transfer.cc:1063-1172). -/
def defaultOut (lu : Bool) (t : Text) : Outcome Text :=
  (parseDefault (t.length + 1) 0 [] (TWord.new [] [] [] []) t).map fun w =>
    if w.tgt = [] then []
    else if lu then
      -- `tr.first[1]` is NUL when there is just one character
      (if w.tgt.head? ≠ some '[' ∨ w.tgt[1]? ≠ some '[' then w.wb ++ ['^'] else []) ++ w.tgt ++ ['$']
    else
      (if w.tgt.head? = some '*' then "^unknown<unknown>{".toList else "^default<default>{".toList) ++ w.wb ++ '^' :: w.tgt ++ "$}$".toList

/-- What the pattern automaton is fed with: a character (`ms.step(u_tolower(c), any_char)`) or a tag (its symbol and `any_tag`). -/
inductive Step where
  | char (c : Char)
  | tag (t : Text)
  deriving DecidableEq, Repr

/-- The loop over the word-bound blank in `applyWord` (transfer.cc:1388-1405): from position `i`; `none` if the text ends, which is
undefined behaviour. -/
def wbSkip : Nat → Char → Char → Text → Outcome Text
  | _, _, _, [] => .ub
  | i, p2, p1, c :: r =>
    if c = '\\' then
      match r with
      | [] => .ub
      | d :: r' => wbSkip (i + 2) c d r'
    else if 4 ≤ i ∧ c = '^' ∧ p1 = ']' ∧ p2 = ']' then .ok r
    else wbSkip (i + 1) p1 c r

/-- The text of a tag and the rest, `none` if there is no `>` (transfer.cc:1418-1436). -/
def tagEnd : Text → Option (Text × Text)
  | [] => none
  | c :: r => if c = '>' then some ([c], r) else (tagEnd r).map fun (o, t) => (c :: o, t)

/-- `applyWord` (transfer.cc:1371-1442), between `ms.step('^')` and `ms.step('$')`; `i` is the position. -/
def steps (lower : Char → Char) : Nat → Nat → Text → Outcome (List Step)
  | 0, _, _ => .ok []
  | _ + 1, _, [] => .ok []
  | n + 1, i, c :: r =>
    if c = '\\' then
      match r with
      | [] => .ub
      | d :: r' => (steps lower n (i + 2) r').map (.char (lower d) :: ·)
    else if c = '[' then
      if r.head? = some '[' then
        (wbSkip (i + 1) c c r).bind fun r' => steps lower n (i + (r.length + 1 - r'.length)) r'
      else (steps lower n (i + 1) r).map (.char (lower c) :: ·)
    else if c = '/' then .ok []
    else if c = '<' then
      match tagEnd r with
      | none => steps lower n (i + 1) r
      | some (o, r') => (steps lower n (i + 1 + o.length) r').map (.tag (c :: o) :: ·)
    else (steps lower n (i + 1) r).map (.char (lower c) :: ·)

end Verif.Bil
