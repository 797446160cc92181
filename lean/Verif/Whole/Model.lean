import Verif.Transfer.Model
import Verif.Bil.Model
import Verif.Pattern.Model
import Verif.Token.Model
/-!
# Model of apertium-transfer as a whole (with the bilingual dictionary applied before: `-b`)

`Transfer::applyRule` (transfer.cc:1239-1369) joins the parts modelled elsewhere: the tokens (`Token.trRead`), the pattern automaton (`Pattern.matcher`), the
main loop (`Transfer.loopRun`), the words (`Bil.ruleWord`, `Bil.defaultOut`) and the interpreter (`Transfer.processRule`).
-/
namespace Verif.Whole
open Verif.Transfer

/-- The words of `tmpword`, taken apart (transfer.cc:1246-1351): all that have been read, also those after the words that the rule matches. -/
def ruleWords : List Text → Outcome (List TWord)
  | [] => .ok []
  | t :: ts => (Bil.ruleWord t).bind fun w => (ruleWords ts).map fun ws => w :: ws

/-- `blank_queue.push(*tmpblank[i-1])` for each word but the first, as long as the queue is shorter than `last_lword - 1` (transfer.cc:1255-1260).  The first
argument is the number of words that are left; there is always a blank in `tmpblank` for each. -/
def pushBlanks (k : Nat) : Nat → List Text → List Text → Outcome (List Text)
  | 0, _, q => .ok q
  | n + 1, bs, q =>
    if q.length < k - 1 then
      match bs with
      | [] => .ub
      | b :: bs' => pushBlanks k n bs' (q ++ [b])
    else pushBlanks k n (bs.drop 1) q

/-- `Transfer::applyRule` (transfer.cc:1239-1369) for the rule with number `r` (from 1; `rule_map[val-1]`, transfer.cc:1193): `ws` is `tmpword`, `bs` is `tmpblank`,
`k` is `last_lword`.  `v` is the object after the rule before; the words are deleted at the end.  Nested macro calls are bounded by `d`. -/
def applyRule (env : TEnv) (d : Nat) (rules : List (List Instr)) (r : Nat) (ws bs : List Text) (k : Nat) (v : TSt) : Outcome (Int × Text × TSt) :=
  (ruleWords ws).bind fun tw =>
    (pushBlanks k (ws.length - 1) bs v.blanks).bind fun q =>
      match rules[r - 1]? with
      | none => .ub
      | some action =>
        (processRule { env with lastLword := k } d action
            { v with heap := tw, word := (List.range tw.length).map some, blanks := q, out := [] }).map fun (n, s) =>
          (n, s.out, { s with heap := [], word := [], out := [] })

/-- What `Transfer` does at a word (transfer.cc:1055-1172, 1239-1369); `lu` is `default="lu"` of `<transfer>`. -/
def actions (env : TEnv) (d : Nat) (lu : Bool) (rules : List (List Instr)) : Actions TSt where
  dflt := Bil.defaultOut lu
  apply := applyRule env d rules

/-- The object before the first rule (the initial values in transfer.h:32-37 and transfer_base.h:31-62): `vars` are the variables with their initial values. -/
def startState (vars : Text → Text) : TSt where
  heap := []
  word := []
  vars := vars
  varWb := fun _ => []
  outWb := []
  inLu := false
  inLetVar := false
  inOut := false
  varVal := []
  blanks := []
  out := []

/-- A file of rules: categories, and the rules with pattern and action. -/
structure Program where
  cats : List (Text × List Pattern.CatItem)
  rules : List (List Text × List Instr)

/-- `Transfer::transfer` without null flush (transfer.cc:931-1237): the input is read, and the main loop runs with the compiled patterns, for some number of steps
and depth of calls. -/
def Runs (minimize : Pattern.Trans → Pattern.Trans) (lower : Char → Char) (env : TEnv) (lu : Bool) (vars : Text → Text) (p : Program) (input out : Text) : Prop :=
  ∃ m rd d n, Pattern.compile minimize p.cats (p.rules.map (·.1)) = some m ∧ Token.trRead false input = .ok rd ∧
    loopRun (Pattern.matcher m (Pattern.alphabet p.cats) (Pattern.transferWord lower)) (actions env d lu (p.rules.map (·.2))) rd.toks n
      (loopInit (Pattern.matcher m (Pattern.alphabet p.cats) (Pattern.transferWord lower)) (startState vars)) = some (.ok out)

end Verif.Whole
