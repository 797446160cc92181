import Verif.Whole.Model
/-!
# Model of apertium-interchunk (apertium/interchunk.cc)

The interpreter of rules, and the program as a whole.  As for transfer, `evalStringCache` (which only stores the decoded attributes of an element: C89) and the
warnings on stderr are not modelled.  `in_let_var` and `var_val`, which `processAppend` sets (transfer_base.cc:363-373), are not used by this program.
-/
namespace Verif.Inter
open Verif.Transfer

/-- The object during a rule run.  `heap` holds the `InterchunkWord`s, `word` is the array of pointers to them (of length `lword`; the null array is `[]`); `none`
is a pointer that has never been set.  `vars` is `variables`, `blanks` is `blank_queue` (front first), `out` is what has been written. -/
structure ISt where
  heap : List IWord
  word : List (Option Nat)
  vars : Text → Text
  inOut : Bool
  blanks : List Text
  out : Text

/-- `word[pos]` after `checkIndex` (interchunk.cc:29-47), `pos` counted from 0.  `checkIndex` looks at the pointer: if it has never been set that is undefined
behaviour. -/
def ISt.wordAt (s : ISt) (pos : Int) : Outcome (Option (Nat × IWord)) :=
  if pos ≥ s.word.length then .ok none
  else if pos < 0 then .ok none
  else
    match s.word[pos.toNat]? with
    | some (some i) => .ok ((s.heap[i]?).map fun w => (i, w))
    | _ => .ub

/-- `wf.substr(1, wf.length()-2)` (interchunk.cc:56-57): `substr` throws when the text is empty; of a text of length 1 the length given is -1, that is, all. -/
def trimBraces (t : Text) : Outcome Text :=
  if t = [] then .fail
  else if t.length = 1 then .ok []
  else .ok ((t.drop 1).take (t.length - 2))

/-- The value of a `<clip>` (interchunk.cc:54-62). -/
def clipValue (env : TEnv) (part : Text) (w : IWord) : Outcome Text :=
  if part = t!"content" then trimBraces (w.chunkPart (env.attr part)) else .ok (w.chunkPart (env.attr part))

/-- `evalCachedString` for `<clip>`, `<lit>` and `<var>` (interchunk.cc:53-71). -/
def evalSimple (env : TEnv) : Simple → ISt → Outcome (Text × ISt)
  | .clip pos _ part _ _, s =>
    (s.wordAt (pos - 1)).bind fun
      | none => .ok ([], s)
      | some (_, w) => (clipValue env part w).map fun t => (t, s)
  | .lit v, s => .ok (v, s)
  | .var n, s => .ok (s.vars n, s)

mutual
/-- `evalString` (transfer_base.cc:202-250) with `evalCachedString` (interchunk.cc:49-102), `processLuCount`, `processLu`, `processMlu` (interchunk.cc:131-152: they
end the program) and `processChunk` (interchunk.cc:186-199) of `Interchunk`. -/
def evalExpr (env : TEnv) : Expr → ISt → Outcome (Text × ISt)
  | .simple e, s => evalSimple env e s
  | .litTag v, s => .ok (tagsText v, s)
  | .blank, s =>
    match s.blanks with
    | [] => .ok ([' '], s)
    | b :: bs => .ok (b, if s.inOut then { s with blanks := bs } else s)
  | .getCaseFrom pos param, s =>
    (s.wordAt (pos - 1)).bind fun
      | none => .ok ([], s)
      | some (_, w) => (evalSimple env param s).map fun (d, s') => (env.baseCopycase (w.chunkPart (env.attr t!"lem")) d, s')
  | .luCount, _ => .fail
  | .caseOf pos _ part, s =>
    (s.wordAt (pos - 1)).bind fun
      | none => .ok ([], s)
      | some (_, w) => .ok (env.getcase (w.chunkPart (env.attr part)), s)
  | .concat es, s => evalList env es s
  | .lu _, _ => .fail
  | .mlu _, _ => .fail
  | .chunk _ _ _ items, s => (evalList env items s).map fun (t, s') => ('^' :: t ++ ['$'], s')
  | .tags _, _ => .fail
  | .unknown, _ => .fail
/-- The values of a list of expressions, concatenated. -/
def evalList (env : TEnv) : List Expr → ISt → Outcome (Text × ISt)
  | [], s => .ok ([], s)
  | e :: es, s => (evalExpr env e s).bind fun (t, s1) => (evalList env es s1).map fun (u, s2) => (t ++ u, s2)
end

/-- The loop of `processOut` (interchunk.cc:174-181). -/
def outLoop (env : TEnv) : List Expr → ISt → Outcome ISt
  | [], s => .ok s
  | e :: es, s => (evalExpr env e s).bind fun (t, s') => outLoop env es { s' with out := s'.out ++ t }

/-- `processOut` (interchunk.cc:169-184). -/
def processOut (env : TEnv) (es : List Expr) (s : ISt) : Outcome ISt :=
  (outLoop env es { s with inOut := true }).map fun s' => { s' with inOut := false }

/-- `word[pos]` without a check (interchunk.cc:230, 267-268, 308-310): outside the array, or not set, is undefined behaviour. -/
def ISt.wordRaw (s : ISt) (pos : Int) : Outcome (Nat × IWord) :=
  if pos < 0 then .ub
  else
    match s.word[pos.toNat]? with
    | some (some i) =>
      match s.heap[i]? with
      | some w => .ok (i, w)
      | none => .ub
    | _ => .ub

/-- `processLet` (interchunk.cc:201-277). -/
def processLet (env : TEnv) (l r : Expr) (s : ISt) : Outcome ISt :=
  match l with
  | .simple (.var n) => (evalExpr env r s).map fun (t, s') => { s' with vars := upd s'.vars n t }
  | .simple (.clip pos _ part _ _) =>
    (s.wordRaw (pos - 1)).bind fun (i, w) =>
      (evalExpr env r s).map fun (t, s') => { s' with heap := s'.heap.set i (w.setChunkPart (env.attr part) t) }
  | _ => .ok s

/-- `processAppend` (transfer_base.cc:363-373). -/
def processAppend (env : TEnv) (n : Text) : List Expr → ISt → Outcome ISt
  | [], s => .ok s
  | e :: es, s => (evalExpr env e s).bind fun (t, s') => processAppend env n es { s' with vars := upd s'.vars n (s'.vars n ++ t) }

/-- `processModifyCase` (interchunk.cc:279-322). -/
def processModifyCase (env : TEnv) (l r : Expr) (s : ISt) : Outcome ISt :=
  if env.dictCase then .ok s
  else
    match l with
    | .simple (.clip pos _ part _ _) =>
      (s.wordRaw (pos - 1)).bind fun (i, w) =>
        (evalExpr env r s).map fun (t, s') =>
          { s' with heap := s'.heap.set i (w.setChunkPart (env.attr part) (env.copycase t (w.chunkPart (env.attr part)))) }
    | .simple (.var n) => (evalExpr env r s).map fun (t, s') => { s' with vars := upd s'.vars n (env.copycase t (s'.vars n)) }
    | _ => .ok s

/-- The virtual methods of `Interchunk`. -/
def virt (env : TEnv) : Virt ISt where
  evalString := evalExpr env
  processLet := processLet env
  processAppend := processAppend env
  processOut := processOut env
  processModifyCase := processModifyCase env
  tolower := env.tolower
  stoi := env.stoi
  list := env.list

/-- The array of arguments of a macro (interchunk.cc:344-351): `none` for an index outside `word`, or a pointer that has never been set (undefined behaviour). -/
def macroArgs (word : List (Option Nat)) : List Int → Option (List (Option Nat))
  | [] => some []
  | p :: ps =>
    if p - 1 < 0 then none
    else
      match word[(p - 1).toNat]?, macroArgs word ps with
      | some (some i), some xs => some (some i :: xs)
      | _, _ => none

/-- `processCallMacro` (interchunk.cc:324-366).  The first argument bounds the depth of nested calls.  With more arguments than `npar` the code writes after the end of
the array; with fewer, the other pointers are not set. -/
def callMacro (env : TEnv) : Nat → Text → List Int → ISt → Outcome ISt
  | 0, _, _, _ => .diverge
  | d + 1, n, args, s =>
    let npar := (env.macros n).1
    let run (w : List (Option Nat)) : Outcome ISt :=
      (execMacroBody (virt env) (callMacro env d) (env.macros n).2 { s with word := w }).map fun s' => { s' with word := s.word }
    if npar = 0 then run []
    else if args.length > npar then .ub
    else
      match macroArgs s.word args with
      | none => .ub
      | some ws => run (ws ++ List.replicate (npar - args.length) none)

/-- `processRule` (transfer_base.cc:252-273), nested macro calls bounded by `d`. -/
def processRule (env : TEnv) (d : Nat) (action : List Instr) (s : ISt) : Outcome (Int × ISt) :=
  (execBlock (virt env) (callMacro env d) action (-1) s).map fun (w, s') => (w, { s' with out := s'.out ++ flushBlanks s'.blanks, blanks := [] })

/-! ## The program -/

/-- The words of `tmpword`, taken apart (interchunk.cc:611): all that have been read, also those after the words that the rule matches. -/
def ruleWords : List Text → Outcome (List IWord)
  | [] => .ok []
  | t :: ts => (IWord.init t).bind fun w => (ruleWords ts).map fun ws => w :: ws

/-- `Interchunk::applyRule` (interchunk.cc:590-631) for the rule with number `r` (from 1): `ws` is `tmpword`, `bs` is `tmpblank`, `k` is `last_lword`.  `v` is the object
after the rule before; the words are deleted at the end. -/
def applyRule (env : TEnv) (d : Nat) (rules : List (List Instr)) (r : Nat) (ws bs : List Text) (k : Nat) (v : ISt) : Outcome (Int × Text × ISt) :=
  (ruleWords ws).bind fun tw =>
    (Whole.pushBlanks k (ws.length - 1) bs v.blanks).bind fun q =>
      match rules[r - 1]? with
      | none => .ub
      | some action =>
        (processRule env d action { v with heap := tw, word := (List.range tw.length).map some, blanks := q, out := [] }).map fun (n, s) =>
          (n, s.out, { s with heap := [], word := [], out := [] })

/-- What `Interchunk` does at a word (interchunk.cc:527-529, 590-631). -/
def actions (env : TEnv) (d : Nat) (rules : List (List Instr)) : Actions ISt where
  dflt w := .ok ('^' :: w ++ ['$'])
  apply := applyRule env d rules

/-- The object before the first rule (interchunk.cc:25-27, transfer_base.h:31-62): `vars` are the variables with their initial values. -/
def startState (vars : Text → Text) : ISt where
  heap := []
  word := []
  vars := vars
  inOut := false
  blanks := []
  out := []

/-- `applyWord` (interchunk.cc:633-676). -/
def readWord (lower : Char → Char) (w : Text) : Outcome (List Bil.Step) := .ok (Pattern.chunkWord lower true (w.length + 1) w)

/-- `Interchunk::interchunk` without null flush (interchunk.cc:454-588): the input is read, and the main loop runs with the compiled patterns, for some number of steps
and depth of calls. -/
def Runs (minimize : Pattern.Trans → Pattern.Trans) (lower : Char → Char) (env : TEnv) (vars : Text → Text) (p : Whole.Program) (input out : Text) : Prop :=
  ∃ m rd w d n, Pattern.compile minimize p.cats (p.rules.map (·.1)) = some m ∧ Token.icRead false false input = .ok (rd, w) ∧
    loopRun (Pattern.matcher m (Pattern.alphabet p.cats) (readWord lower)) (actions env d (p.rules.map (·.2))) rd.toks n
      (loopInit (Pattern.matcher m (Pattern.alphabet p.cats) (readWord lower)) (startState vars)) = some (.ok out)

end Verif.Inter
