import Verif.Whole.Model
import Verif.Chunk.Model
/-!
# Model of apertium-postchunk (apertium/postchunk.cc)

The interpreter of rules, and the program as a whole; the functions that take a chunk apart are modelled in `Verif.Chunk.Model`.  As for transfer,
`evalStringCache` (which only stores the decoded attributes of an element: C89) and the warnings on stderr are not modelled.
-/
namespace Verif.Postchunk
open Verif.Transfer

/-- The object during a rule run.  `heap` holds the `InterchunkWord`s; `word` is the array of pointers to them, of length `lword + 1` (`[]` is the null pointer); `none`
is a pointer that has never been set.  `vars` and `varWb` are `variables` and `var_out_wblank`, `blanks` is `blank_queue` (front first), `count` is
`tmpword.size()`, `out` is what has been written. -/
structure PSt where
  heap : List IWord
  word : List (Option Nat)
  vars : Text → Text
  varWb : Text → Text
  outWb : Text
  inLu : Bool
  inLetVar : Bool
  inOut : Bool
  varVal : Text
  blanks : List Text
  count : Nat
  out : Text

/-- `lword`. -/
def PSt.lword (s : PSt) : Nat := s.word.length - 1

/-- `word[pos]` after `checkIndex` (postchunk.cc:29-47): positions are 0 (the head of the chunk) to `lword`.  `checkIndex` looks at the pointer: if it has never been set
that is undefined behaviour. -/
def PSt.wordAt (s : PSt) (pos : Int) : Outcome (Option (Nat × IWord)) :=
  if pos > s.lword then .ok none
  else if pos < 0 then .ok none
  else
    match s.word[pos.toNat]? with
    | some (some i) => .ok ((s.heap[i]?).map fun w => (i, w))
    | _ => .ub

/-- The bookkeeping of word-bound blanks when a lemma is read (postchunk.cc:56-63). -/
def addWblank (part wb : Text) (s : PSt) : Outcome PSt :=
  if gettingLemma part ∧ s.lword > 1 then
    if s.inLu then (combineWblanks s.outWb wb).map fun t => { s with outWb := t }
    else if s.inLetVar then (combineWblanks (s.varWb s.varVal) wb).map fun t => { s with varWb := upd s.varWb s.varVal t }
    else .ok s
  else .ok s

/-- `evalCachedString` for `<clip>`, `<lit>` and `<var>` (postchunk.cc:54-79). -/
def evalSimple (env : TEnv) : Simple → PSt → Outcome (Text × PSt)
  | .clip pos _ part _ _, s =>
    (s.wordAt pos).bind fun
      | none => .ok ([], s)
      | some (_, w) => (addWblank part w.wb s).map fun s' => (w.chunkPart (env.attr part), s')
  | .lit v, s => .ok (v, s)
  | .var n, s =>
    if s.lword > 1 then (combineWblanks s.outWb (s.varWb n)).map fun t => (s.vars n, { s with outWb := t })
    else .ok (s.vars n, s)

/-- The text of `processLu` and `processMlu` (postchunk.cc:175-179, 217-221). -/
def luText (wb myword : Text) : Text := if myword = [] then [] else wb ++ '^' :: myword ++ ['$']

/-- The end of `processLu` and `processMlu` (postchunk.cc:171-179, 213-221). -/
def finishLu (myword : Text) (s : PSt) : Outcome (Text × PSt) :=
  if s.lword = 1 then
    match s.word[1]? with
    | some (some i) =>
      match s.heap[i]? with
      | none => .ub
      | some w => .ok (luText w.wb myword, { s with outWb := w.wb })
    | _ => .ub
  else .ok (luText s.outWb myword, s)

mutual
/-- `evalString` (transfer_base.cc:202-250) with `evalCachedString` (postchunk.cc:49-110), `processClip`, `processBlank`, `processLuCount`, `processCaseOf` (112-157),
`processLu`, `processMlu` (159-222) and `processChunk` (224-230: it ends the program) of `Postchunk`. -/
def evalExpr (env : TEnv) : Expr → PSt → Outcome (Text × PSt)
  | .simple e, s => evalSimple env e s
  | .litTag v, s => .ok (tagsText v, s)
  | .blank, s =>
    match s.blanks with
    | [] => .ok ([' '], s)
    | b :: bs => .ok (b, if s.inOut then { s with blanks := bs } else s)
  | .getCaseFrom pos param, s =>
    (s.wordAt pos).bind fun
      | none => .ok ([], s)
      | some (_, w) => (evalSimple env param s).map fun (d, s') => (env.baseCopycase (w.chunkPart (env.attr t!"lem")) d, s')
  | .luCount, s => .ok ((Nat.repr s.count).toList, s)
  | .caseOf pos _ part, s =>
    (s.wordAt pos).bind fun
      | none => .ok ([], s)
      | some (_, w) => .ok (env.getcase (w.chunkPart (env.attr part)), s)
  | .concat es, s => evalList env es s
  | .lu es, s => (evalList env es { s with inLu := true, outWb := [] }).bind fun (t, s') => finishLu t { s' with inLu := false }
  | .mlu lus, s => (evalMlu env lus true { s with inLu := true, outWb := [] }).bind fun (t, s') => finishLu t { s' with inLu := false }
  | .chunk _ _ _ _, _ => .fail
  | .tags _, _ => .fail
  | .unknown, _ => .fail
/-- The values of a list of expressions, concatenated. -/
def evalList (env : TEnv) : List Expr → PSt → Outcome (Text × PSt)
  | [], s => .ok ([], s)
  | e :: es, s => (evalExpr env e s).bind fun (t, s1) => (evalList env es s1).map fun (u, s2) => (t ++ u, s2)
/-- The loop of `processMlu` (postchunk.cc:191-209); the Boolean is `first_time`. -/
def evalMlu (env : TEnv) : List (List Expr) → Bool → PSt → Outcome (Text × PSt)
  | [], _, s => .ok ([], s)
  | l :: ls, first, s =>
    (evalList env l s).bind fun (w, s1) =>
      (evalMlu env ls (first && decide (w = [])) s1).map fun (u, s2) =>
        ((if first = false ∧ w ≠ [] ∧ w.head? ≠ some '#' then ['+'] else []) ++ w ++ u, s2)
end

/-- The loop of `processOut` (postchunk.cc:237-245). -/
def outLoop (env : TEnv) : List Expr → PSt → Outcome PSt
  | [], s => .ok s
  | e :: es, s => (evalExpr env e s).bind fun (t, s') => outLoop env es { s' with out := s'.out ++ t }

/-- `processOut` (postchunk.cc:232-248). -/
def processOut (env : TEnv) (es : List Expr) (s : PSt) : Outcome PSt :=
  (outLoop env es { s with inOut := true }).map fun s' => { s' with inOut := false }

/-- `word[pos]` without a check (postchunk.cc:294, 338-339, 380-382): outside the array, or not set, is undefined behaviour. -/
def PSt.wordRaw (s : PSt) (pos : Int) : Outcome (Nat × IWord) :=
  if pos < 0 then .ub
  else
    match s.word[pos.toNat]? with
    | some (some i) =>
      match s.heap[i]? with
      | some w => .ok (i, w)
      | none => .ub
    | _ => .ub

/-- `processLet` (postchunk.cc:262-346). -/
def processLet (env : TEnv) (l r : Expr) (s : PSt) : Outcome PSt :=
  match l with
  | .simple (.var n) =>
    (evalExpr env r { s with inLetVar := true, varVal := n, varWb := upd s.varWb n [] }).map fun (t, s') =>
      { s' with vars := upd s'.vars n t, inLetVar := false }
  | .simple (.clip pos _ part _ _) =>
    (s.wordRaw pos).bind fun (i, w) =>
      (evalExpr env r s).map fun (t, s') => { s' with heap := s'.heap.set i (w.setChunkPart (env.attr part) t) }
  | _ => .ok s

/-- `processAppend` (transfer_base.cc:363-373). -/
def processAppend (env : TEnv) (n : Text) : List Expr → PSt → Outcome PSt
  | [], s => .ok s
  | e :: es, s =>
    (evalExpr env e { s with inLetVar := true, varVal := n }).bind fun (t, s') =>
      processAppend env n es { s' with vars := upd s'.vars n (s'.vars n ++ t), inLetVar := false }

/-- `processModifyCase` (postchunk.cc:348-394). -/
def processModifyCase (env : TEnv) (l r : Expr) (s : PSt) : Outcome PSt :=
  if env.dictCase then .ok s
  else
    match l with
    | .simple (.clip pos _ part _ _) =>
      (s.wordRaw pos).bind fun (i, w) =>
        (evalExpr env r s).map fun (t, s') =>
          { s' with heap := s'.heap.set i (w.setChunkPart (env.attr part) (env.copycase t (w.chunkPart (env.attr part)))) }
    | .simple (.var n) => (evalExpr env r s).map fun (t, s') => { s' with vars := upd s'.vars n (env.copycase t (s'.vars n)) }
    | _ => .ok s

/-- The virtual methods of `Postchunk`. -/
def virt (env : TEnv) : Virt PSt where
  evalString := evalExpr env
  processLet := processLet env
  processAppend := processAppend env
  processOut := processOut env
  processModifyCase := processModifyCase env
  tolower := env.tolower
  stoi := env.stoi
  list := env.list

/-- The arguments of a macro (postchunk.cc:426-436): the pointers, and `indexesOK`.  For a position outside the words the pointer taken is `word[1]`, also if there
is none: that is undefined behaviour, and so is looking at a pointer that has never been set. -/
def macroArgs (word : List (Option Nat)) : List Int → Outcome (List (Option Nat) × Bool)
  | [] => .ok ([], true)
  | p :: ps =>
    if p > (word.length - 1 : Nat) ∨ p < 0 then
      match word[1]? with
      | none => .ub
      | some o => (macroArgs word ps).map fun (os, _) => (o :: os, false)
    else
      match word[p.toNat]? with
      | some (some i) => (macroArgs word ps).map fun (os, b) => (some i :: os, b)
      | _ => .ub

/-- `processCallMacro` (postchunk.cc:396-454).  The first argument bounds the depth of nested calls.  A macro without parameters ends the program (a thrown string that nobody
catches); with more arguments than `npar` the code writes after the end of the array; with fewer, the other pointers are not set. -/
def callMacro (env : TEnv) : Nat → Text → List Int → PSt → Outcome PSt
  | 0, _, _, _ => .diverge
  | d + 1, n, args, s =>
    let npar := (env.macros n).1
    if npar = 0 then .fail
    else if args.length > npar then .ub
    else
      match s.word with
      | [] => .ub
      | w0 :: _ =>
        (macroArgs s.word args).bind fun (os, ok) =>
          if ok then
            (execMacroBody (virt env) (callMacro env d) (env.macros n).2 { s with word := w0 :: os ++ List.replicate (npar - args.length) none }).map fun s' =>
              { s' with word := s.word }
          else .ok s

/-- `processRule` (transfer_base.cc:252-273), nested macro calls bounded by `d`. -/
def processRule (env : TEnv) (d : Nat) (action : List Instr) (s : PSt) : Outcome (Int × PSt) :=
  (execBlock (virt env) (callMacro env d) action (-1) s).map fun (w, s') => (w, { s' with out := s'.out ++ flushBlanks s'.blanks, blanks := [] })

/-! ## The program -/

/-- `new InterchunkWord(..)` for each word (postchunk.cc:698). -/
def ruleWords : List Text → Outcome (List IWord)
  | [] => .ok []
  | t :: ts => (IWord.init t).bind fun w => (ruleWords ts).map fun ws => w :: ws

/-- `Postchunk::applyRule` (postchunk.cc:681-726) for the rule with number `r` (from 1): `ws` is `tmpword`, of which only the first counts, `bs` is `tmpblank`.  `v` is the object
after the rule before; the words are deleted at the end.  Simplification: that what precedes the first word of the chunk is added to the blank in the input buffer (C42)
is not modelled here. -/
def applyRule (u : Chunk.Uni) (env : TEnv) (d : Nat) (rules : List (List Instr)) (r : Nat) (ws bs : List Text) (_k : Nat) (v : PSt) : Outcome (Int × Text × PSt) :=
  match ws with
  | [] => .ub
  | chunk :: _ =>
    (Chunk.splitWordsAndBlanks u chunk bs).bind fun (tw, bl) =>
      (Chunk.wordzero chunk).bind fun z =>
        (IWord.init z).bind fun w0 =>
          (ruleWords tw).bind fun hw =>
            if tw.length ≤ bl.length ∨ tw.length ≤ 1 then
              match rules[r - 1]? with
              | none => .ub
              | some action =>
                (processRule env d action { v with
                    heap := w0 :: hw, word := (List.range (hw.length + 1)).map some, blanks := v.blanks ++ (bl.drop 1).take (tw.length - 1),
                    count := tw.length, out := [] }).map fun (n, s) =>
                  (n, s.out, { s with heap := [], word := [], count := 0, out := [] })
            else .ub

/-- What `Postchunk` does at a word (postchunk.cc:619-621, 681-726). -/
def actions (u : Chunk.Uni) (env : TEnv) (d : Nat) (rules : List (List Instr)) : Actions PSt where
  dflt := Chunk.unchunk u env.dictCase
  apply := applyRule u env d rules

/-- The object before the first rule (postchunk.cc:26-27, transfer_base.h:31-62): `vars` are the variables with their initial values. -/
def startState (vars : Text → Text) : PSt where
  heap := []
  word := []
  vars := vars
  varWb := fun _ => []
  outWb := []
  inLu := false
  inLetVar := false
  inOut := false
  varVal := []
  blanks := []
  count := 0
  out := []

/-- `applyWord` (postchunk.cc:728-771). -/
def readWord (lower : Char → Char) (w : Text) : Outcome (List Bil.Step) := .ok (Pattern.chunkWord lower false (w.length + 1) w)

/-- `Postchunk::postchunk` without null flush (postchunk.cc:549-679): the input is read, and the main loop runs with the compiled patterns, for some number of steps
and depth of calls. -/
def Runs (minimize : Pattern.Trans → Pattern.Trans) (lower : Char → Char) (u : Chunk.Uni) (env : TEnv) (vars : Text → Text) (p : Whole.Program) (input out : Text) : Prop :=
  ∃ m rd w d n, Pattern.compile minimize p.cats (p.rules.map (·.1)) = some m ∧ Token.icRead false false input = .ok (rd, w) ∧
    loopRun (Pattern.matcher m (Pattern.alphabet p.cats) (readWord lower)) (actions u env d (p.rules.map (·.2))) rd.toks n
      (loopInit (Pattern.matcher m (Pattern.alphabet p.cats) (readWord lower)) (startState vars)) = some (.ok out)

end Verif.Postchunk
