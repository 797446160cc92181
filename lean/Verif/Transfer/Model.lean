import Verif.Transfer.Word
/-!
# Model of the rule interpreter of apertium-transfer (apertium/transfer.cc)

`evalStringCache` only stores the decoded attributes of an element (transfer_base.cc:208-249) and is not
modelled here: an element is decoded each time (Verif/Dom shows that this is the same, C89).  Warnings on stderr (`trace`, `checkIndex`) are not modelled.
-/
namespace Verif.Transfer

/-- What a rule run reads but never changes: compiled attributes, lists, options, macros, and the ICU / lttoolbox
functions it calls (`StringUtils::tolower`, `toupper`, `getcase`, `copycase`, `stoi`; `u_isupper`). -/
structure TEnv where
  attr : Text → Re
  list : Text → List Text
  /-- `macro_map[macros[n]]`: `npar` and the instructions. -/
  macros : Text → Nat × List Instr
  dictCase : Bool
  /-- `last_lword`: the number of words matched by the rule. -/
  lastLword : Nat
  tolower : Text → Text
  toupper : Text → Text
  getcase : Text → Text
  copycase : Text → Text → Text
  isUpper : Char → Bool
  stoi : Text → Int

/-- The object during a rule run.  `heap` holds the `TransferWord`s, `word` is the array of pointers to them (of length
`lword`; null pointers are `none`; the null array is `[]`).  `vars` and `varWb` are `variables` and
`var_out_wblank`, `blanks` is `blank_queue` (front first), `out` is what has been written. -/
structure TSt where
  heap : List TWord
  word : List (Option Nat)
  vars : Text → Text
  varWb : Text → Text
  outWb : Text
  inLu : Bool
  inLetVar : Bool
  inOut : Bool
  varVal : Text
  blanks : List Text
  out : Text

/-- `m[k] = v` for a `std::map`. -/
def upd (m : Text → Text) (k v : Text) : Text → Text := fun x => if x = k then v else m x

/-- `word[pos]` after `checkIndex` (transfer.cc:73-91), `pos` counted from 0. -/
def TSt.wordAt (s : TSt) (pos : Int) : Option (Nat × TWord) :=
  if pos ≥ s.word.length then none
  else if pos < 0 then none
  else
    match s.word[pos.toNat]? with
    | some (some i) => (s.heap[i]?).map fun w => (i, w)
    | _ => none

/-- `TransferBase::copycase` (transfer_base.cc:179-200). -/
def TEnv.baseCopycase (env : TEnv) (src dest : Text) : Text :=
  if env.dictCase then dest
  else if '<' ∉ dest ∨ '>' ∉ dest then env.copycase src dest
  else
    let loc := (dest.takeWhile (· ≠ '<')).length
    let after := (dest.reverse.takeWhile (· ≠ '>')).length   -- length of what follows the last `>`
    let loc2 := dest.length - after - 1
    let mid := if loc ≤ loc2 + 1 then (dest.drop loc).take (loc2 + 1 - loc) else dest.drop loc
    let tail := dest.drop (loc2 + 1)
    let cs := env.getcase src
    env.copycase cs (dest.take loc) ++ mid ++
      (if tail = [] then []
       else if env.isUpper (cs.getD 1 '\x00') then env.toupper tail else env.tolower tail)

/-- The bookkeeping of word-bound blanks when a lemma is read (transfer.cc:100-106, 114-120). -/
def addWblank (env : TEnv) (part wb : Text) (s : TSt) : Outcome TSt :=
  if gettingLemma part ∧ env.lastLword > 1 then
    if s.inLu then (combineWblanks s.outWb wb).map fun t => { s with outWb := t }
    else if s.inLetVar then
      (combineWblanks (s.varWb s.varVal) wb).map fun t => { s with varWb := upd s.varWb s.varVal t }
    else .ok s
  else .ok s

/-- `evalCachedString` for `<clip>`, `<lit>` and `<var>` (transfer.cc:97-180). -/
def evalSimple (env : TEnv) : Simple → TSt → Outcome (Text × TSt)
  | .clip pos sd part q linkTo, s =>
    match s.wordAt (pos - 1) with
    | none => .ok ([], s)
    | some (_, w) =>
      if linkTo ≠ [] then
        .ok (if w.read sd (env.attr part) q ≠ [] then '<' :: linkTo ++ ['>'] else [], s)
      else if sd = .ref then .ok (w.read sd (env.attr part) q, s)
      else (addWblank env part w.wb s).map fun s' => (w.read sd (env.attr part) q, s')
  | .lit v, s => .ok (v, s)
  | .var n, s =>
    if env.lastLword > 1 then
      (combineWblanks s.outWb (s.varWb n)).map fun t => (s.vars n, { s with outWb := t })
    else .ok (s.vars n, s)

/-- The text of `processLu` (transfer.cc:318-334). -/
def luText (wb myword : Text) : Text :=
  if myword = [] then []
  else if t!"[[" <+: myword then myword ++ ['$']
  else wb ++ '^' :: myword ++ ['$']

/-- The end of `processLu` (transfer.cc:312-334): the word-bound blank and the delimiters. -/
def finishLu (env : TEnv) (myword : Text) (s : TSt) : Outcome (Text × TSt) :=
  if env.lastLword = 1 then
    match s.word with
    | [] => .ok (luText s.outWb myword, s)
    | none :: _ => .ub
    | some i :: _ =>
      match s.heap[i]? with
      | none => .ub
      | some w => .ok (luText w.wb myword, { s with outWb := w.wb })
  else .ok (luText s.outWb myword, s)

/-- The text of `processMlu` (transfer.cc:367-377). -/
def mluText (wb value : Text) : Text := if value = [] then [] else wb ++ '^' :: value ++ ['$']

/-- The end of `processMlu` (transfer.cc:363-377). -/
def finishMlu (env : TEnv) (value : Text) (s : TSt) : Outcome (Text × TSt) :=
  if env.lastLword = 1 then
    match s.word with
    | some i :: _ =>
      match s.heap[i]? with
      | none => .ub
      | some w => .ok (mluText w.wb value, { s with outWb := w.wb })
    | _ => .ub
  else .ok (mluText s.outWb value, s)

/-- The name of a chunk (transfer.cc:435-465). -/
def chunkName (env : TEnv) (name namefrom caseVar : Text) (s : TSt) : Outcome Text :=
  let nm : Outcome Text :=
    if name ≠ [] then .ok name else if namefrom ≠ [] then .ok (s.vars namefrom) else .fail
  if caseVar ≠ [] ∧ env.dictCase = false then nm.map (env.copycase (s.vars caseVar)) else nm

mutual
/-- `evalString` (transfer_base.cc:202-250) with `evalCachedString`, `processLu`, `processMlu`, `processChunk` of `Transfer`. -/
def evalExpr (env : TEnv) : Expr → TSt → Outcome (Text × TSt)
  | .simple e, s => evalSimple env e s
  | .litTag v, s => .ok (tagsText v, s)
  | .blank, s =>                                     -- transfer.cc:182-193
    match s.blanks with
    | [] => .ok ([' '], s)
    | b :: bs => .ok (b, if s.inOut then { s with blanks := bs } else s)
  | .getCaseFrom pos param, s =>                     -- transfer.cc:195-200
    match s.wordAt (pos - 1) with
    | none => .ok ([], s)
    | some (_, w) =>
      (evalSimple env param s).map fun (d, s') =>
        (env.baseCopycase (w.read .sl (env.attr t!"lem") true) d, s')
  | .luCount, _ => .fail                             -- transfer.cc:380-385
  | .caseOf pos sd part, s =>                        -- transfer.cc:202-218
    match s.wordAt (pos - 1) with
    | none => .ok ([], s)
    | some (_, w) => .ok (env.getcase (w.read sd (env.attr part) true), s)
  | .concat es, s => evalList env es s               -- transfer_base.cc:232-237
  | .lu es, s =>                                     -- transfer.cc:302-335
    (evalList env es { s with inLu := true, outWb := [] }).bind fun (t, s') =>
      finishLu env t { s' with inLu := false }
  | .mlu lus, s =>                                   -- transfer.cc:337-378; `in_lu` is not reset
    (evalMlu env lus true { s with inLu := true, outWb := [] }).bind fun (t, s') =>
      finishMlu env t s'
  | .chunk name namefrom caseVar items, s =>         -- transfer.cc:412-484
    (chunkName env name namefrom caseVar s).bind fun nm =>
      (evalChunk env items s).map fun (t, s') => ('^' :: nm ++ t ++ ['}', '$'], s')
  | .tags _, _ => .fail
  | .unknown, _ => .fail
/-- The values of a list of expressions, concatenated. -/
def evalList (env : TEnv) : List Expr → TSt → Outcome (Text × TSt)
  | [], s => .ok ([], s)
  | e :: es, s =>
    (evalExpr env e s).bind fun (t, s1) => (evalList env es s1).map fun (u, s2) => (t ++ u, s2)
/-- The loop of `processMlu` (transfer.cc:345-361); the Boolean is `first_time`. -/
def evalMlu (env : TEnv) : List (List Expr) → Bool → TSt → Outcome (Text × TSt)
  | [], _, s => .ok ([], s)
  | l :: ls, first, s =>
    (evalList env l s).bind fun (w, s1) =>
      (evalMlu env ls (first && decide (w = [])) s1).map fun (u, s2) =>
        ((if first = false ∧ w ≠ [] ∧ w.head? ≠ some '#' then ['+'] else []) ++ w ++ u, s2)
/-- `processTags` (transfer.cc:486-498). -/
def evalTags (env : TEnv) : List (List Expr) → TSt → Outcome (Text × TSt)
  | [], s => .ok ([], s)
  | l :: ls, s =>
    (evalList env l s).bind fun (t, s1) => (evalTags env ls s1).map fun (u, s2) => (t ++ u, s2)
/-- The loop of `processChunk` over the children (transfer.cc:467-480). -/
def evalChunk (env : TEnv) : List Expr → TSt → Outcome (Text × TSt)
  | [], s => .ok ([], s)
  | .tags ts :: es, s =>
    (evalTags env ts s).bind fun (t, s1) =>
      (evalChunk env es s1).map fun (u, s2) => (t ++ '{' :: u, s2)
  | e :: es, s =>
    (evalExpr env e s).bind fun (t, s1) => (evalChunk env es s1).map fun (u, s2) => (t ++ u, s2)
end

/-- The loop of `processOut` (transfer.cc:392-408): each child is evaluated and written.  (`processLu(i)`,
`processMlu(i)` and `processChunk(i)` are what `evalString(i)` calls.) -/
def outLoop (env : TEnv) : List Expr → TSt → Outcome TSt
  | [], s => .ok s
  | e :: es, s => (evalExpr env e s).bind fun (t, s') => outLoop env es { s' with out := s'.out ++ t }

/-- `processOut` (transfer.cc:387-410). -/
def processOut (env : TEnv) (es : List Expr) (s : TSt) : Outcome TSt :=
  (outLoop env es { s with inOut := true }).map fun s' => { s' with inOut := false }

/-- `processLet` (transfer.cc:500-651). -/
def processLet (env : TEnv) (l r : Expr) (s : TSt) : Outcome TSt :=
  match l with
  | .simple (.var n) =>
    (evalExpr env r { s with inLetVar := true, varVal := n, varWb := upd s.varWb n [] }).map fun (t, s') =>
      { s' with vars := upd s'.vars n t, inLetVar := false }
  | .simple (.clip pos sd part q _) =>
    if pos - 1 ≥ s.word.length then .ok s
    else if pos - 1 < 0 then .ub
    else
      match s.wordAt (pos - 1) with
      | none => .ok s
      | some (i, _) =>
        (evalExpr env r s).bind fun (t, s') =>
          match s'.heap[i]? with
          | none => .ub
          | some w => (w.write sd (env.attr part) q t).map fun w' => { s' with heap := s'.heap.set i w' }
  | _ => .ok s

/-- `processAppend` (transfer_base.cc:363-373). -/
def processAppend (env : TEnv) (n : Text) : List Expr → TSt → Outcome TSt
  | [], s => .ok s
  | e :: es, s =>
    (evalExpr env e { s with inLetVar := true, varVal := n }).bind fun (t, s') =>
      processAppend env n es { s' with vars := upd s'.vars n (s'.vars n ++ t), inLetVar := false }

/-- `processModifyCase` (transfer.cc:653-738).  There is no check of the index; `queue` is used when reading
only. -/
def processModifyCase (env : TEnv) (l r : Expr) (s : TSt) : Outcome TSt :=
  if env.dictCase then .ok s
  else
    match l with
    | .simple (.clip pos sd part q _) =>
      match s.wordAt (pos - 1) with
      | none => .ub
      | some (i, _) =>
        (evalExpr env r s).bind fun (t, s') =>
          match s'.heap[i]? with
          | none => .ub
          | some w =>
            (w.write (if sd = .other then .tl else sd) (env.attr part) true
                (env.copycase t (w.read sd (env.attr part) q))).map fun w' =>
              { s' with heap := s'.heap.set i w' }
    | .simple (.var n) =>
      (evalExpr env r s).map fun (t, s') => { s' with vars := upd s'.vars n (env.copycase t (s'.vars n)) }
    | _ => .ok s

/-- The virtual methods of `Transfer`. -/
def virt (env : TEnv) : Virt TSt where
  evalString := evalExpr env
  processLet := processLet env
  processAppend := processAppend env
  processOut := processOut env
  processModifyCase := processModifyCase env
  tolower := env.tolower
  stoi := env.stoi
  list := env.list

/-- The array of arguments of a macro (transfer.cc:759-773): `none` for an index outside `word` (undefined behaviour). -/
def macroArgs (word : List (Option Nat)) : List Int → Option (List (Option Nat))
  | [] => some []
  | p :: ps =>
    if p - 1 < 0 then none
    else
      match word[(p - 1).toNat]?, macroArgs word ps with
      | some x, some xs => some (x :: xs)
      | _, _ => none

/-- `processCallMacro` (transfer.cc:740-788).  The first argument bounds the depth of nested calls: a macro that calls
itself for ever is `diverge` for every bound. -/
def callMacro (env : TEnv) : Nat → Text → List Int → TSt → Outcome TSt
  | 0, _, _, _ => .diverge
  | d + 1, n, args, s =>
    let npar := (env.macros n).1
    let run (w : List (Option Nat)) : Outcome TSt :=
      (execMacroBody (virt env) (callMacro env d) (env.macros n).2 { s with word := w }).map fun s' =>
        { s' with word := s.word }
    if npar = 0 then run []
    else if args.length > npar then
      -- line 763-767: the error is found at the first argument too many; earlier ones have been read
      match macroArgs s.word (args.take npar) with
      | none => .ub
      | some _ => .ok s
    else
      match macroArgs s.word args with
      | none => .ub
      | some ws => run (ws ++ List.replicate (npar - args.length) none)

/-- `processRule` (transfer_base.cc:252-273), nested macro calls bounded by `d`. -/
def processRule (env : TEnv) (d : Nat) (action : List Instr) (s : TSt) : Outcome (Int × TSt) :=
  (execBlock (virt env) (callMacro env d) action (-1) s).map fun (w, s') =>
    (w, { s' with out := s'.out ++ flushBlanks s'.blanks, blanks := [] })

end Verif.Transfer
