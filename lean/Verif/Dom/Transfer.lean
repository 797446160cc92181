import Verif.Dom.Base
import Verif.Transfer.Model
/-!
# `Transfer` on libxml2 trees (apertium/transfer.cc)

The functions of Verif/Transfer/Model.lean again, on trees and with `evalStringCache`: the first time an element is evaluated its attributes are decoded and kept; after
that they are taken from the cache.  What does not look at the tree is shared with Verif/Transfer/Model.lean (`wordAt`, `addWblank`, `finishLu`, `finishMlu`, `chunkName`).
Warnings are not modelled.
-/
namespace Verif.Dom.T
open Verif.Transfer

/-- The object and its cache. -/
abbrev XSt := TSt × Cache

/-- `side` of an evaluated `<clip>`, of `<case-of>` and in `<modify-case>`: anything but `sl` and `ref` is `tl` (transfer.cc:254-270, 293-299, 697-727). -/
def readSide (o : Option Text) : Side := if o = some t!"sl" then .sl else if o = some t!"ref" then .ref else .tl

/-- `side` of the left side of `<let>`: anything but `tl` and `ref` is `sl` (transfer.cc:621-648). -/
def letSide (o : Option Text) : Side := if o = some t!"tl" then .tl else if o = some t!"ref" then .ref else .sl

/-- `pos`, counted from 0; 0 without the attribute (transfer.cc:231, 243). -/
def posOf (o : Option Text) : Int := match o with | some p => atoi p - 1 | none => 0

/-- `queue="no"` (transfer.cc:244-247). -/
def queueOf (o : Option Text) : Bool := decide (o ≠ some t!"no")

/-- `processClip` (transfer.cc:228-272). -/
def clipEntry (as : List (Text × Text)) : Outcome Entry :=
  (attrLoop clipKeys as fun _ => none).map fun m =>
    let to := (m t!"link-to").getD []
    { ty := if to ≠ [] then .linkto (readSide (m t!"side")) else .clip (readSide (m t!"side")),
      content := (m t!"part").getD [], pos := posOf (m t!"pos"), cond := queueOf (m t!"queue"), strval := to }

/-- `processCaseOf` (transfer.cc:280-300). -/
def caseOfEntry (as : List (Text × Text)) : Outcome Entry :=
  (attrLoop caseKeys as fun _ => none).map fun m =>
    { ty := .caseOf (readSide (m t!"side")), content := (m t!"part").getD [], pos := posOf (m t!"pos") }

/-- The elements that are put in the cache, and what is put there (transfer_base.cc:211-231, `processBlank` transfer.cc:274-278). -/
def decode (k : EK) (as : List (Text × Text)) (ks : List XNode) : Option (Outcome Entry) :=
  match k with
  | .clip => some (clipEntry as)
  | .litTag => some (.ok { ty := .litTag, content := tagsText (getattr as t!"v"), pos := 0 })
  | .lit => some (.ok { ty := .lit, content := getattr as t!"v", pos := 0 })
  | .b => some (.ok { ty := .b, content := [' '], pos := -1 })
  | .getCaseFrom => some ((firstAttr as).map fun p => { ty := .getCaseFrom, content := t!"lem", pos := atoi p - 1, ptr := (elems ks).head? })
  | .var => some (.ok { ty := .var, content := getattr as t!"n", pos := 0 })
  | .caseOf => some (caseOfEntry as)
  | _ => none

/-- `evalCachedString` (transfer.cc:93-226); `leaf` evaluates the element a `<get-case-from>` points to. -/
def evalEntry (env : TEnv) (leaf : XNode → XSt → Outcome (Text × XSt)) (e : Entry) (x : XSt) : Outcome (Text × XSt) :=
  let s := x.1
  match e.ty with
  | .clip sd =>
    match s.wordAt e.pos with
    | none => .ok ([], x)
    | some (_, w) =>
      if sd = .ref then .ok (w.read sd (env.attr e.content) e.cond, x)
      else (addWblank env e.content w.wb s).map fun s' => (w.read sd (env.attr e.content) e.cond, (s', x.2))
  | .linkto sd =>
    match s.wordAt e.pos with
    | none => .ok ([], x)
    | some (_, w) => .ok (if w.read sd (env.attr e.content) e.cond ≠ [] then '<' :: e.strval ++ ['>'] else [], x)
  | .var =>
    if env.lastLword > 1 then
      (combineWblanks s.outWb (s.varWb e.content)).map fun t => (s.vars e.content, ({ s with outWb := t }, x.2))
    else .ok (s.vars e.content, x)
  | .litTag => .ok (e.content, x)
  | .lit => .ok (e.content, x)
  | .b =>
    match s.blanks with
    | [] => .ok ([' '], x)
    | b :: bs => .ok (b, (if s.inOut then { s with blanks := bs } else s, x.2))
  | .getCaseFrom =>
    match s.wordAt e.pos with
    | none => .ok ([], x)
    | some (_, w) =>
      match e.ptr with
      | none => .fail
      | some p => (leaf p x).map fun (d, x') => (env.baseCopycase (w.read .sl (env.attr e.content) true) d, x')
  | .caseOf sd =>
    match s.wordAt e.pos with
    | none => .ok ([], x)
    | some (_, w) => .ok (env.getcase (w.read sd (env.attr e.content) true), x)
  | .luCount => .ok ([], x)

/-- `evalString` of the element inside a `<get-case-from>`, which by the document type is a `<clip>`, a `<lit>` or a `<var>` (transfer.dtd:425).  Another element there
is not modelled (here it fails). -/
def xLeaf (env : TEnv) (n : XNode) (x : XSt) : Outcome (Text × XSt) :=
  match x.2 n.id with
  | some e => evalEntry env (fun _ _ => .fail) e x
  | none =>
    match decode (EK.of n.name) n.attrs n.kids with
    | some d => d.bind fun e => evalEntry env (fun _ _ => .fail) e (x.1, x.2.put n.id e)
    | none => .fail

mutual
/-- `evalString` (transfer_base.cc:202-250) with `processLu`, `processMlu`, `processChunk`, `processLuCount` (transfer.cc:302-385, 412-484). -/
def xExpr (env : TEnv) : XNode → XSt → Outcome (Text × XSt)
  | .text _, _ => .fail
  | .elem i n as ks, x =>
    match x.2 i with
    | some e => evalEntry env (xLeaf env) e x
    | none =>
      match decode (EK.of n) as ks with
      | some d => d.bind fun e => evalEntry env (xLeaf env) e (x.1, x.2.put i e)
      | none =>
        match EK.of n with
        | .concat => xList env ks x
        | .lu =>
          (xList env ks ({ x.1 with inLu := true, outWb := [] }, x.2)).bind fun (t, x') =>
            (finishLu env t { x'.1 with inLu := false }).map fun (u, s') => (u, (s', x'.2))
        | .mlu =>
          (xMlu env ks true ({ x.1 with inLu := true, outWb := [] }, x.2)).bind fun (t, x') =>
            (finishMlu env t x'.1).map fun (u, s') => (u, (s', x'.2))
        | .chunk =>
          (attrLoop chunkKeys as fun _ => none).bind fun m =>
            (chunkName env ((m t!"name").getD []) ((m t!"namefrom").getD []) ((m t!"case").getD t!"aa") x.1).bind fun nm =>
              (xChunk env ks x).map fun (t, x') => ('^' :: nm ++ t ++ ['}', '$'], x')
        | _ => .fail
/-- The values of the children, one after the other. -/
def xList (env : TEnv) : List XNode → XSt → Outcome (Text × XSt)
  | [], x => .ok ([], x)
  | k :: ks, x =>
    if k.isText then xList env ks x
    else (xExpr env k x).bind fun (t, x1) => (xList env ks x1).map fun (u, x2) => (t ++ u, x2)
/-- The loop of `processMlu` (transfer.cc:345-361): the children of the children. -/
def xMlu (env : TEnv) : List XNode → Bool → XSt → Outcome (Text × XSt)
  | [], _, x => .ok ([], x)
  | k :: ks, first, x =>
    match k with
    | .text _ => xMlu env ks first x
    | .elem _ _ _ ch =>
      (xList env ch x).bind fun (w, x1) =>
        (xMlu env ks (first && decide (w = [])) x1).map fun (u, x2) =>
          ((if first = false ∧ w ≠ [] ∧ w.head? ≠ some '#' then ['+'] else []) ++ w ++ u, x2)
/-- `processTags` (transfer.cc:486-498). -/
def xTags (env : TEnv) : List XNode → XSt → Outcome (Text × XSt)
  | [], x => .ok ([], x)
  | k :: ks, x =>
    match k with
    | .text _ => xTags env ks x
    | .elem _ n _ ch =>
      if n = t!"tag" then (xList env ch x).bind fun (t, x1) => (xTags env ks x1).map fun (u, x2) => (t ++ u, x2)
      else xTags env ks x
/-- The loop of `processChunk` (transfer.cc:467-480).  (`processLu(i)` and `processMlu(i)` are what `evalString(i)` calls.) -/
def xChunk (env : TEnv) : List XNode → XSt → Outcome (Text × XSt)
  | [], x => .ok ([], x)
  | k :: ks, x =>
    if k.isText then xChunk env ks x
    else if EK.of k.name = .tags then
      match k with
      | .text _ => .fail
      | .elem _ _ _ ch => (xTags env ch x).bind fun (t, x1) => (xChunk env ks x1).map fun (u, x2) => (t ++ '{' :: u, x2)
    else (xExpr env k x).bind fun (t, x1) => (xChunk env ks x1).map fun (u, x2) => (t ++ u, x2)
end

/-- The loop of `processOut` (transfer.cc:392-408); whatever `default` is, each child is evaluated and written. -/
def xOutLoop (env : TEnv) : List XNode → XSt → Outcome XSt
  | [], x => .ok x
  | k :: ks, x =>
    if k.isText then xOutLoop env ks x
    else (xExpr env k x).bind fun (t, x') => xOutLoop env ks ({ x'.1 with out := x'.1.out ++ t }, x'.2)

/-- `processOut` (transfer.cc:387-410). -/
def xOut (env : TEnv) (n : XNode) (x : XSt) : Outcome XSt :=
  (xOutLoop env n.kids ({ x.1 with inOut := true }, x.2)).map fun x' => ({ x'.1 with inOut := false }, x'.2)

/-- `processAppend` (transfer_base.cc:363-373). -/
def xAppendLoop (env : TEnv) (n : Text) : List XNode → XSt → Outcome XSt
  | [], x => .ok x
  | k :: ks, x =>
    if k.isText then xAppendLoop env n ks x
    else
      (xExpr env k ({ x.1 with inLetVar := true, varVal := n }, x.2)).bind fun (t, x') =>
        xAppendLoop env n ks ({ x'.1 with vars := upd x'.1.vars n (x'.1.vars n ++ t), inLetVar := false }, x'.2)

/-- `processAppend` (transfer_base.cc:363-373). -/
def xAppend (env : TEnv) (n : XNode) (x : XSt) : Outcome XSt := xAppendLoop env (getattr n.attrs t!"n") n.kids x

/-- `variables[n] = evalString(rightSide)` with what surrounds it (transfer.cc:519-528, 572-584). -/
def letVar (env : TEnv) (n : Text) (r : XNode) (x : XSt) : Outcome XSt :=
  (xExpr env r ({ x.1 with inLetVar := true, varVal := n, varWb := upd x.1.varWb n [] }, x.2)).map fun (t, x') =>
    ({ x'.1 with vars := upd x'.1.vars n t, inLetVar := false }, x'.2)

/-- `word[pos]->setTarget(attr_items[part], evalString(rightSide), queue)` and its variants. -/
def letWord (env : TEnv) (i : Nat) (sd : Side) (part : Text) (q : Bool) (r : XNode) (x : XSt) : Outcome XSt :=
  (xExpr env r x).bind fun (t, x') =>
    match x'.1.heap[i]? with
    | none => .ub
    | some w => (w.write sd (env.attr part) q t).map fun w' => ({ x'.1 with heap := x'.1.heap.set i w' }, x'.2)

/-- `processLet` (transfer.cc:500-651): the left side is decoded once, too.  (With fewer than two children: not modelled, here it fails.) -/
def xLet (env : TEnv) (n : XNode) (x : XSt) : Outcome XSt :=
  match elems n.kids with
  | l :: r :: _ =>
    match x.2 l.id with
    | some e =>
      match e.ty with
      | .var => letVar env e.content r x
      | .clip sd =>
        match x.1.wordAt e.pos with
        | none => .ok x
        | some (i, _) => letWord env i sd e.content e.cond r x
      | _ => .ok x
    | none =>
      match EK.of l.name with
      | .var =>
        (firstAttr l.attrs).bind fun v =>
          (letVar env v r x).map fun x' => (x'.1, x'.2.put l.id { ty := .var, content := v, pos := 0 })
      | .clip =>
        (attrLoop clipKeys l.attrs fun _ => none).bind fun m =>
          let pos := posOf (m t!"pos")
          if pos ≥ x.1.word.length then .ok x
          else if pos < 0 then .ub
          else
            match x.1.wordAt pos with
            | none => .ok x
            | some (i, _) =>
              (letWord env i (letSide (m t!"side")) ((m t!"part").getD []) (queueOf (m t!"queue")) r x).map fun x' =>
                (x'.1, x'.2.put l.id
                  { ty := .clip (letSide (m t!"side")), content := (m t!"part").getD [], pos := pos, cond := queueOf (m t!"queue") })
      | _ => .ok x
  | _ => .fail

/-- `processModifyCase` (transfer.cc:653-738).  (With fewer than two children: not modelled, here it fails.) -/
def xModifyCase (env : TEnv) (n : XNode) (x : XSt) : Outcome XSt :=
  if env.dictCase then .ok x
  else
    match elems n.kids with
    | l :: r :: _ =>
      match EK.of l.name with
      | .clip =>
        (attrLoop clipKeys l.attrs fun _ => none).bind fun m =>
          match x.1.wordAt (posOf (m t!"pos")) with
          | none => .ub
          | some (i, _) =>
            (xExpr env r x).bind fun (t, x') =>
              match x'.1.heap[i]? with
              | none => .ub
              | some w =>
                let re := env.attr ((m t!"part").getD [])
                (w.write (readSide (m t!"side")) re true (env.copycase t (w.read (readSide (m t!"side")) re (queueOf (m t!"queue"))))).map fun w' =>
                  ({ x'.1 with heap := x'.1.heap.set i w' }, x'.2)
      | .var =>
        (firstAttr l.attrs).bind fun v =>
          (xExpr env r x).map fun (t, x') => ({ x'.1 with vars := upd x'.1.vars v (env.copycase t (x'.1.vars v)) }, x'.2)
      | _ => .ok x
    | _ => .fail

/-- The arguments of a macro (transfer.cc:762-773): the number is what is left of `npar`; `none` when there are too many.  Reading `word` outside the array is undefined
behaviour. -/
def xArgs (word : List (Option Nat)) : Nat → List XNode → Outcome (Option (List (Option Nat)))
  | _, [] => .ok (some [])
  | 0, _ :: _ => .ok none
  | r + 1, k :: ks =>
    (firstAttr k.attrs).bind fun p =>
      if atoi p - 1 < 0 then .ub
      else
        match word[(atoi p - 1).toNat]? with
        | none => .ub
        | some o => (xArgs word r ks).map fun rest => rest.map (o :: ·)

/-- The virtual functions of `Transfer`. -/
def xvirt (env : TEnv) (call : XNode → XSt → Outcome XSt) : XVirt XSt where
  evalString := xExpr env
  processLet := xLet env
  processAppend := xAppend env
  processOut := xOut env
  processModifyCase := xModifyCase env
  processCallMacro := call
  tolower := env.tolower
  stoi := env.stoi
  list := env.list

/-- `processCallMacro` (transfer.cc:740-788), calls inside calls at most as deep as the number says.  `mac` is `macro_map[macros[n]]`. -/
def xCall (env : TEnv) (mac : Text → Option XNode) : Nat → XNode → XSt → Outcome XSt
  | 0, _, _ => .diverge
  | d + 1, n, x =>
    (firstAttr n.attrs).bind fun name =>
      match mac name with
      | none => .ub
      | some m =>
        (npar m.attrs).bind fun np =>
          let run (w : List (Option Nat)) : Outcome XSt :=
            (xMacro (xvirt env (xCall env mac d)) m.kids ({ x.1 with word := w }, x.2)).map fun x' =>
              ({ x'.1 with word := x.1.word }, x'.2)
          if np ≤ 0 then run []
          else
            (xArgs x.1.word np.toNat (elems n.kids)).bind fun
              | none => .ok x
              | some ws => run (ws ++ List.replicate (np.toNat - ws.length) none)

/-- `processRule` (transfer_base.cc:252-273) on the `<action>` of a rule. -/
def xRule (env : TEnv) (mac : Text → Option XNode) (d : Nat) (action : XNode) (x : XSt) : Outcome (Int × XSt) :=
  (xBlock (xvirt env (xCall env mac d)) action.kids (-1) x).map fun (w, x') =>
    (w, ({ x'.1 with out := x'.1.out ++ flushBlanks x'.1.blanks, blanks := [] }, x'.2))

end Verif.Dom.T
