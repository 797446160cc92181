import Verif.Dom.Chunk
import Verif.Postchunk.Model
/-!
# `Postchunk` on libxml2 trees (apertium/postchunk.cc)

The functions of Verif/Postchunk/Model.lean again, on trees and with `evalStringCache`.
-/
namespace Verif.Dom.P
open Verif.Postchunk
open Verif.Transfer hiding evalExpr evalSimple evalList evalMlu finishLu luText addWblank outLoop processOut processLet processAppend processModifyCase virt macroArgs callMacro processRule

abbrev XSt := PSt × Cache

/-- `decode` for this program. -/
abbrev dec := C.decode 0 true

/-- `evalCachedString` (postchunk.cc:49-110); `leaf` evaluates the element a `<get-case-from>` points to. -/
def evalEntry (env : TEnv) (leaf : XNode → XSt → Outcome (Text × XSt)) (e : Entry) (x : XSt) : Outcome (Text × XSt) :=
  let s := x.1
  match e.ty with
  | .clip _ =>
    (s.wordAt e.pos).bind fun
      | none => .ok ([], x)
      | some (_, w) => (addWblank e.content w.wb s).map fun s' => (w.chunkPart (env.attr e.content), (s', x.2))
  | .luCount => .ok ((Nat.repr s.count).toList, x)
  | .var =>
    if s.lword > 1 then (combineWblanks s.outWb (s.varWb e.content)).map fun t => (s.vars e.content, ({ s with outWb := t }, x.2))
    else .ok (s.vars e.content, x)
  | .litTag => .ok (e.content, x)
  | .lit => .ok (e.content, x)
  | .b =>
    match s.blanks with
    | [] => .ok ([' '], x)
    | b :: bs => .ok (b, (if s.inOut then { s with blanks := bs } else s, x.2))
  | .getCaseFrom =>
    (s.wordAt (e.pos + 1)).bind fun
      | none => .ok ([], x)
      | some (_, w) =>
        match e.ptr with
        | none => .fail
        | some p => (leaf p x).map fun (d, x') => (env.baseCopycase (w.chunkPart (env.attr e.content)) d, x')
  | .caseOf _ =>
    (s.wordAt e.pos).bind fun
      | none => .ok ([], x)
      | some (_, w) => .ok (env.getcase (w.chunkPart (env.attr e.content)), x)
  | .linkto _ => .ok ([], x)

/-- `evalString` of the element inside a `<get-case-from>`, which by the document type is a `<clip>`, a `<lit>` or a `<var>`.  Another element there is not modelled
(here it fails). -/
def xLeaf (env : TEnv) (n : XNode) (x : XSt) : Outcome (Text × XSt) :=
  match x.2 n.id with
  | some e => evalEntry env (fun _ _ => .fail) e x
  | none =>
    match dec (EK.of n.name) n.attrs n.kids with
    | some d => d.bind fun e => evalEntry env (fun _ _ => .fail) e (x.1, x.2.put n.id e)
    | none => .fail

mutual
/-- `evalString` (transfer_base.cc:202-250) with `processLu` (postchunk.cc:159-180), `processMlu` (182-222) and `processChunk` (224-230: it ends the program). -/
def xExpr (env : TEnv) : XNode → XSt → Outcome (Text × XSt)
  | .text _, _ => .fail
  | .elem i n as ks, x =>
    match x.2 i with
    | some e => evalEntry env (xLeaf env) e x
    | none =>
      match dec (EK.of n) as ks with
      | some d => d.bind fun e => evalEntry env (xLeaf env) e (x.1, x.2.put i e)
      | none =>
        match EK.of n with
        | .concat => xList env ks x
        | .lu => (xList env ks ({ x.1 with inLu := true, outWb := [] }, x.2)).bind fun (t, x') =>
            (finishLu t { x'.1 with inLu := false }).map fun (u, s') => (u, (s', x'.2))
        | .mlu => (xMlu env ks true ({ x.1 with inLu := true, outWb := [] }, x.2)).bind fun (t, x') =>
            (finishLu t { x'.1 with inLu := false }).map fun (u, s') => (u, (s', x'.2))
        | _ => .fail
/-- The values of the children, one after the other. -/
def xList (env : TEnv) : List XNode → XSt → Outcome (Text × XSt)
  | [], x => .ok ([], x)
  | k :: ks, x =>
    if k.isText then xList env ks x
    else (xExpr env k x).bind fun (t, x1) => (xList env ks x1).map fun (u, x2) => (t ++ u, x2)
/-- The loop of `processMlu` (postchunk.cc:190-210). -/
def xMlu (env : TEnv) : List XNode → Bool → XSt → Outcome (Text × XSt)
  | [], _, x => .ok ([], x)
  | .text _ :: ks, first, x => xMlu env ks first x
  | .elem _ _ _ ch :: ks, first, x =>
    (xList env ch x).bind fun (w, x1) =>
      (xMlu env ks (first && decide (w = [])) x1).map fun (u, x2) =>
        ((if first = false ∧ w ≠ [] ∧ w.head? ≠ some '#' then ['+'] else []) ++ w ++ u, x2)
end

/-- `processLu` (postchunk.cc:159-180). -/
def xLu (env : TEnv) (n : XNode) (x : XSt) : Outcome (Text × XSt) :=
  (xList env n.kids ({ x.1 with inLu := true, outWb := [] }, x.2)).bind fun (t, x') =>
    (finishLu t { x'.1 with inLu := false }).map fun (u, s') => (u, (s', x'.2))

/-- `processMlu` (postchunk.cc:182-222). -/
def xMluTop (env : TEnv) (n : XNode) (x : XSt) : Outcome (Text × XSt) :=
  (xMlu env n.kids true ({ x.1 with inLu := true, outWb := [] }, x.2)).bind fun (t, x') =>
    (finishLu t { x'.1 with inLu := false }).map fun (u, s') => (u, (s', x'.2))

/-- What `processOut` writes for one child (postchunk.cc:238-244). -/
def xOutOne (env : TEnv) (n : XNode) (x : XSt) : Outcome (Text × XSt) :=
  if n.name = t!"lu" then xLu env n x
  else if n.name = t!"mlu" then xMluTop env n x
  else xExpr env n x

/-- The loop of `processOut` (postchunk.cc:237-245). -/
def xOutLoop (env : TEnv) : List XNode → XSt → Outcome XSt
  | [], x => .ok x
  | k :: ks, x =>
    if k.isText then xOutLoop env ks x
    else (xOutOne env k x).bind fun (t, x') => xOutLoop env ks ({ x'.1 with out := x'.1.out ++ t }, x'.2)

/-- `processOut` (postchunk.cc:232-248). -/
def xOut (env : TEnv) (n : XNode) (x : XSt) : Outcome XSt :=
  (xOutLoop env n.kids ({ x.1 with inOut := true }, x.2)).map fun x' => ({ x'.1 with inOut := false }, x'.2)

/-- The loop of `processAppend` (transfer_base.cc:366-372). -/
def xAppendLoop (env : TEnv) (n : Text) : List XNode → XSt → Outcome XSt
  | [], x => .ok x
  | k :: ks, x =>
    if k.isText then xAppendLoop env n ks x
    else
      (xExpr env k ({ x.1 with inLetVar := true, varVal := n }, x.2)).bind fun (t, x') =>
        xAppendLoop env n ks ({ x'.1 with vars := upd x'.1.vars n (x'.1.vars n ++ t), inLetVar := false }, x'.2)

/-- `processAppend` (transfer_base.cc:363-373). -/
def xAppend (env : TEnv) (n : XNode) (x : XSt) : Outcome XSt := xAppendLoop env (getattr n.attrs t!"n") n.kids x

/-- Assigning a variable (postchunk.cc:282-289, 308-318). -/
def letVar (env : TEnv) (n : Text) (r : XNode) (x : XSt) : Outcome XSt :=
  (xExpr env r ({ x.1 with inLetVar := true, varVal := n, varWb := upd x.1.varWb n [] }, x.2)).map fun (t, x') =>
    ({ x'.1 with vars := upd x'.1.vars n t, inLetVar := false }, x'.2)

/-- `word[pos]->setChunkPart(attr_items[part], evalString(rightSide))` (postchunk.cc:294, 338-339). -/
def letWord (env : TEnv) (e : Entry) (r : XNode) (x : XSt) : Outcome XSt :=
  (x.1.wordRaw e.pos).bind fun (i, w) =>
    (xExpr env r x).map fun (t, x') => ({ x'.1 with heap := x'.1.heap.set i (w.setChunkPart (env.attr e.content) t) }, x'.2)

/-- `processLet` (postchunk.cc:262-346): the left side is decoded once, too.  (With fewer than two children: not modelled, here it fails.) -/
def xLet (env : TEnv) (n : XNode) (x : XSt) : Outcome XSt :=
  match elems n.kids with
  | l :: r :: _ =>
    match x.2 l.id with
    | some e =>
      match e.ty with
      | .var => letVar env e.content r x
      | .clip _ => letWord env e r x
      | _ => .ok x
    | none =>
      match EK.of l.name with
      | .var =>
        (firstAttr l.attrs).bind fun v =>
          (letVar env v r x).map fun x' => (x'.1, x'.2.put l.id { ty := .var, content := v, pos := 0 })
      | .clip => (C.clipEntry 0 l.attrs).bind fun e => (letWord env e r x).map fun x' => (x'.1, x'.2.put l.id e)
      | _ => .ok x
  | _ => .fail

/-- `processModifyCase` (postchunk.cc:348-394).  (With fewer than two children: not modelled, here it fails.) -/
def xModifyCase (env : TEnv) (n : XNode) (x : XSt) : Outcome XSt :=
  if env.dictCase then .ok x
  else
    match elems n.kids with
    | l :: r :: _ =>
      match EK.of l.name with
      | .clip =>
        (C.clipEntry 0 l.attrs).bind fun e =>
          (x.1.wordRaw e.pos).bind fun (i, w) =>
            (xExpr env r x).map fun (t, x') =>
              ({ x'.1 with heap := x'.1.heap.set i (w.setChunkPart (env.attr e.content) (env.copycase t (w.chunkPart (env.attr e.content)))) }, x'.2)
      | .var =>
        (firstAttr l.attrs).bind fun v =>
          (xExpr env r x).map fun (t, x') => ({ x'.1 with vars := upd x'.1.vars v (env.copycase t (x'.1.vars v)) }, x'.2)
      | _ => .ok x
    | _ => .fail

/-- The loop over the arguments (postchunk.cc:428-437): the pointers and `indexesOK`; the number is what is left of `npar`.  After the end of the array is undefined
behaviour, and so is `word[1]` where there is none, and a pointer that has never been set. -/
def xArgs (word : List (Option Nat)) : Nat → List XNode → Outcome (List (Option Nat) × Bool)
  | _, [] => .ok ([], true)
  | 0, _ :: _ => .ub
  | r + 1, k :: ks =>
    (firstAttr k.attrs).bind fun p =>
      if atoi p > (word.length - 1 : Nat) ∨ atoi p < 0 then
        match word[1]? with
        | none => .ub
        | some o => (xArgs word r ks).map fun (os, _) => (o :: os, false)
      else
        match word[(atoi p).toNat]? with
        | some (some i) => (xArgs word r ks).map fun (os, b) => (some i :: os, b)
        | _ => .ub

/-- The virtual functions of `Postchunk`. -/
def xvirt (env : TEnv) (call : XNode → XSt → Outcome XSt) : XVirt XSt where
  evalString := xExpr env
  processLet := xLet env
  processAppend := xAppend env
  processOut := xOut env
  processModifyCase := xModifyCase env
  processCallMacro := call
  tolower := env.tolower
  stoi := env.stoi
  list := env.list

/-- `processCallMacro` (postchunk.cc:396-454), calls inside calls at most as deep as the number says.  `mac` is `macro_map[macros[n]]`. -/
def xCall (env : TEnv) (mac : Text → Option XNode) : Nat → XNode → XSt → Outcome XSt
  | 0, _, _ => .diverge
  | d + 1, n, x =>
    (firstAttr n.attrs).bind fun name =>
      match mac name with
      | none => .ub
      | some m =>
        (npar m.attrs).bind fun np =>
          if np ≤ 0 then .fail
          else
            match x.1.word with
            | [] => .ub
            | w0 :: _ =>
              (xArgs x.1.word np.toNat (elems n.kids)).bind fun (os, good) =>
                if good then
                  (xMacro (xvirt env (xCall env mac d)) m.kids ({ x.1 with word := w0 :: os ++ List.replicate (np.toNat - os.length) none }, x.2)).map fun x' =>
                    ({ x'.1 with word := x.1.word }, x'.2)
                else .ok x

/-- `processRule` (transfer_base.cc:252-273) on the `<action>` of a rule. -/
def xRule (env : TEnv) (mac : Text → Option XNode) (d : Nat) (action : XNode) (x : XSt) : Outcome (Int × XSt) :=
  (xBlock (xvirt env (xCall env mac d)) action.kids (-1) x).map fun (w, x') =>
    (w, ({ x'.1 with out := x'.1.out ++ flushBlanks x'.1.blanks, blanks := [] }, x'.2))

end Verif.Dom.P
