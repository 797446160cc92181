import Verif.Dom.Chunk
import Verif.Inter.Model
/-!
# `Interchunk` on libxml2 trees (apertium/interchunk.cc)

The functions of Verif/Inter/Model.lean again, on trees and with `evalStringCache`.
-/
namespace Verif.Dom.I
open Verif.Transfer Verif.Inter

abbrev XSt := ISt × Cache

/-- `decode` for this program. -/
abbrev dec := C.decode 1 false

/-- `evalCachedString` (interchunk.cc:49-101); `leaf` evaluates the element a `<get-case-from>` points to. -/
def evalEntry (env : TEnv) (leaf : XNode → XSt → Outcome (Text × XSt)) (e : Entry) (x : XSt) : Outcome (Text × XSt) :=
  let s := x.1
  match e.ty with
  | .clip _ =>
    (s.wordAt e.pos).bind fun
      | none => .ok ([], x)
      | some (_, w) => (clipValue env e.content w).map fun t => (t, x)
  | .var => .ok (s.vars e.content, x)
  | .litTag => .ok (e.content, x)
  | .lit => .ok (e.content, x)
  | .b =>
    match s.blanks with
    | [] => .ok ([' '], x)
    | b :: bs => .ok (b, (if s.inOut then { s with blanks := bs } else s, x.2))
  | .getCaseFrom =>
    (s.wordAt e.pos).bind fun
      | none => .ok ([], x)
      | some (_, w) =>
        match e.ptr with
        | none => .fail
        | some p => (leaf p x).map fun (d, x') => (env.baseCopycase (w.chunkPart (env.attr e.content)) d, x')
  | .caseOf _ =>
    (s.wordAt e.pos).bind fun
      | none => .ok ([], x)
      | some (_, w) => .ok (env.getcase (w.chunkPart (env.attr e.content)), x)
  | _ => .ok ([], x)

/-- `evalString` of the element inside a `<get-case-from>`, which by the document type is a `<clip>`, a `<lit>` or a `<var>`.  Another element there is not modelled
(here it fails). -/
def xLeaf (env : TEnv) (n : XNode) (x : XSt) : Outcome (Text × XSt) :=
  match x.2 n.id with
  | some e => evalEntry env (fun _ _ => .fail) e x
  | none =>
    match dec (EK.of n.name) n.attrs n.kids with
    | some d => d.bind fun e => evalEntry env (fun _ _ => .fail) e (x.1, x.2.put n.id e)
    | none => .fail

mutual
/-- `evalString` (transfer_base.cc:202-250) with `processChunk` (interchunk.cc:186-199), `processLu`, `processMlu`, `processLuCount` (interchunk.cc:129-152: they end the
program). -/
def xExpr (env : TEnv) : XNode → XSt → Outcome (Text × XSt)
  | .text _, _ => .fail
  | .elem i n as ks, x =>
    match x.2 i with
    | some e => evalEntry env (xLeaf env) e x
    | none =>
      match dec (EK.of n) as ks with
      | some d => d.bind fun e => evalEntry env (xLeaf env) e (x.1, x.2.put i e)
      | none =>
        match EK.of n with
        | .concat => xList env ks x
        | .chunk => (xList env ks x).map fun (t, x') => ('^' :: t ++ ['$'], x')
        | _ => .fail
/-- The values of the children, one after the other. -/
def xList (env : TEnv) : List XNode → XSt → Outcome (Text × XSt)
  | [], x => .ok ([], x)
  | k :: ks, x =>
    if k.isText then xList env ks x
    else (xExpr env k x).bind fun (t, x1) => (xList env ks x1).map fun (u, x2) => (t ++ u, x2)
end

/-- The loop of `processOut` (interchunk.cc:174-181). -/
def xOutLoop (env : TEnv) : List XNode → XSt → Outcome XSt
  | [], x => .ok x
  | k :: ks, x =>
    if k.isText then xOutLoop env ks x
    else (xExpr env k x).bind fun (t, x') => xOutLoop env ks ({ x'.1 with out := x'.1.out ++ t }, x'.2)

/-- `processOut` (interchunk.cc:169-184). -/
def xOut (env : TEnv) (n : XNode) (x : XSt) : Outcome XSt :=
  (xOutLoop env n.kids ({ x.1 with inOut := true }, x.2)).map fun x' => ({ x'.1 with inOut := false }, x'.2)

/-- The loop of `processAppend` (transfer_base.cc:366-372). -/
def xAppendLoop (env : TEnv) (n : Text) : List XNode → XSt → Outcome XSt
  | [], x => .ok x
  | k :: ks, x =>
    if k.isText then xAppendLoop env n ks x
    else
      (xExpr env k x).bind fun (t, x') => xAppendLoop env n ks ({ x'.1 with vars := upd x'.1.vars n (x'.1.vars n ++ t) }, x'.2)

/-- `processAppend` (transfer_base.cc:363-373). -/
def xAppend (env : TEnv) (n : XNode) (x : XSt) : Outcome XSt := xAppendLoop env (getattr n.attrs t!"n") n.kids x

/-- `variables[n] = evalString(rightSide)` (interchunk.cc:218, 238). -/
def letVar (env : TEnv) (n : Text) (r : XNode) (x : XSt) : Outcome XSt :=
  (xExpr env r x).map fun (t, x') => ({ x'.1 with vars := upd x'.1.vars n t }, x'.2)

/-- `word[pos]->setChunkPart(attr_items[part], evalString(rightSide))` (interchunk.cc:223, 267-268). -/
def letWord (env : TEnv) (e : Entry) (r : XNode) (x : XSt) : Outcome XSt :=
  (x.1.wordRaw e.pos).bind fun (i, w) =>
    (xExpr env r x).map fun (t, x') => ({ x'.1 with heap := x'.1.heap.set i (w.setChunkPart (env.attr e.content) t) }, x'.2)

/-- `processLet` (interchunk.cc:201-277): the left side is decoded once, too.  (With fewer than two children: not modelled, here it fails.) -/
def xLet (env : TEnv) (n : XNode) (x : XSt) : Outcome XSt :=
  match elems n.kids with
  | l :: r :: _ =>
    match x.2 l.id with
    | some e =>
      match e.ty with
      | .var => letVar env e.content r x
      | .clip _ => letWord env e r x
      | _ => .ok x
    | none =>
      match EK.of l.name with
      | .var =>
        (firstAttr l.attrs).bind fun v =>
          (letVar env v r x).map fun x' => (x'.1, x'.2.put l.id { ty := .var, content := v, pos := 0 })
      | .clip => (C.clipEntry 1 l.attrs).bind fun e => (letWord env e r x).map fun x' => (x'.1, x'.2.put l.id e)
      | _ => .ok x
  | _ => .fail

/-- `processModifyCase` (interchunk.cc:279-322).  (With fewer than two children: not modelled, here it fails.) -/
def xModifyCase (env : TEnv) (n : XNode) (x : XSt) : Outcome XSt :=
  if env.dictCase then .ok x
  else
    match elems n.kids with
    | l :: r :: _ =>
      match EK.of l.name with
      | .clip =>
        (C.clipEntry 1 l.attrs).bind fun e =>
          (x.1.wordRaw e.pos).bind fun (i, w) =>
            (xExpr env r x).map fun (t, x') =>
              ({ x'.1 with heap := x'.1.heap.set i (w.setChunkPart (env.attr e.content) (env.copycase t (w.chunkPart (env.attr e.content)))) }, x'.2)
      | .var =>
        (firstAttr l.attrs).bind fun v =>
          (xExpr env r x).map fun (t, x') => ({ x'.1 with vars := upd x'.1.vars v (env.copycase t (x'.1.vars v)) }, x'.2)
      | _ => .ok x
    | _ => .fail

/-- The loop over the arguments (interchunk.cc:345-350): `myword[idx] = word[pos]`; outside either array, or a pointer that has never been set, is undefined behaviour.
The number is what is left of `npar`. -/
def xArgs (word : List (Option Nat)) : Nat → List XNode → Outcome (List (Option Nat))
  | _, [] => .ok []
  | 0, _ :: _ => .ub
  | r + 1, k :: ks =>
    (firstAttr k.attrs).bind fun p =>
      if atoi p - 1 < 0 then .ub
      else
        match word[(atoi p - 1).toNat]? with
        | some (some i) => (xArgs word r ks).map fun rest => some i :: rest
        | _ => .ub

/-- The virtual functions of `Interchunk`. -/
def xvirt (env : TEnv) (call : XNode → XSt → Outcome XSt) : XVirt XSt where
  evalString := xExpr env
  processLet := xLet env
  processAppend := xAppend env
  processOut := xOut env
  processModifyCase := xModifyCase env
  processCallMacro := call
  tolower := env.tolower
  stoi := env.stoi
  list := env.list

/-- `processCallMacro` (interchunk.cc:324-366), calls inside calls at most as deep as the number says.  `mac` is `macro_map[macros[n]]`. -/
def xCall (env : TEnv) (mac : Text → Option XNode) : Nat → XNode → XSt → Outcome XSt
  | 0, _, _ => .diverge
  | d + 1, n, x =>
    (firstAttr n.attrs).bind fun name =>
      match mac name with
      | none => .ub
      | some m =>
        (npar m.attrs).bind fun np =>
          let run (w : List (Option Nat)) : Outcome XSt :=
            (xMacro (xvirt env (xCall env mac d)) m.kids ({ x.1 with word := w }, x.2)).map fun x' =>
              ({ x'.1 with word := x.1.word }, x'.2)
          if np ≤ 0 then run []
          else (xArgs x.1.word np.toNat (elems n.kids)).bind fun ws => run (ws ++ List.replicate (np.toNat - ws.length) none)

/-- `processRule` (transfer_base.cc:252-273) on the `<action>` of a rule. -/
def xRule (env : TEnv) (mac : Text → Option XNode) (d : Nat) (action : XNode) (x : XSt) : Outcome (Int × XSt) :=
  (xBlock (xvirt env (xCall env mac d)) action.kids (-1) x).map fun (w, x') =>
    (w, ({ x'.1 with out := x'.1.out ++ flushBlanks x'.1.blanks, blanks := [] }, x'.2))

end Verif.Dom.I
