import Verif.Transfer.Syntax
/-!
# Rules as XML, and what they mean

The programs keep the rules as libxml2 trees (`xmlReadFile`, transfer_data / `TransferBase::readBil`..) and interpret those.  `XNode` is such a tree; the number of an
element stands for its address, by which `evalStringCache` is indexed.  The second half of this file is the specification: which abstract rule (Verif/Transfer/Syntax.lean)
an element denotes, in the terms of the document type (transfer.dtd, interchunk.dtd, postchunk.dtd): by the *names* of elements and attributes, in whatever order the
attributes are written and whatever comments and spaces stand between the elements.
-/
namespace Verif.Dom
open Verif.Transfer

/-- A node: `text` stands for everything that is not an element (text, comments, processing instructions), which `children()` steps over. -/
inductive XNode where
  | text (t : Text)
  | elem (id : Nat) (name : Text) (attrs : List (Text × Text)) (kids : List XNode)

namespace XNode
def isText : XNode → Bool
  | text _ => true
  | elem .. => false
def id : XNode → Nat
  | text _ => 0
  | elem i _ _ _ => i
def name : XNode → Text
  | text _ => []
  | elem _ n _ _ => n
def attrs : XNode → List (Text × Text)
  | text _ => []
  | elem _ _ as _ => as
def kids : XNode → List XNode
  | text _ => []
  | elem _ _ _ ks => ks
end XNode

/-- The elements of a list of nodes: what `children()` goes through (e.g. transfer_base.cc:218). -/
def elems (ks : List XNode) : List XNode := ks.filter fun k => !k.isText

/-- `atoi`: spaces, a sign, digits; 0 without digits.  (Overflow is not modelled.) -/
def atoi (t : Text) : Int :=
  let u := t.dropWhile fun c => decide (c = ' ' ∨ c = '\n' ∨ c = '\t' ∨ c = '\r' ∨ c = '\x0b' ∨ c = '\x0c')
  let num (v : Text) : Int := (v.takeWhile fun c => decide ('0' ≤ c ∧ c ≤ '9')).foldl (fun n c => 10 * n + (c.toNat - '0'.toNat : Nat)) 0
  match u with
  | [] => 0
  | c :: v => if c = '-' then - num v else if c = '+' then num v else num u

/-- The value of an attribute. -/
def look (as : List (Text × Text)) (k : Text) : Option Text := (as.find? fun p => decide (p.1 = k)).map (·.2)

/-- `getattr` (lttoolbox's xml_walk_util.h): the empty text when there is no such attribute. -/
def getattr (as : List (Text × Text)) (k : Text) : Text := (look as k).getD []

/-- The elements `evalString` tells apart (transfer_base.cc:211-247), and `tags` (transfer.cc:468). -/
inductive EK where
  | clip | litTag | lit | b | getCaseFrom | var | luCount | caseOf | concat | lu | mlu | chunk | tags | other
  deriving DecidableEq, Repr

/-- The comparisons of the name in `evalString` (transfer_base.cc:211-247). -/
def EK.of (n : Text) : EK :=
  if n = t!"clip" then .clip else if n = t!"lit-tag" then .litTag else if n = t!"lit" then .lit else if n = t!"b" then .b
  else if n = t!"get-case-from" then .getCaseFrom else if n = t!"var" then .var else if n = t!"lu-count" then .luCount
  else if n = t!"case-of" then .caseOf else if n = t!"concat" then .concat else if n = t!"lu" then .lu else if n = t!"mlu" then .mlu
  else if n = t!"chunk" then .chunk else if n = t!"tags" then .tags else .other

/-- The elements `processLogical` tells apart (transfer_base.cc:378-417). -/
inductive CK where
  | equal | beginsWith | beginsWithList | endsWith | endsWithList | containsSubstring | or | and | not | «in» | other
  deriving DecidableEq, Repr

/-- The comparisons of the name in `processLogical` (transfer_base.cc:378-417). -/
def CK.of (n : Text) : CK :=
  if n = t!"equal" then .equal else if n = t!"begins-with" then .beginsWith else if n = t!"begins-with-list" then .beginsWithList
  else if n = t!"ends-with" then .endsWith else if n = t!"ends-with-list" then .endsWithList
  else if n = t!"contains-substring" then .containsSubstring else if n = t!"or" then .or else if n = t!"and" then .and
  else if n = t!"not" then .not else if n = t!"in" then .in else .other

/-- The elements `processInstruction` tells apart (transfer_base.cc:279-306). -/
inductive IK where
  | choose | «let» | append | out | callMacro | modifyCase | reject | other
  deriving DecidableEq, Repr

/-- The comparisons of the name in `processInstruction` (transfer_base.cc:279-306). -/
def IK.of (n : Text) : IK :=
  if n = t!"choose" then .choose else if n = t!"let" then .let else if n = t!"append" then .append else if n = t!"out" then .out
  else if n = t!"call-macro" then .callMacro else if n = t!"modify-case" then .modifyCase
  else if n = t!"reject-current-rule" then .reject else .other

/-! ## What an element denotes -/

/-- No attribute is written twice: XML asks for it. -/
def distinct (as : List (Text × Text)) : Bool := decide ((as.map (·.1)).Nodup)

/-- The attribute `side` (transfer.dtd:370). -/
def absSide : Option Text → Side
  | none => .other
  | some t => if t = t!"sl" then .sl else if t = t!"tl" then .tl else if t = t!"ref" then .ref else .other

/-- The value of the only attribute. -/
def onlyAttr (as : List (Text × Text)) (k : Text) : Option Text :=
  match as with
  | [(n, v)] => if n = k then some v else none
  | _ => none

def clipKeys : List Text := [t!"side", t!"part", t!"pos", t!"queue", t!"link-to"]

/-- `<clip pos= side= part= queue= link-to=>` (transfer.dtd:368-373). -/
def absClip (as : List (Text × Text)) : Option Simple :=
  if distinct as = true then
    match look as t!"pos", look as t!"part" with
    | some p, some q => some (.clip (atoi p) (absSide (look as t!"side")) q (decide (look as t!"queue" ≠ some t!"no")) (getattr as t!"link-to"))
    | _, _ => none
  else none

def caseKeys : List Text := [t!"side", t!"part", t!"pos"]

/-- `<case-of pos= side= part=>`. -/
def absCaseOf (as : List (Text × Text)) : Option Expr :=
  if distinct as = true then
    match look as t!"pos", look as t!"part" with
    | some p, some q => some (.caseOf (atoi p) (absSide (look as t!"side")) q)
    | _, _ => none
  else none

/-- What may be in `<get-case-from>` (transfer.dtd:425). -/
def absSimple : XNode → Option Simple
  | .text _ => none
  | .elem _ n as _ =>
    match EK.of n with
    | .clip => absClip as
    | .lit => some (.lit (getattr as t!"v"))
    | .var => some (.var (getattr as t!"n"))
    | _ => none

def chunkKeys : List Text := [t!"name", t!"namefrom", t!"case"]

mutual
/-- The expression an element denotes (`%value;`, transfer.dtd:27). -/
def absExpr : XNode → Option Expr
  | .text _ => none
  | .elem _ n as ks =>
    match EK.of n with
    | .clip => (absClip as).map .simple
    | .lit => some (.simple (.lit (getattr as t!"v")))
    | .litTag => some (.litTag (getattr as t!"v"))
    | .b => some .blank
    | .var => some (.simple (.var (getattr as t!"n")))
    | .getCaseFrom =>
      match onlyAttr as t!"pos", elems ks with
      | some p, k :: _ => (absSimple k).map (.getCaseFrom (atoi p))
      | _, _ => none
    | .luCount => some .luCount
    | .caseOf => absCaseOf as
    | .concat => (absExprs ks).map .concat
    | .lu => (absExprs ks).map .lu
    | .mlu => (absLus ks).map .mlu
    | .chunk =>
      if distinct as = true then
        (absExprs ks).map (.chunk (getattr as t!"name") (getattr as t!"namefrom") ((look as t!"case").getD t!"aa"))
      else none
    | .tags => (absTags ks).map .tags
    | .other => some .unknown
/-- The children of an element. -/
def absExprs : List XNode → Option (List Expr)
  | [] => some []
  | k :: ks => if k.isText then absExprs ks else (absExpr k).bind fun e => (absExprs ks).map (e :: ·)
/-- The lexical units of `<mlu>` (transfer.dtd:455). -/
def absLus : List XNode → Option (List (List Expr))
  | [] => some []
  | k :: ks =>
    match k with
    | .text _ => absLus ks
    | .elem _ n _ ch => if n = t!"lu" then (absExprs ch).bind fun l => (absLus ks).map (l :: ·) else none
/-- The `<tag>`s of `<tags>`. -/
def absTags : List XNode → Option (List (List Expr))
  | [] => some []
  | k :: ks =>
    match k with
    | .text _ => absTags ks
    | .elem _ n _ ch => if n = t!"tag" then (absExprs ch).bind fun l => (absTags ks).map (l :: ·) else absTags ks
end

/-- The first two elements: for comparisons, `<let>` and `<modify-case>`. -/
def two (ks : List XNode) : Option (XNode × XNode) :=
  match elems ks with
  | a :: b :: _ => some (a, b)
  | _ => none

/-- `caseless="yes"`. -/
def caseless (as : List (Text × Text)) : Bool := decide (getattr as t!"caseless" = t!"yes")

/-- Two expressions compared. -/
def absTwo (f : Expr → Expr → Cond) (ks : List XNode) : Option Cond :=
  (two ks).bind fun (a, b) => (absExpr a).bind fun x => (absExpr b).map (f x)

/-- An expression and a list. -/
def absOne (f : Expr → Text → Cond) (ks : List XNode) : Option Cond :=
  (two ks).bind fun (a, b) => (absExpr a).map fun x => f x (getattr b.attrs t!"n")

mutual
/-- The condition an element denotes (`%condition;`, transfer.dtd:24). -/
def absCond : XNode → Option Cond
  | .text _ => none
  | .elem _ n as ks =>
    match CK.of n with
    | .equal => absTwo (.equal (caseless as)) ks
    | .beginsWith => absTwo (.beginsWith (caseless as)) ks
    | .endsWith => absTwo (.endsWith (caseless as)) ks
    | .containsSubstring => absTwo (.containsSubstring (caseless as)) ks
    | .beginsWithList => absOne (.beginsWithList (caseless as)) ks
    | .endsWithList => absOne (.endsWithList (caseless as)) ks
    | .in => absOne (.isIn (caseless as)) ks
    | .or => (absConds ks).map .or
    | .and => (absConds ks).map .and
    | .not => (absConds ks).map .not
    | .other => some .unknown
def absConds : List XNode → Option (List Cond)
  | [] => some []
  | k :: ks => if k.isText then absConds ks else (absCond k).bind fun e => (absConds ks).map (e :: ·)
end

/-- The left side of `<let>` and `<modify-case>` (`%container;`, transfer.dtd:25): a variable has its name for only attribute. -/
def absLeft : XNode → Option Expr
  | .text _ => none
  | .elem _ n as _ =>
    match EK.of n with
    | .clip => (absClip as).map .simple
    | .var => (onlyAttr as t!"n").map fun v => .simple (.var v)
    | _ => none

/-- Both sides of `<let>` and `<modify-case>`. -/
def absSides (ks : List XNode) : Option (Expr × Expr) :=
  (two ks).bind fun (a, b) => (absLeft a).bind fun l => (absExpr b).map fun r => (l, r)

/-- The parameters of `<call-macro>` (transfer.dtd:356-357). -/
def absArgs : List XNode → Option (List Int)
  | [] => some []
  | k :: ks => if k.isText then absArgs ks else (onlyAttr k.attrs t!"pos").bind fun p => (absArgs ks).map (atoi p :: ·)

mutual
/-- The instruction an element denotes (`%sentence;`, transfer.dtd:26). -/
def absInstr : XNode → Option Instr
  | .text _ => none
  | .elem _ n as ks =>
    match IK.of n with
    | .choose => (absOpts ks).map .choose
    | .let => (absSides ks).map fun (l, r) => .assign l r
    | .append => (absExprs ks).map (.append (getattr as t!"n"))
    | .out => (absExprs ks).map .out
    | .callMacro => (onlyAttr as t!"n").bind fun m => (absArgs ks).map (.callMacro m)
    | .modifyCase => (absSides ks).map fun (l, r) => .modifyCase l r
    | .reject => some (.reject (getattr as t!"shifting"))
    | .other => some .unknown
/-- A block of instructions: `<otherwise>`, `<action>`, `<def-macro>`. -/
def absInstrs : List XNode → Option (List Instr)
  | [] => some []
  | k :: ks => if k.isText then absInstrs ks else (absInstr k).bind fun e => (absInstrs ks).map (e :: ·)
/-- The children of `<choose>`. -/
def absOpts : List XNode → Option (List Opt)
  | [] => some []
  | k :: ks =>
    match k with
    | .text _ => absOpts ks
    | .elem _ n _ ch =>
      if n = t!"when" then (absItems ch).bind fun l => (absOpts ks).map (.when l :: ·)
      else if n = t!"otherwise" then (absInstrs ch).bind fun l => (absOpts ks).map (.otherwise l :: ·)
      else (absOpts ks).map (.unknown :: ·)
/-- The children of `<when>`. -/
def absItems : List XNode → Option (List WhenItem)
  | [] => some []
  | k :: ks =>
    if k.isText then absItems ks
    else if k.name = t!"test" then (absConds k.kids).bind fun l => (absItems ks).map (.test l :: ·)
    else (absInstr k).bind fun i => (absItems ks).map (.instr i :: ·)
end

/-! ## The document -/

/-- The left side of a `<let>` is assigned; all other elements are not. -/
inductive Role where
  | value | target
  deriving DecidableEq, Repr

mutual
/-- All elements of a tree, with their role. -/
def nodes (r : Role) : XNode → List (XNode × Role)
  | .text _ => []
  | .elem i n as ks => (.elem i n as ks, r) :: nodesAll (if IK.of n = .let then .target else .value) ks
/-- The same for the children of an element; `r` is the role of the first of them. -/
def nodesAll (r : Role) : List XNode → List (XNode × Role)
  | [] => []
  | k :: ks => nodes r k ++ nodesAll (if k.isText then r else .value) ks
end

/-- A document: no two elements have the same address. -/
def Unique (D : List (XNode × Role)) : Prop := (D.map fun p => p.1.id).Nodup

end Verif.Dom
