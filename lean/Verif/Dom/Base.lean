import Verif.Dom.Syntax
import Verif.Transfer.Base
/-!
# `TransferBase` on libxml2 trees (apertium/transfer_base.cc)

The functions of Verif/Transfer/Base.lean again, but on the trees the program has: they look at the names and attributes of elements each time, as the code does.  The
virtual functions are parameters (`XVirt`).
-/
namespace Verif.Dom
open Verif.Transfer

/-- `TransferInstrType` (transfer_instr.h:25-42); the three sides of a kind are one constructor with an argument. -/
inductive IType where
  | clip (sd : Side) | var | litTag | lit | b | getCaseFrom | caseOf (sd : Side) | linkto (sd : Side) | luCount
  deriving DecidableEq, Repr

/-- `TransferInstr` (transfer_instr.h:44-79). -/
structure Entry where
  ty : IType
  content : Text
  pos : Int
  ptr : Option XNode := none
  cond : Bool := true
  strval : Text := []

/-- `evalStringCache` (transfer_base.h): `std::map<xmlNode*, TransferInstr>`. -/
abbrev Cache := Nat → Option Entry

/-- `evalStringCache[element] = ..` -/
def Cache.put (c : Cache) (i : Nat) (e : Entry) : Cache := fun j => if j = i then some e else c j

/-- A loop over the attributes of an element that keeps the values of those in `ks` (e.g. transfer.cc:237-251): the last one counts.
libxml2 is taken to keep a text node for every value, also an empty one (the programs read `i->children->content`).  (The code converts the values at once; here that
is left to the caller.) -/
def attrLoop (ks : List Text) : List (Text × Text) → (Text → Option Text) → Outcome (Text → Option Text)
  | [], m => .ok m
  | (n, v) :: as, m =>
    if n ∈ ks then attrLoop ks as fun x => if x = n then some v else m x
    else attrLoop ks as m

/-- `properties->children->content`: the value of the first attribute (e.g. transfer_base.cc:222); without attributes, undefined behaviour. -/
def firstAttr : List (Text × Text) → Outcome Text
  | [] => .ub
  | (_, v) :: _ => .ok v

/-- What the base class calls in the derived classes, ICU and lttoolbox. -/
structure XVirt (S : Type) where
  evalString : XNode → S → Outcome (Text × S)
  processLet : XNode → S → Outcome S
  processAppend : XNode → S → Outcome S
  processOut : XNode → S → Outcome S
  processModifyCase : XNode → S → Outcome S
  processCallMacro : XNode → S → Outcome S
  tolower : Text → Text
  stoi : Text → Int
  list : Text → List Text

variable {S : Type}

/-- `tolower` if caseless. -/
def XVirt.fold (v : XVirt S) (cl : Bool) (t : Text) : Text := if cl then v.tolower t else t

/-- `lists` or `listslow` (transfer_base.cc:97-108, 522, 556). -/
def XVirt.pickList (v : XVirt S) (cl : Bool) (id : Text) : List Text := if cl then (v.list id).map v.tolower else v.list id

/-- `twoChildren` (transfer_base.cc:492-506) and the evaluation of both; a missing one is an error (transfer_base.cc:205). -/
def xTwo (v : XVirt S) (ks : List XNode) (s : S) : Outcome ((Text × Text) × S) :=
  match elems ks with
  | a :: b :: _ => (v.evalString a s).bind fun (x, s1) => (v.evalString b s1).map fun (y, s2) => ((x, y), s2)
  | _ => .fail

/-- The same when the second child is a `<list>` (transfer_base.cc:521-523): the first is evaluated, of the second the attribute `n` is read.  Without a second child
`getattr` reads through a null pointer. -/
def xOne (v : XVirt S) (ks : List XNode) (s : S) : Outcome ((Text × Text) × S) :=
  match elems ks with
  | a :: b :: _ => (v.evalString a s).map fun (x, s1) => ((x, getattr b.attrs t!"n"), s1)
  | [_] => .ub
  | [] => .fail

mutual
/-- `processLogical` and the functions it calls (transfer_base.cc:375-420, 508-603). -/
def xCond (v : XVirt S) : XNode → S → Outcome (Bool × S)
  | .text _, s => .ok (false, s)
  | .elem _ n as ks, s =>
    match CK.of n with
    | .equal => (xTwo v ks s).map fun ((x, y), s') => (decide (v.fold (caseless as) x = v.fold (caseless as) y), s')
    | .beginsWith => (xTwo v ks s).map fun ((x, y), s') => (beginsWith (v.fold (caseless as) x) (v.fold (caseless as) y), s')
    | .beginsWithList => (xOne v ks s).map fun ((x, l), s') => ((v.pickList (caseless as) l).any (beginsWith (v.fold (caseless as) x)), s')
    | .endsWith => (xTwo v ks s).map fun ((x, y), s') => (endsWith (v.fold (caseless as) x) (v.fold (caseless as) y), s')
    | .endsWithList => (xOne v ks s).map fun ((x, l), s') => ((v.pickList (caseless as) l).any (endsWith (v.fold (caseless as) x)), s')
    | .containsSubstring => (xTwo v ks s).map fun ((x, y), s') => (contains (v.fold (caseless as) x) (v.fold (caseless as) y), s')
    | .or => xOr v ks s
    | .and => xAnd v ks s
    | .not => xNot v ks s
    | .in => (xOne v ks s).map fun ((x, l), s') => (decide (v.fold (caseless as) x ∈ v.pickList (caseless as) l), s')
    | .other => .ok (false, s)
/-- `processAnd` (transfer_base.cc:431-440). -/
def xAnd (v : XVirt S) : List XNode → S → Outcome (Bool × S)
  | [], s => .ok (true, s)
  | k :: ks, s =>
    if k.isText then xAnd v ks s else (xCond v k s).bind fun (b, s') => if b then xAnd v ks s' else .ok (false, s')
/-- `processOr` (transfer_base.cc:442-451). -/
def xOr (v : XVirt S) : List XNode → S → Outcome (Bool × S)
  | [], s => .ok (false, s)
  | k :: ks, s =>
    if k.isText then xOr v ks s else (xCond v k s).bind fun (b, s') => if b then .ok (true, s') else xOr v ks s'
/-- `processNot` (transfer_base.cc:453-460). -/
def xNot (v : XVirt S) : List XNode → S → Outcome (Bool × S)
  | [], s => .ok (false, s)
  | k :: ks, s => if k.isText then xNot v ks s else (xCond v k s).map fun (b, s') => (!b, s')
end

/-- `processTest` (transfer_base.cc:422-429). -/
def xTest (v : XVirt S) : List XNode → S → Outcome (Bool × S)
  | [], s => .ok (false, s)
  | k :: ks, s => if k.isText then xTest v ks s else xCond v k s

/-- `processRejectCurrentRule` (transfer_base.cc:310-325). -/
def xReject (v : XVirt S) (as : List (Text × Text)) : Int :=
  if getattr as t!"shifting" = t!"yes" then 1
  else if getattr as t!"shifting" = t!"no" then 0
  else v.stoi (getattr as t!"shifting")

mutual
/-- `processInstruction` (transfer_base.cc:275-308). -/
def xInstr (v : XVirt S) : XNode → S → Outcome (Int × S)
  | .text _, s => .ok (-1, s)
  | .elem i n as ks, s =>
    match IK.of n with
    | .choose => xChoose v ks (-1) s
    | .let => (v.processLet (.elem i n as ks) s).map fun s' => (-1, s')
    | .append => (v.processAppend (.elem i n as ks) s).map fun s' => (-1, s')
    | .out => (v.processOut (.elem i n as ks) s).map fun s' => (-1, s')
    | .callMacro => (v.processCallMacro (.elem i n as ks) s).map fun s' => (-1, s')
    | .modifyCase => (v.processModifyCase (.elem i n as ks) s).map fun s' => (-1, s')
    | .reject => .ok (xReject v as, s)
    | .other => .ok (-1, s)
/-- `processChoose` (transfer_base.cc:327-361); the number is `words_to_consume`. -/
def xChoose (v : XVirt S) : List XNode → Int → S → Outcome (Int × S)
  | [], wtc, s => .ok (wtc, s)
  | k :: ks, wtc, s =>
    match k with
    | .text _ => xChoose v ks wtc s
    | .elem _ n _ ch =>
      if n = t!"when" then
        (xWhen v ch false wtc s).bind fun (picked, wtc', s') => if wtc' ≠ -1 ∨ picked then .ok (wtc', s') else xChoose v ks wtc' s'
      else if n = t!"otherwise" then
        (xBlock v ch wtc s).bind fun (wtc', s') => if wtc' ≠ -1 then .ok (wtc', s') else xChoose v ks wtc' s'
      else xChoose v ks wtc s
/-- The loop over the children of a `<when>` (transfer_base.cc:334-346): `picked` and `words_to_consume`. -/
def xWhen (v : XVirt S) : List XNode → Bool → Int → S → Outcome (Bool × Int × S)
  | [], picked, wtc, s => .ok (picked, wtc, s)
  | k :: ks, picked, wtc, s =>
    if k.isText then xWhen v ks picked wtc s
    else if k.name = t!"test" then
      (xTest v k.kids s).bind fun (b, s') => if b then xWhen v ks true wtc s' else .ok (picked, wtc, s')
    else (xInstr v k s).bind fun (w, s') => if w ≠ -1 then .ok (picked, w, s') else xWhen v ks picked w s'
/-- The loop over the children of `<otherwise>` (transfer_base.cc:352-357) and of `<action>` (transfer_base.cc:257-264). -/
def xBlock (v : XVirt S) : List XNode → Int → S → Outcome (Int × S)
  | [], wtc, s => .ok (wtc, s)
  | k :: ks, wtc, s =>
    if k.isText then xBlock v ks wtc s
    else (xInstr v k s).bind fun (w, s') => if w ≠ -1 then .ok (w, s') else xBlock v ks w s'
end

/-- The instructions of a macro (e.g. transfer.cc:779-781). -/
def xMacro (v : XVirt S) : List XNode → S → Outcome S
  | [], s => .ok s
  | k :: ks, s => if k.isText then xMacro v ks s else (xInstr v k s).bind fun (_, s') => xMacro v ks s'

/-- `macro_map` (transfer_base.cc:126-132): the children of `<section-def-macros>`. -/
def macroMap (section_ : XNode) : List XNode := elems section_.kids

/-- The first `<action>` of a rule. -/
def firstAction : List XNode → Option XNode
  | [] => none
  | k :: ks => if k.name = t!"action" then some k else firstAction ks

/-- `rule_map` (transfer_base.cc:111-124): of each rule the first `<action>`. -/
def ruleMap (section_ : XNode) : List XNode := (elems section_.kids).filterMap fun r => firstAction (elems r.kids)

/-- `npar` of a macro (e.g. transfer.cc:748-755): the first attribute of that name; 0 without it. -/
def npar : List (Text × Text) → Outcome Int
  | [] => .ok 0
  | (n, v) :: as => if n = t!"npar" then .ok (atoi v) else npar as

end Verif.Dom
