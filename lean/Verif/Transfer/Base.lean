import Verif.Transfer.Syntax
/-!
# Model of `TransferBase` (apertium/transfer_base.cc)

The class has virtual methods; as in the code, the functions here take them as a parameter (`Virt`), so that they
serve apertium-transfer, apertium-interchunk and apertium-postchunk.  A function that changes the object gets
the state `S` and returns the new one.
-/
namespace Verif.Transfer

/-- What the base class calls in the derived classes, ICU and lttoolbox. -/
structure Virt (S : Type) where
  /-- `evalString` (with the derived class's `evalCachedString`, `processLu`, ...) -/
  evalString : Expr → S → Outcome (Text × S)
  processLet : Expr → Expr → S → Outcome S
  processAppend : Text → List Expr → S → Outcome S
  processOut : List Expr → S → Outcome S
  processModifyCase : Expr → Expr → S → Outcome S
  /-- `StringUtils::tolower` -/
  tolower : Text → Text
  /-- `StringUtils::stoi` -/
  stoi : Text → Int
  /-- `lists[id]`; `listslow[id]` is the image of it by `tolower` (transfer_base.cc:97-108) -/
  list : Text → List Text

variable {S : Type}

/-- `beginsWith` (transfer_base.cc:462-476): compares position by position. -/
def beginsWith : Text → Text → Bool
  | _, [] => true
  | [], _ :: _ => false
  | h :: hs, n :: ns => if h = n then beginsWith hs ns else false

/-- `endsWith` (transfer_base.cc:478-490): the same from the end. -/
def endsWith (haystack needle : Text) : Bool := beginsWith haystack.reverse needle.reverse

/-- `haystack.find(needle) != npos` (transfer_base.cc:568-577; `std::basic_string::find`). -/
def contains : Text → Text → Bool
  | [], needle => decide (needle = [])
  | h :: hs, needle => beginsWith (h :: hs) needle || contains hs needle

/-- `lists` or `listslow` (transfer_base.cc:522,556). -/
def Virt.pickList (v : Virt S) (caseless : Bool) (id : Text) : List Text :=
  if caseless then (v.list id).map v.tolower else v.list id

/-- `tolower` if caseless. -/
def Virt.fold (v : Virt S) (caseless : Bool) (t : Text) : Text := if caseless then v.tolower t else t

/-- Evaluation of two expressions in order. -/
def eval2 (v : Virt S) (a b : Expr) (s : S) : Outcome ((Text × Text) × S) :=
  (v.evalString a s).bind fun (x, s1) => (v.evalString b s1).map fun (y, s2) => ((x, y), s2)

mutual
/-- `processLogical` and the functions it calls (transfer_base.cc:375-603). -/
def evalCond (v : Virt S) : Cond → S → Outcome (Bool × S)
  | .equal cl a b, s => (eval2 v a b s).map fun ((x, y), s') => (decide (v.fold cl x = v.fold cl y), s')
  | .beginsWith cl a b, s => (eval2 v a b s).map fun ((x, y), s') => (beginsWith (v.fold cl x) (v.fold cl y), s')
  | .endsWith cl a b, s => (eval2 v a b s).map fun ((x, y), s') => (endsWith (v.fold cl x) (v.fold cl y), s')
  | .containsSubstring cl a b, s =>
    (eval2 v a b s).map fun ((x, y), s') => (contains (v.fold cl x) (v.fold cl y), s')
  | .beginsWithList cl a l, s =>
    (v.evalString a s).map fun (x, s') => ((v.pickList cl l).any (beginsWith (v.fold cl x)), s')
  | .endsWithList cl a l, s =>
    (v.evalString a s).map fun (x, s') => ((v.pickList cl l).any (endsWith (v.fold cl x)), s')
  | .isIn cl a l, s =>
    (v.evalString a s).map fun (x, s') => (decide (v.fold cl x ∈ v.pickList cl l), s')
  | .and cs, s => evalAnd v cs s
  | .or cs, s => evalOr v cs s
  | .not cs, s => evalNot v cs s
  | .unknown, s => .ok (false, s)
/-- `processAnd` (transfer_base.cc:431-440). -/
def evalAnd (v : Virt S) : List Cond → S → Outcome (Bool × S)
  | [], s => .ok (true, s)
  | c :: cs, s => (evalCond v c s).bind fun (b, s') => if b then evalAnd v cs s' else .ok (false, s')
/-- `processOr` (transfer_base.cc:442-451). -/
def evalOr (v : Virt S) : List Cond → S → Outcome (Bool × S)
  | [], s => .ok (false, s)
  | c :: cs, s => (evalCond v c s).bind fun (b, s') => if b then .ok (true, s') else evalOr v cs s'
/-- `processNot` (transfer_base.cc:453-460): looks at its first child only; false without children. -/
def evalNot (v : Virt S) : List Cond → S → Outcome (Bool × S)
  | [], s => .ok (false, s)
  | c :: _, s => (evalCond v c s).map fun (b, s') => (!b, s')
end

/-- `processTest` (transfer_base.cc:422-429): the first child; false without children. -/
def evalTest (v : Virt S) : List Cond → S → Outcome (Bool × S)
  | [], s => .ok (false, s)
  | c :: _, s => evalCond v c s

/-- `processRejectCurrentRule` (transfer_base.cc:310-325). -/
def rejectValue (v : Virt S) (shifting : Text) : Int :=
  if shifting = t!"yes" then 1 else if shifting = t!"no" then 0 else v.stoi shifting

mutual
/-- `processInstruction` (transfer_base.cc:275-308).  `call` is `processCallMacro`.  The result is
`words_to_consume` (-1: go on). -/
def exec (v : Virt S) (call : Text → List Int → S → Outcome S) : Instr → S → Outcome (Int × S)
  | .choose opts, s => execChoose v call opts (-1) s
  | .assign l r, s => (v.processLet l r s).map fun s' => (-1, s')
  | .append n es, s => (v.processAppend n es s).map fun s' => (-1, s')
  | .out es, s => (v.processOut es s).map fun s' => (-1, s')
  | .callMacro n args, s => (call n args s).map fun s' => (-1, s')
  | .modifyCase l r, s => (v.processModifyCase l r s).map fun s' => (-1, s')
  | .reject sh, s => .ok (rejectValue v sh, s)
  | .unknown, s => .ok (-1, s)
/-- The loop of `processChoose` over the options (transfer_base.cc:330-360).  `wtc` is the variable
`words_to_consume`. -/
def execChoose (v : Virt S) (call : Text → List Int → S → Outcome S) : List Opt → Int → S → Outcome (Int × S)
  | [], wtc, s => .ok (wtc, s)
  | .when items :: opts, wtc, s =>
    (execWhen v call items false wtc s).bind fun (picked, wtc', s') =>
      if wtc' ≠ -1 ∨ picked then .ok (wtc', s') else execChoose v call opts wtc' s'
  | .otherwise body :: opts, wtc, s =>
    (execBlock v call body wtc s).bind fun (wtc', s') =>
      if wtc' ≠ -1 then .ok (wtc', s') else execChoose v call opts wtc' s'
  | .unknown :: opts, wtc, s => execChoose v call opts wtc s
/-- The loop over the children of a `<when>` (transfer_base.cc:333-346): the result is `picked`,
`words_to_consume` and the state. -/
def execWhen (v : Virt S) (call : Text → List Int → S → Outcome S) :
    List WhenItem → Bool → Int → S → Outcome (Bool × Int × S)
  | [], picked, wtc, s => .ok (picked, wtc, s)
  | .test cs :: items, picked, wtc, s =>
    (evalTest v cs s).bind fun (b, s') =>
      if b then execWhen v call items true wtc s' else .ok (picked, wtc, s')
  | .instr i :: items, picked, _, s =>
    (exec v call i s).bind fun (w, s') =>
      if w ≠ -1 then .ok (picked, w, s') else execWhen v call items picked w s'
/-- The instructions of `<otherwise>` (transfer_base.cc:352-356) or of a rule's `<action>`
(transfer_base.cc:257-264): stop at the first that does not give -1. -/
def execBlock (v : Virt S) (call : Text → List Int → S → Outcome S) : List Instr → Int → S → Outcome (Int × S)
  | [], wtc, s => .ok (wtc, s)
  | i :: is, _, s =>
    (exec v call i s).bind fun (w, s') => if w ≠ -1 then .ok (w, s') else execBlock v call is w s'
end

/-- The instructions of a macro (e.g. transfer.cc:779-781): the results are ignored. -/
def execMacroBody (v : Virt S) (call : Text → List Int → S → Outcome S) : List Instr → S → Outcome S
  | [], s => .ok s
  | i :: is, s => (exec v call i s).bind fun (_, s') => execMacroBody v call is s'

/-- `combineWblanks` (transfer_base.cc:140-177).  Lines 152-157 count the backslashes before the final `]]`; if
there is nothing else before them (`first` consists of backslashes and `]]`) the index wraps around: undefined
behaviour. -/
def combineWblanks (first second : Text) : Outcome Text :=
  if first = [] then .ok second
  else if second = [] then .ok first
  else
    let tail := if beginsWith second t!"[[" then second.drop 2 else second
    if endsWith first t!"]]" then
      let body := first.take (first.length - 2)
      if first.length > 2 then
        if body.all (· = '\\') then .ub
        else
          let n := (body.reverse.takeWhile (· = '\\')).length
          if n % 2 = 1 then .ok (first ++ t!"; " ++ tail) else .ok (body ++ t!"; " ++ tail)
      else .ok (body ++ t!"; " ++ tail)
    else .ok (first ++ t!"; " ++ tail)

/-- `gettingLemmaFromWord` (transfer_base.cc:134-138). -/
def gettingLemma (attr : Text) : Bool := decide (attr = t!"lem" ∨ attr = t!"lemh" ∨ attr = t!"whole")

/-- `tags` (transfer_base.cc:605-614): `a.b` becomes `<a><b>`. -/
def tagsText (t : Text) : Text := '<' :: (t.flatMap fun c => if c = '.' then t!"><" else [c]) ++ ['>']

/-- Lines 265-271 of `processRule` (transfer_base.cc): the blanks left in the queue are written, except single
spaces. -/
def flushBlanks (blanks : List Text) : Text := (blanks.filter (· ≠ [' '])).flatten

end Verif.Transfer
