import Verif.Percep.Reader
import Verif.Tsx.Model
/-!
# Model of the reader of `.mtx` files, on the nodes of the file (apertium/mtx_reader.cc, apertium/xml_reader.cc)

The file is the sequence of nodes that `xmlTextReaderRead` reports, as in `Verif.Tsx`.  An assumption on libxml2 that is used here (and stated in `Verif.Mtx.Spec`): the attributes that
`xmlTextReaderGetAttribute` finds at the end of an element are those of its start (`tryProcSlice` reads them there).  `parseError` and a failed assertion are `.fail`.  The code is a
list of `Verif.VM.Cell`, see there.
-/
namespace Verif.Mtx
open Verif.VM (Cell Op intByte)
open Verif.Tsx (Node isText mapFind mapSet)

/-- mtx_reader.h:42-44: `ExprType` (and, but for `addr` and `void`, `StackValueType`). -/
inductive Ty where
  | void | int | bool | str | strs | wrd | wrds | addr
  deriving DecidableEq, Repr

/-- A macro: its type, its code, and for each use of an argument in it the number of the argument and the type (`template_slot_types`, `template_defns`, mtx_reader.h:139-141).  The
types are pushed at the end of a macro and the code at its beginning; no macro is used between the two (`in_global_defn`), so that they are one list here. -/
structure Macro where
  ty : Ty
  code : List Cell
  repl : List (Nat × Ty)
  deriving DecidableEq, Repr

/-- The tables of the reader (mtx_reader.h:124-147) and of the specification.  A set of strings is the list of its members. -/
structure T where
  inMacro : Bool := false
  args : List (Text × Nat) := []
  repl : List (Nat × Ty) := []
  strs : List Text := []
  sets : List (List Text) := []
  strNames : List (Text × Nat) := []
  setNames : List (Text × Nat) := []
  slot : Nat := 0
  slotNames : List (Text × Nat) := []
  slotTypes : List Ty := []
  macroNames : List (Text × Nat) := []
  macros : List Macro := []
  insts : List ((Nat × List (List Cell)) × Nat) := []
  globals : List (List Cell) := []
  globalPred : List Cell := []
  features : List (List Cell) := []
  beam : Nat := 0
  coarse : Option Text := none
  deriving DecidableEq, Repr

/-- The reader: the current node, what is still to be read, the code that is being written (`*cur_feat`), the tables. -/
structure S where
  cur : Node
  rest : List Node
  code : List Cell
  t : T
  deriving DecidableEq, Repr

/-! ### Steps (xml_reader.cc:24-70) -/

/-- xml_reader.cc:32-47 -/
def S.step (s : S) : Outcome S :=
  match s.rest with
  | [] => .fail
  | n :: r => .ok { s with cur := n, rest := r }

/-- xml_reader.cc:24-30: the first node that is not text or a comment. -/
def skip : Node → List Node → Outcome (Node × List Node)
  | n, [] => if isText n then .fail else .ok (n, [])
  | n, m :: r => if isText n then skip m r else .ok (n, m :: r)

/-- xml_reader.cc:24-30 (`stepToTag`) -/
def S.toTag (s : S) : Outcome S := (skip s.cur s.rest).map fun x => { s with cur := x.1, rest := x.2 }

/-- xml_reader.cc:64-70 (`stepToNextTag`) -/
def S.nextTag (s : S) : Outcome S := do
  let s ← s.toTag
  let s ← s.step
  s.toTag

/-- xml_reader.cc:51-62 (`stepPastSelfClosingTag`) -/
def S.past (x : Text) (s : S) : Outcome S := do
  let s ← s.step
  let s ← if s.cur.name = x ∧ s.cur.isEnd = true then s.step else pure s
  s.toTag

/-- `assert(name == x && type == XML_READER_TYPE_END_ELEMENT)` -/
def S.atEnd (x : Text) (s : S) : Outcome S := if s.cur.name = x ∧ s.cur.isEnd = true then .ok s else .fail

/-- `assert(type == XML_READER_TYPE_END_ELEMENT)` -/
def S.atAnyEnd (s : S) : Outcome S := if s.cur.isEnd = true then .ok s else .fail

/-- mtx_reader.cc:57-82: the code grows. -/
def S.emit (cs : List Cell) (s : S) : S := { s with code := s.code ++ cs }

/-- mtx_reader.cc:72-76 (`emitInt`) -/
def S.emitInt (i : Int) (s : S) : Outcome S := if -128 ≤ i ∧ i < 128 then .ok (s.emit [intByte i]) else .fail

/-- mtx_reader.cc:78-82 (`emitUInt`) -/
def S.emitUInt (n : Nat) (s : S) : Outcome S := if n < 256 then .ok (s.emit [.arg n]) else .fail

/-! ### Attributes -/

/-- White space of a stream. -/
def isSpace (c : Char) : Bool := decide (c ∈ [' ', '\t', '\n', '\x0b', '\x0c', '\r'])

/-- A letter before `t`, whose words are `ws`. -/
def addLetter (c : Char) : Text → List Text → List Text
  | d :: _, w :: ws => if isSpace d then [c] :: w :: ws else (c :: w) :: ws
  | _, ws => [c] :: ws

/-- `std::stringstream >> std::string`, again and again (mtx_reader.cc:39-48, 1059-1069). -/
def splitWords : Text → List Text
  | [] => []
  | c :: t =>
    if isSpace c then splitWords t else addLetter c t (splitWords t)

def digitVal (c : Char) : Option Nat := if '0' ≤ c ∧ c ≤ '9' then some (c.toNat - 48) else none

/-- The digits at the beginning of a text. -/
def digits : Text → List Nat
  | [] => []
  | c :: t => match digitVal c with | some d => d :: digits t | none => []

/-- `int_ss >> int_out` (mtx_reader.cc:726-739): without a number 0; what comes after it is not looked at.  (A number beyond the range of `int` gives its limit, which no caller accepts.) -/
def readInt (t : Text) : Int :=
  match t.dropWhile isSpace with
  | '-' :: r => - (((digits r).foldl (fun n d => 10 * n + d) 0 : Nat) : Int)
  | '+' :: r => (((digits r).foldl (fun n d => 10 * n + d) 0 : Nat) : Int)
  | r => (((digits r).foldl (fun n d => 10 * n + d) 0 : Nat) : Int)

/-- mtx_reader.cc:726-762 (`getInt`): `none` if there is no such attribute, or an empty one. -/
def S.getInt (s : S) (x : Text) : Option Int := if s.cur.attrib x = [] then none else some (readInt (s.cur.attrib x))

/-- mtx_reader.cc:665-690, 709-724 (`getConstRef` for strings): the number, `none` without attributes. -/
def S.strRef (s : S) : Outcome (Option Nat × S) :=
  if s.cur.attrib t!"name" ≠ [] then
    match mapFind s.t.strNames (s.cur.attrib t!"name") with
    | none => .fail
    | some i => .ok (some i, s)
  else if s.cur.attrib t!"val" ≠ [] then .ok (some s.t.strs.length, { s with t := { s.t with strs := s.t.strs ++ [s.cur.attrib t!"val"] } })
  else .ok (none, s)

/-- mtx_reader.cc:665-707, 39-48 (`getConstRef` for sets) -/
def S.setRef (s : S) : Outcome (Option Nat × S) :=
  if s.cur.attrib t!"name" ≠ [] then
    match mapFind s.t.setNames (s.cur.attrib t!"name") with
    | none => .fail
    | some i => .ok (some i, s)
  else if s.cur.attrib t!"val" ≠ [] then .ok (some s.t.sets.length, { s with t := { s.t with sets := s.t.sets ++ [splitWords (s.cur.attrib t!"val")] } })
  else .ok (none, s)

/-! ### Expressions -/

/-- The procedures that are called for the parts of an expression: the type, whether another element is an error, and the result, `false` if there is another element. -/
abbrev Rec := Ty → Bool → S → Outcome (S × Bool)

def call (rec : Rec) (ty : Ty) (s : S) : Outcome S := (rec ty false s).map (·.1)

/-- An element without content. -/
def leaf (x : Text) (cs : List Cell) (s : S) : Outcome S := (s.emit cs).past x

/-- An element with one part, `chk` being the assertion at its end. -/
def un (rec : Rec) (chk : S → Outcome S) (ty : Ty) (cs : List Cell) (s : S) : Outcome S := do
  let s ← s.nextTag
  let s ← call rec ty s
  let s ← chk s
  (s.emit cs).nextTag

/-- An element with two parts. -/
def bin (rec : Rec) (x : Text) (ty : Ty) (cs : List Cell) (s : S) : Outcome S := do
  let s ← s.nextTag
  let s ← call rec ty s
  let s ← call rec ty s
  let s ← s.atEnd x
  (s.emit cs).nextTag

/-- mtx_reader.cc:186-197: the loop of `procCommBoolOp`; each round reads a node or ends with an error. -/
def operands (rec : Rec) : Nat → S → Outcome (S × Nat)
  | 0, _ => .diverge
  | fuel + 1, s =>
    if s.cur.isEnd = true then .ok (s, 0)
    else do
      let s ← call rec .bool s
      let r ← operands rec fuel s
      pure (r.1, r.2 + 1)

/-- mtx_reader.cc:473-482 -/
def comm (rec : Rec) (x : Text) (op : Op) (s : S) : Outcome S := do
  let s ← s.nextTag
  let r ← operands rec (s.rest.length + 2) s
  let s ← r.1.atEnd x
  (s.emit (List.replicate (r.2 - 1) (.op op))).nextTag

/-- mtx_reader.cc:515-558: an element with a constant and one part. -/
def constOp (rec : Rec) (x : Text) (get : S → Outcome (Option Nat × S)) (ty : Ty) (op : Op) (s : S) : Outcome S := do
  let r ← get s
  match r.1 with
  | none => .fail
  | some k =>
    let s ← r.2.nextTag
    let s ← call rec ty s
    let s ← (s.emit [.op op]).emitUInt k
    let s ← s.atEnd x
    s.nextTag

/-- mtx_reader.cc:283-296 (`tryProcSubscript`) -/
def subscript (rec : Rec) (ty : Ty) (s : S) : Outcome S :=
  match s.getInt t!"idx" with
  | none => .fail
  | some i => do
    let s ← s.nextTag
    let s ← call rec ty s
    let s ← if 0 ≤ i then (s.emit [.op .subscript]).emitUInt i.toNat else .fail
    let s ← s.atEnd t!"subscript"
    s.nextTag

/-- mtx_reader.cc:298-322 (`tryProcSlice`): `start` and `end` are read after the part, at the end of the element. -/
def slice (rec : Rec) (ty : Ty) (s : S) : Outcome S := do
  let s ← s.nextTag
  let s ← call rec ty s
  let s ← (s.emit [.op .slice]).emitInt ((s.getInt t!"start").getD 0)
  let s ← s.emitInt ((s.getInt t!"end").getD 0)
  let s ← s.atEnd t!"slice"
  s.nextTag

/-- mtx_reader.cc:324-341 (`tryProcArg`): the number of the argument is kept, not the place in the code. -/
def tryArg (ty : Ty) (allowFail : Bool) (s : S) : Outcome (Option S) :=
  if s.cur.name = t!"var" ∧ s.t.inMacro = true then
    match mapFind s.t.args (s.cur.attrib t!"name") with
    | some i => (S.past t!"var" { s with t := { s.t with repl := s.t.repl ++ [(i, ty)] } }).map some
    | none => if allowFail then .ok none else .fail
  else .ok none

/-- The parts of a call of a macro, each compiled on its own: mtx_reader.cc:376-383. -/
def macroArgs (rec : Rec) : List (Nat × Ty) → S → Outcome (S × List (List Cell))
  | [], s => .ok (s, [])
  | r :: rs, s => do
    let u ← call rec r.2 { s with code := [] }
    let x ← macroArgs rec rs u
    pure (x.1, u.code :: x.2)

/-- The order of `std::pair<size_t, ExprType>`. -/
def Ty.num : Ty → Nat
  | .void => 0
  | .int => 1
  | .bool => 2
  | .str => 3
  | .strs => 4
  | .wrd => 5
  | .wrds => 6
  | .addr => 7

/-- `std::sort` of the uses by argument and type (mtx_reader.cc:390-395, utils.h:4-12), with the code of each; the order of equal ones, which it leaves open, is kept. -/
def insertUse (x : (Nat × Ty) × List Cell) : List ((Nat × Ty) × List Cell) → List ((Nat × Ty) × List Cell)
  | [] => [x]
  | y :: ys => if x.1.1 < y.1.1 ∨ (x.1.1 = y.1.1 ∧ x.1.2.num ≤ y.1.2.num) then x :: y :: ys else y :: insertUse x ys

def sortUses : List ((Nat × Ty) × List Cell) → List ((Nat × Ty) × List Cell)
  | [] => []
  | x :: xs => insertUse x (sortUses xs)

/-- mtx_reader.cc:396-411: the code of the macro with the code of the arguments put in, the number of the argument being taken for the place; `none`: it is read after its end. -/
def instantiate (tmpl : List Cell) : Nat → List ((Nat × Ty) × List Cell) → Option (List Cell)
  | cur, [] => some (tmpl.drop cur)
  | cur, (r, a) :: us =>
    if cur + r.1 > tmpl.length then none
    else (instantiate tmpl r.1 us).map fun out => (tmpl.drop cur).take r.1 ++ a ++ out

/-- mtx_reader.cc:360-422: a call of a macro becomes a global; calls with the same code share it. -/
def macroCall (rec : Rec) (ty : Ty) (s : S) : Outcome S :=
  match mapFind s.t.macroNames (s.cur.attrib t!"name") with
  | none => .fail
  | some i =>
    match s.t.macros[i]? with
    | none => .fail
    | some m =>
      if m.ty ≠ ty then .fail
      else do
        let u ← s.nextTag
        let r ← macroArgs rec m.repl u
        let u := { r.1 with code := s.code }
        let g ← match u.t.insts.find? (fun e => decide (e.1 = (i, r.2))) with
          | some e => pure (e.2, u)
          | none =>
            match instantiate m.code 0 (sortUses (m.repl.zip r.2)) with
            | none => .ub
            | some code =>
              pure (u.t.globals.length, { u with t := { u.t with globals := u.t.globals ++ [code], insts := u.t.insts ++ [((i, r.2), u.t.globals.length)] } })
        let u ← (g.2.emit [.op .getgvar]).emitUInt g.1
        let u ← u.atEnd t!"macro"
        u.nextTag

/-- mtx_reader.cc:343-425 (`tryProcVar`); a slot without a type yet is read after the end of the list. -/
def tryVar (rec : Rec) (ty : Ty) (s : S) : Outcome (Option S) :=
  if s.cur.name = t!"var" then
    match mapFind s.t.slotNames (s.cur.attrib t!"name") with
    | none => .fail
    | some k =>
      match s.t.slotTypes[k]? with
      | none => .ub
      | some ty' => if ty' ≠ ty then .fail else do
          let s ← (s.emit [.op .getvar]).emitUInt k
          (s.past t!"var").map some
  else if s.t.inMacro = false ∧ s.cur.name = t!"macro" then (macroCall rec ty s).map some
  else .ok none

/-- The type of the variable of a `for-each` (mtx_reader.cc:976-985). -/
def S.pushType (ty : Ty) (s : S) : S := { s with t := { s.t with slotTypes := s.t.slotTypes ++ [ty] } }

/-- mtx_reader.cc:976-988: the list of a `for-each` is a list of strings or one of wordoids. -/
def forList (rec : Rec) (s : S) : Outcome S := do
  let r ← rec .strs true s
  if r.2 = true then pure (r.1.pushType .str)
  else do
    let r ← rec .wrds true r.1
    if r.2 = true then pure (r.1.pushType .wrd) else .fail

/-- mtx_reader.cc:966-1018 (`procForEach`).  It stays at its end. -/
def forEach (rec : Rec) (ty : Ty) (s : S) : Outcome S :=
  if s.cur.attrib t!"as" = [] then .fail
  else do
    let k := s.t.slot
    let s ← S.nextTag { s with t := { s.t with slot := k + 1, slotNames := mapSet s.t.slotNames (s.cur.attrib t!"as") k } }
    let s ← forList rec s
    let s ← (s.emit [.op .foreachinit, .op .foreach]).emitUInt k
    let b ← call rec ty { s with code := [] }
    let b ← b.atAnyEnd
    if b.code.length + 5 < 128 then
      pure { b with code := s.code ++ [.arg ((b.code.length + 2) % 256)] ++ b.code ++ [.op .endforeach, .arg (b.code.length + 5)] }
    else .fail

/-- Another element. -/
def other (allowFail : Bool) (s : S) : Outcome (S × Bool) := if allowFail then .ok (s, false) else .fail

/-- `!tryProcArg(...) && !tryProcVar(...)`, and what is done if neither. -/
def orElse (rec : Rec) (ty : Ty) (s : S) (k : Outcome (S × Bool)) : Outcome (S × Bool) := do
  match ← tryArg ty true s with
  | some s => pure (s, true)
  | none =>
    match ← tryVar rec ty s with
    | some s => pure (s, true)
    | none => k

def done (o : Outcome S) : Outcome (S × Bool) := o.map (·, true)

/-- mtx_reader.cc:199-252 (`procIntExpr`).  `toklen`, `strlen` and `arrlen` do not step into their content. -/
def procInt (rec : Rec) (af : Bool) (s : S) : Outcome (S × Bool) :=
  orElse rec .int s <|
    if s.cur.name = t!"sentlen" then done (leaf t!"sentlen" [.op .sentlentok] s)
    else if s.cur.name = t!"pathlen" then done (leaf t!"pathlen" [.op .sentlenwrd] s)
    else if s.cur.name = t!"tokaddr" then done (leaf t!"tokaddr" [.op .pushtokaddr] s)
    else if s.cur.name = t!"wrdidx" then done (leaf t!"wrdidx" [.op .pushwrdaddr] s)
    else if s.cur.name = t!"int" then
      done (match s.getInt t!"val" with
        | none => .fail
        | some i => do (← (s.emit [.op .pushint]).emitInt i).past t!"int")
    else if s.cur.name = t!"add" then done (bin rec t!"add" .int [.op .add] s)
    else if s.cur.name = t!"toklen" then done (call rec .int s)
    else if s.cur.name = t!"strlen" then done (call rec .str s)
    else if s.cur.name = t!"arrlen" then done (call rec .strs s)
    else other af s

/-- mtx_reader.cc:254-281 (`procStrArrExpr`) -/
def procStrs (rec : Rec) (af : Bool) (s : S) : Outcome (S × Bool) := do
  let s ← s.toTag
  orElse rec .strs s <|
    if s.cur.name = t!"slice" then done (slice rec .strs s)
    else if s.cur.name = t!"ex-tags" then done (un rec S.atAnyEnd .wrd [.op .extags] s)
    else if s.cur.name = t!"ex-ambgset" then done (un rec .ok .int [.op .exambgset] s)
    else if s.cur.name = t!"for-each" then done (forEach rec Ty.str s >>= S.nextTag)
    else other af s

/-- mtx_reader.cc:427-466 (`procStrExpr`) -/
def procStr (rec : Rec) (af : Bool) (s : S) : Outcome (S × Bool) :=
  orElse rec .str s <|
    if s.cur.name = t!"slice" then done (slice rec .str s)
    else if s.cur.name = t!"subscript" then done (subscript rec .strs s)
    else if s.cur.name = t!"ex-surf" then done (un rec S.atAnyEnd .int [.op .extoksurf] s)
    else if s.cur.name = t!"ex-lemma" then done (un rec S.atAnyEnd .wrd [.op .exwrdlemma] s)
    else if s.cur.name = t!"ex-coarse" then done (un rec S.atAnyEnd .wrd [.op .exwrdcoarsetag] s)
    else if s.cur.name = t!"join" then
      done (do
        let r ← s.strRef
        let s ← r.2.nextTag
        let s ← call rec .strs s
        let s ← (s.emit [.op .join]).emitUInt (r.1.getD 255)
        let s ← s.atAnyEnd
        s.nextTag)
    else other af s

/-- mtx_reader.cc:468-565 (`procBoolExpr`) -/
def procBool (rec : Rec) (af : Bool) (s : S) : Outcome (S × Bool) :=
  orElse rec .bool s <|
    if s.cur.name = t!"and" then done (comm rec t!"and" .and s)
    else if s.cur.name = t!"or" then done (comm rec t!"or" .or s)
    else if s.cur.name = t!"not" then done (un rec (S.atEnd t!"not") .bool [.op .not] s)
    else if s.cur.name = t!"eq" then done (bin rec t!"eq" .int [.op .eq] s)
    else if s.cur.name = t!"neq" then done (bin rec t!"neq" .int [.op .neq] s)
    else if s.cur.name = t!"lt" then done (bin rec t!"lt" .int [.op .lt] s)
    else if s.cur.name = t!"lte" then done (bin rec t!"lte" .int [.op .lte] s)
    else if s.cur.name = t!"gt" then done (bin rec t!"gt" .int [.op .gt] s)
    else if s.cur.name = t!"gte" then done (bin rec t!"gte" .int [.op .gte] s)
    else if s.cur.name = t!"streq" then done (constOp rec t!"streq" S.strRef .str .streq s)
    else if s.cur.name = t!"strin" then done (constOp rec t!"strin" S.setRef .str .strin s)
    else if s.cur.name = t!"sethasany" then done (constOp rec t!"sethasany" S.setRef .strs .sethasany s)
    else if s.cur.name = t!"sethasall" then done (constOp rec t!"sethasall" S.setRef .strs .sethasall s)
    else other af s

/-- mtx_reader.cc:567-606 (`procAddrExpr`) -/
def procAddr (rec : Rec) (s : S) : Outcome (S × Bool) := do
  let s ← s.toTag
  match ← tryArg .addr false s with
  | some s => pure (s, true)
  | none =>
    if s.cur.name = t!"wrdaddr" then done (leaf t!"wrdaddr" [.op .pushaddr] s)
    else if s.cur.name = t!"addr-of-ints" then done (bin rec t!"addr-of-ints" .int [] s)
    else if s.cur.name = t!"add" then done (bin rec t!"add" .addr [.op .add2] s)
    else if s.cur.name = t!"adjust" then done (un rec (S.atEnd t!"adjust") .addr [.op .adjaddr] s)
    else if s.cur.name = t!"clamp" then done (un rec (S.atEnd t!"clamp") .addr [.op .clampaddr] s)
    else .fail

/-- mtx_reader.cc:608-630 (`procWordoidArrExpr`) -/
def procWrds (rec : Rec) (af : Bool) (s : S) : Outcome (S × Bool) :=
  orElse rec .wrds s <|
    if s.cur.name = t!"slice" then done (slice rec .wrds s)
    else if s.cur.name = t!"ex-wordoids" then done (un rec (S.atEnd t!"ex-wordoids") .int [.op .exwrdarr] s)
    else if s.cur.name = t!"for-each" then done (forEach rec Ty.wrd s >>= S.nextTag)
    else other af s

/-- mtx_reader.cc:632-653 (`procWordoidExpr`) -/
def procWrd (rec : Rec) (af : Bool) (s : S) : Outcome (S × Bool) := do
  let s ← s.toTag
  orElse rec .wrd s <|
    if s.cur.name = t!"subscript" then done (subscript rec .wrds s)
    else if s.cur.name = t!"ex-wordoid" then done (un rec S.atAnyEnd .addr [.op .getwrd] s)
    else other af s

/-- mtx_reader.cc:824-841: what is put out is tried as a string first, then as a boolean, then as a number. -/
def outKind (rec : Rec) (s : S) : Outcome S := do
  let r ← rec .str true s
  if r.2 then pure (r.1.emit [.op .fcatstr])
  else do
    let r ← rec .bool true r.1
    if r.2 then pure (r.1.emit [.op .fcatbool])
    else do
      let r ← rec .int true r.1
      if r.2 then pure (r.1.emit [.op .fcatint]) else .fail

/-- mtx_reader.cc:822-845 (`procOut`) -/
def procOut (rec : Rec) (s : S) : Outcome S := do
  let s ← s.nextTag
  let s ← outKind rec s
  let s ← s.toTag
  let s ← s.atEnd t!"out"
  s.nextTag

/-- mtx_reader.cc:795-820 (`procInst`): it does not step.  Operands by `name` have to be the name of a set and of a string, and then they are two; one by `val` counts as three.  The byte that is
written (that of the instruction named) is not modelled. -/
def procInst (s : S) : Outcome S :=
  if s.cur.attrib t!"name" ≠ [] ∨ s.cur.attrib t!"val" ≠ [] then .fail else .ok (s.emit [.arg 0])

/-- mtx_reader.cc:1020-1041 (`procVoidExpr`), 655-663 (`procPred`), 847-855 (`procOutMany`) -/
def procVoid (rec : Rec) (af : Bool) (s : S) : Outcome (S × Bool) := do
  let s ← s.toTag
  if s.cur.name = t!"pred" then done (un rec (S.atEnd t!"pred") .bool [.op .dieiffalse] s)
  else if s.cur.name = t!"out" then done (procOut rec s)
  else if s.cur.name = t!"out-many" then done (un rec (S.atEnd t!"out-many") .strs [.op .fcatstrarr] s)
  else if s.cur.name = t!"for-each" then done (forEach rec .void s)
  else if s.cur.name = t!"inst" then done (procInst s)
  else other af s

/-- mtx_reader.cc:933-964 (`procTypeExpr`): the procedure for each type, with at most `fuel` calls inside each other. -/
def proc : Nat → Rec
  | 0, _, _, _ => .diverge
  | fuel + 1, ty, af, s =>
    match ty with
    | .void => procVoid (proc fuel) af s
    | .int => procInt (proc fuel) af s
    | .bool => procBool (proc fuel) af s
    | .str => procStr (proc fuel) af s
    | .strs => procStrs (proc fuel) af s
    | .wrd => procWrd (proc fuel) af s
    | .wrds => procWrds (proc fuel) af s
    | .addr => procAddr (proc fuel) s

/-! ### The file -/

/-- mtx_reader.cc:1107-1119: the loop of `procFeat`. -/
def featLoop (fuel : Nat) : Nat → S → Outcome S
  | 0, _ => .diverge
  | n + 1, s => if s.cur.isEnd = true then .ok s else do featLoop fuel n (← call (proc fuel) .void s)

/-- mtx_reader.cc:1107-1119 (`procFeat`) -/
def procFeat (fuel : Nat) (s : S) : Outcome S := do
  let s ← S.nextTag { s with code := [], t := { s.t with slot := 0 } }
  let s ← featLoop fuel (s.rest.length + 2) s
  let s ← s.atEnd t!"feat"
  S.nextTag { s with t := { s.t with features := s.t.features ++ [s.code] } }

/-- mtx_reader.cc:1121-1134 (`procFeats`): each round reads a node. -/
def featsLoop (fuel : Nat) : Nat → S → Outcome S
  | 0, _ => .diverge
  | n + 1, s =>
    if s.cur.isEnd = true then .ok s
    else if s.cur.name = t!"feat" then do featsLoop fuel n (← procFeat fuel s)
    else .fail

def procFeats (fuel : Nat) (s : S) : Outcome S := do
  let s ← s.nextTag
  let s ← featsLoop fuel (s.rest.length + 2) s
  let s ← s.atEnd t!"feats"
  s.nextTag

/-- mtx_reader.cc:124-131 (`procStrDef`) -/
def procStrDef (s : S) : Outcome S :=
  let v := if s.cur.attrib t!"tag" = [] then s.cur.attrib t!"str" else s.cur.attrib t!"tag"
  S.past t!"def-str" { s with t := { s.t with strs := s.t.strs ++ [v], strNames := mapSet s.t.strNames (s.cur.attrib t!"name") s.t.strs.length } }

/-- mtx_reader.cc:102-122: the loop of `procSetDef`; its `name` is the attribute `name` of the definition, not the name of the element. -/
def setLoop (name : Text) : Nat → S → Outcome (S × List Text)
  | 0, _ => .diverge
  | n + 1, s =>
    if s.cur.isEnd = true then .ok (s, [])
    else if name = t!"set-member" then do
      let v := if s.cur.attrib t!"tag" = [] then s.cur.attrib t!"str" else s.cur.attrib t!"tag"
      let r ← setLoop name n (← s.nextTag)
      pure (r.1, v :: r.2)
    else .fail

/-- mtx_reader.cc:102-122 (`procSetDef`) -/
def procSetDef (s : S) : Outcome S := do
  let name := s.cur.attrib t!"name"
  let k := s.t.sets.length
  let s ← s.nextTag
  let r ← setLoop name (s.rest.length + 2) s
  let s := r.1
  if name = t!"def-set" then S.nextTag { s with t := { s.t with sets := s.t.sets ++ [r.2], setNames := mapSet s.t.setNames name k } } else .fail

/-- mtx_reader.cc:1072-1099: the type of the expression of a macro is the first that fits. -/
def macroBody (fuel : Nat) : List Ty → S → Outcome (S × Ty)
  | [], _ => .fail
  | ty :: tys, s => do
    let r ← proc fuel ty true s
    if r.2 then pure (r.1, ty) else macroBody fuel tys r.1

/-- mtx_reader.cc:1043-1105 (`procDefMacro`).  The name is known from the beginning, with the number that the macro will have. -/
def procDefMacro (fuel : Nat) (s : S) : Outcome S :=
  if s.cur.attrib t!"as" = [] then .fail
  else do
    let args := ((splitWords (s.cur.attrib t!"args")).zipIdx).foldl (fun m x => mapSet m x.1 x.2) []
    let s ← S.nextTag { s with code := [], t := { s.t with inMacro := true, slot := 0, repl := [], args := args, macroNames := mapSet s.t.macroNames (s.cur.attrib t!"as") s.t.macros.length } }
    let r ← macroBody fuel [.int, .bool, .str, .strs, .wrds, .wrd] s
    let s ← r.1.atEnd t!"def-macro"
    let s ← s.nextTag
    pure { s with t := { s.t with inMacro := false, macros := s.t.macros ++ [⟨r.2, s.code, s.t.repl⟩] } }

/-- mtx_reader.cc:133-152 (`procDefns`): each round reads a node.  (It is never at text.) -/
def defnsLoop (fuel : Nat) : Nat → S → Outcome S
  | 0, _ => .diverge
  | n + 1, s =>
    if s.cur.isEnd = true then .ok s
    else if s.cur.name = t!"def-set" then do defnsLoop fuel n (← procSetDef s)
    else if s.cur.name = t!"def-str" then do defnsLoop fuel n (← procStrDef s)
    else if s.cur.name = t!"def-macro" then do defnsLoop fuel n (← procDefMacro fuel s)
    else .fail

def procDefns (fuel : Nat) (s : S) : Outcome S := do
  let s ← s.nextTag
  let s ← defnsLoop fuel (s.rest.length + 2) s
  let s ← s.atEnd t!"defns"
  s.nextTag

/-- mtx_reader.cc:154-162 (`procGlobalPred`) -/
def procGlobalPred (fuel : Nat) (s : S) : Outcome S := do
  let s ← S.nextTag { s with code := [] }
  let s ← call (proc fuel) .bool s
  let s ← s.atEnd t!"global-pred"
  S.nextTag { s with t := { s.t with globalPred := s.code } }

/-- mtx_reader.cc:84-100 (`procCoarseTags`): the path of the tagger definition, relative to that of this file.  The definition that is read from it is not part of this model (C80). -/
def tsxPath (path file : Text) : Text :=
  match file with
  | '/' :: _ => file
  | _ :: ':' :: _ => file
  | _ => ((path.reverse.dropWhile (fun c => decide (c ≠ '/'))).reverse) ++ file

def procCoarseTags (path : Text) (s : S) : Outcome S :=
  S.past t!"coarse-tags" { s with t := { s.t with coarse := some (tsxPath path (s.cur.attrib t!"tag")) } }

/-- mtx_reader.cc:1157-1177: a section is read if it is there. -/
def section? (x : Text) (f : S → Outcome S) (s : S) : Outcome S := if s.cur.name = x then f s else .ok s

/-- mtx_reader.cc:1160-1167: the element is not stepped past. -/
def beamWidth (s : S) : S := { s with t := { s.t with beam := if s.cur.name = t!"beam-width" then (readInt (s.cur.attrib t!"val")).toNat else 4 } }

/-- mtx_reader.cc:1146-1179 (`parse`): the sections.  (A document type is not among the nodes: 1150-1152.) -/
def parse (path : Text) (nodes : List Node) : Outcome T := do
  let fuel := nodes.length + 2
  let s ← S.nextTag { cur := { name := [] }, rest := nodes, code := [], t := {} }
  if s.cur.name ≠ t!"metatag" then .fail
  else do
    let s ← s.nextTag
    let s ← section? t!"coarse-tags" (procCoarseTags path) s
    let s ← section? t!"defns" (procDefns fuel) (beamWidth s)
    let s ← section? t!"global-pred" (procGlobalPred fuel) s
    let s ← section? t!"feats" (procFeats fuel) s
    let s ← s.atEnd t!"metatag"
    pure s.t

end Verif.Mtx
