import Verif.Transfer.Loop
import Verif.Bil.Model
/-!
# Model of the compilation of patterns and of their use

`apertium/trx_reader.cc` (categories and patterns of a file of rules), `apertium/transfer_data.cc` (rule numbers),
`applyWord` in `apertium/transfer.cc`, `interchunk.cc`, `postchunk.cc`, `transfer_mult.cc`.

lttoolbox (not in the repository) is assumed to do the following:

* `Transducer::insertSingleTransduction(a, p)`: the target of the edge from `p` with the label `a`, which is made with a new state if there is
  none.  `linkStates(p, q, a)` adds an edge, unless there is one.  `insertTransducer(p, t)` adds a copy of `t` below `p`, with one final state, which is the
  result; it ends the program if `t` has no final state.
* `minimize` is a parameter; what is assumed of it (`Minimal`, in the specification) is stated at the theorems.
* `MatchState` is the set of states reached; `step(a, b)` follows both labels.  `classifyFinals` gives the least number of a rule that is not banned.

The XML reader is not modelled: categories and patterns are given as lists.  A tag in a file of rules is not `RULE_NUMBER:` and a number.
-/
namespace Verif.Pattern
open Verif.Bil (Step)

/-- Labels: characters, tags (by their text, with the brackets), and the numbers of rules (`<RULE_NUMBER:n>`, transfer_data.cc:114-123). -/
inductive Sym where
  | chr (c : Char)
  | tag (t : Text)
  | rule (n : Nat)
  deriving DecidableEq, Repr

/-- `TRXReader::ANY_TAG` (trx_reader.cc:27). -/
def anyTag : Sym := .tag t!"<ANY_TAG>"
/-- `TRXReader::ANY_CHAR` (trx_reader.cc:28). -/
def anyChar : Sym := .tag t!"<ANY_CHAR>"

/-- An edge: source, label (`none` is the empty one, 0), target. -/
abbrev Edge := Nat × Option Sym × Nat

/-- `Transducer` (lttoolbox).  The states are the numbers below `next`. -/
structure Trans where
  initial : Nat := 0
  next : Nat := 1
  edges : List Edge := []
  finals : List Nat := []

/-- `insertSingleTransduction`. -/
def insertSingle (t : Trans) (a : Option Sym) (p : Nat) : Trans × Nat :=
  match t.edges.find? (fun e => decide (e.1 = p ∧ e.2.1 = a)) with
  | some e => (t, e.2.2)
  | none => ({ t with next := t.next + 1, edges := t.edges ++ [(p, a, t.next)] }, t.next)

/-- `linkStates(p, q, a)`. -/
def link (t : Trans) (p q : Nat) (a : Option Sym) : Trans :=
  if (p, a, q) ∈ t.edges then t else { t with edges := t.edges ++ [(p, a, q)] }

/-- `setFinal(q)`. -/
def setFinal (t : Trans) (q : Nat) : Trans := { t with finals := q :: t.finals }

/-- A copy with other numbers. -/
def shift (k : Nat) (e : Edge) : Edge := (e.1 + k, e.2.1, e.2.2 + k)

/-- `insertTransducer(p, c)`: if `c` has several final states, `joinFinals` joins them in a new one. -/
def insertTrans (t : Trans) (p : Nat) (c : Trans) : Option (Trans × Nat) :=
  let edges := t.edges ++ (p, none, c.initial + t.next) :: c.edges.map (shift t.next)
  match c.finals with
  | [] => none
  | [f] => some ({ t with next := t.next + c.next, edges := edges }, f + t.next)
  | fs => some ({ t with next := t.next + c.next + 1, edges := edges ++ fs.map (fun f => (f + t.next, none, t.next + c.next)) }, t.next + c.next)

/-! ## Categories -/

/-- `insertSingleTransduction(a, state)` and `linkStates(state, state, a)` (trx_reader.cc:54-55, 63-64). -/
def insertLoop (x : Trans × Nat) (a : Sym) : Trans × Nat :=
  let y := insertSingle x.1 (some a) x.2
  (link y.1 y.2 y.2 (some a), y.2)

/-- The loop over a lemma (trx_reader.cc:48-59).  After a backslash at the end, `lemma[i]` is 0, the empty label. -/
def insertLemma : Text → Trans × Nat → Trans × Nat
  | [], x => x
  | c :: r, x =>
    if c = '\\' then
      let y := insertSingle x.1 (some (.chr '\\')) x.2
      match r with
      | [] => insertSingle y.1 none y.2
      | d :: r => insertLemma r (insertSingle y.1 (some (.chr d)) y.2)
    else if c = '*' then insertLemma r (insertLoop x anyChar)
    else insertLemma r (insertSingle x.1 (some (.chr c)) x.2)

/-- An empty lemma (trx_reader.cc:42-46). -/
def insertAnyLemma (x : Trans × Nat) : Trans × Nat :=
  let y := insertLoop x anyChar
  let z := insertSingle y.1 (some (.chr '\\')) y.2
  (link z.1 z.2 y.2 (some anyChar), y.2)

/-- The loop over the tags (trx_reader.cc:61-72).  (They are `split_escaped(tags, '.')`.) -/
def insertTags : List Text → Trans × Nat → Trans × Nat
  | [], x => x
  | t :: r, x =>
    if t = t!"*" then insertTags r (insertLoop x anyTag)
    else insertTags r (insertSingle x.1 (some (.tag (t!"<" ++ t ++ t!">"))) x.2)

/-- `insertCatItem` (trx_reader.cc:36-74). -/
def insertCatItem (t : Trans) (lem : Text) (tags : List Text) : Trans :=
  let x := insertTags tags ((if lem = [] then insertAnyLemma else insertLemma lem) (t, 0))
  setFinal x.1 x.2

/-- The attributes of a `cat-item`; `tags` are those of the attribute, separated. -/
structure CatItem where
  lem : Text := []
  tags : List Text := []
  name : Text := []

/-- A `cat-item` (trx_reader.cc:296-309): without tags, it is the name that is used, and not the lemma. -/
def catItem (t : Trans) (i : CatItem) : Trans :=
  if i.tags ≠ [] then insertCatItem t i.lem i.tags else insertCatItem t i.name []

/-- A `def-cat` (trx_reader.cc:310-323). -/
def defCat (minimize : Trans → Trans) (is : List CatItem) : Trans := minimize (is.foldl catItem {})

/-- `defcats` (trx_reader.cc:286-333): of several definitions the last one is used. -/
def lookupCat (cats : List (Text × List CatItem)) (n : Text) : Option (List CatItem) :=
  (cats.reverse.find? (fun c => decide (c.1 = n))).map (·.2)

/-! ## Patterns -/

/-- The state of `procRules`: the transducer, the map `states` and the keys of `seen_rules`. -/
structure RSt where
  trans : Trans := {}
  states : List ((Nat × Text) × Nat) := []
  seen : List Nat := []

/-- The mark of the beginning of a word, with an optional blank before it (trx_reader.cc:187-193). -/
def openWord (t : Trans) (p : Nat) : Trans × Nat :=
  let x := insertSingle t (some (.chr '^')) p
  if p ≠ 0 then
    let y := insertSingle x.1 (some (.chr ' ')) p
    (link y.1 y.2 x.2 (some (.chr '^')), x.2)
  else x

/-- A `pattern-item` (trx_reader.cc:174-199) in state `p`; `none` is an error (no such category, or an empty one). -/
def patternItem (cats : Text → Option Trans) (s : RSt) (p : Nat) (n : Text) : Option (RSt × Nat) :=
  match s.states.find? (fun e => decide (e.1 = (p, n))) with
  | some e => some (s, e.2)
  | none =>
    match cats n with
    | none => none
    | some c =>
      let x := openWord s.trans p
      match insertTrans x.1 x.2 c with
      | none => none
      | some y =>
        let z := insertSingle y.1 (some (.chr '$')) y.2
        some ({ s with trans := z.1, states := ((p, n), z.2) :: s.states }, z.2)

/-- The items of a pattern. -/
def patternItems (cats : Text → Option Trans) : RSt → Nat → List Text → Option (RSt × Nat)
  | s, p, [] => some (s, p)
  | s, p, n :: r => (patternItem cats s p n).bind (fun x => patternItems cats x.1 x.2 r)

/-- A pattern and its end (trx_reader.cc:146-173): a rule with a pattern that was seen before is left out. -/
def pattern (cats : Text → Option Trans) (s : RSt) (count : Nat) (ns : List Text) : Option RSt :=
  (patternItems cats s 0 ns).map (fun x =>
    if x.2 ∈ x.1.seen then x.1
    else
      let y := insertSingle x.1.trans (some (.rule count)) x.2
      { x.1 with trans := setFinal y.1 y.2, seen := x.2 :: x.1.seen })

/-- `procRules` (trx_reader.cc:136-224): the patterns of the rules, from number `count`. -/
def procRules (cats : Text → Option Trans) : Nat → RSt → List (List Text) → Option RSt
  | _, s, [] => some s
  | count, s, ns :: r => (pattern cats s count ns).bind (fun s => procRules cats (count + 1) s r)

/-- What the reader makes of a file of rules: categories and the patterns of the rules (trx_reader.cc:76-122), minimized as in
`TransferData::write` (transfer_data.cc:130). -/
def compile (minimize : Trans → Trans) (cats : List (Text × List CatItem)) (rules : List (List Text)) : Option Trans :=
  (procRules (fun n => (lookupCat cats n).map (defCat minimize)) 1 {} rules).map (fun s => minimize s.trans)

/-- The rule of a state, in `finals_rules` (transfer_data.cc:131-172): the edges are visited in the order of their labels, which are negative numbers and
smaller for rules with larger numbers; so the least number stays. -/
def ruleOf (m : Trans) (q : Nat) : Option Nat :=
  (m.edges.filterMap (fun e => match e.2.1 with
    | some (.rule r) => if e.1 = q ∧ e.2.2 ∈ m.finals then some r else none
    | _ => none)).min?

/-! ## Words -/

/-- `MatchState::step(a)`. -/
def step (m : Trans) (S : List Nat) (a : Sym) : List Nat :=
  (m.edges.filter (fun e => decide (e.1 ∈ S ∧ e.2.1 = some a))).map (·.2.2)

/-- `step(u_tolower(c), any_char)` for a character, `step(symbol, any_tag)` for a tag that the rules know, `step(any_tag)` for another one
(transfer.cc:1416-1440). -/
def stepOne (m : Trans) (known : List Text) (S : List Nat) : Step → List Nat
  | .char c => step m S (.chr c) ++ step m S anyChar
  | .tag t => if t ∈ known then step m S (.tag t) ++ step m S anyTag else step m S anyTag

/-- The tags that the rules know. -/
def alphabet (cats : List (Text × List CatItem)) : List Text :=
  t!"<ANY_TAG>" :: t!"<ANY_CHAR>" ::
    cats.flatMap (fun c => c.2.flatMap (fun i => (i.tags.filter (fun t => decide (t ≠ t!"*"))).map (fun t => t!"<" ++ t ++ t!">")))

/-- The automaton of the program; `events` is what `applyWord` reads of a word (transfer.cc:1372-1443). Where reading is undefined behaviour, nothing is matched. -/
def matcher (m : Trans) (known : List Text) (events : Text → Outcome (List Step)) : Transfer.Matcher (List Nat) where
  init := [m.initial]
  cleared := []
  word S w := match events w with
    | .ok es => step m (es.foldl (stepOne m known) (step m S (.chr '^'))) (.chr '$')
    | _ => []
  blank S := step m S (.chr ' ')
  dead S := S.isEmpty
  classify S banned := ((S.filterMap (ruleOf m)).filter (fun r => decide (r ∉ banned))).min?

/-- `applyWord` of transfer.cc (1372-1443). -/
def transferWord (lower : Char → Char) (w : Text) : Outcome (List Step) := Bil.steps lower (w.length + 1) 0 w

/-- `applyWord` of interchunk.cc (633-676), with `tags`; of postchunk.cc (728-771), without: there `<` is as `{`.  A backslash at the end of the word
adds the character 0. -/
def chunkWord (lower : Char → Char) (tags : Bool) : Nat → Text → List Step
  | 0, _ => []
  | _ + 1, [] => []
  | n + 1, c :: r =>
    if c = '\\' then
      match r with
      | [] => [.char (lower '\x00')]
      | d :: r => .char (lower d) :: chunkWord lower tags n r
    else if c = '<' then
      if tags then
        match Bil.tagEnd r with
        | none => chunkWord lower tags n r
        | some (o, r') => .tag (c :: o) :: chunkWord lower tags n r'
      else []
    else if c = '{' then []
    else .char (lower c) :: chunkWord lower tags n r

/-- `applyWord` of transfer_mult.cc (465-499). -/
def multWord (lower : Char → Char) : Nat → Text → List Step
  | 0, _ => []
  | _ + 1, [] => []
  | n + 1, c :: r =>
    if c = '\\' then
      match r with
      | [] => [.char (lower '\x00')]
      | d :: r => .char (lower d) :: multWord lower n r
    else if c = '<' then
      match Bil.tagEnd r with
      | none => multWord lower n r
      | some (o, r') => .tag (c :: o) :: multWord lower n r'
    else .char (lower c) :: multWord lower n r

end Verif.Pattern
