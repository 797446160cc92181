import Verif.Pattern.Model
import Verif.Regex.Model
import Verif.Tsx.Model
import Verif.Serial.File
/-!
# Model of the reader of transfer rules and of what the transfer programs get (apertium/trx_reader.cc, apertium/xml_reader.cc, apertium/transfer_data.cc, apertium/transfer_base.cc)

`apertium-preprocess-transfer` reads a file of rules as the nodes that `xmlTextReaderRead` reports, the transfer programs read the same file as a tree (`xmlReadFile`).  A file is here the tree;
`Tree.events` are the nodes of the first, `Tree.children` is what the second sees.  (At the end of an element the reader finds the attributes of its start.  Document types,
processing instructions and CDATA are not in it.)
-/
namespace Verif.Trx
open Verif.Tsx (Node isText)
open Verif.Pattern (Trans RSt CatItem)

/-! ### Files -/

/-- A node of an XML file: text, a comment, an element (`short`: written `<x/>`). -/
inductive Tree where
  | text (comment : Bool)
  | elem (name : Text) (attrs : List (Text × Text)) (short : Bool) (kids : List Tree)

mutual
/-- What `xmlTextReaderRead` reports. -/
def Tree.events : Tree → List Node
  | .text c => [⟨if c then t!"#comment" else t!"#text", false, []⟩]
  | .elem x a short kids => ⟨x, false, a⟩ :: (if short then [] else eventsAll kids ++ [⟨x, true, a⟩])
def eventsAll : List Tree → List Node
  | [] => []
  | t :: ts => t.events ++ eventsAll ts
end

/-- `children` (apertium/xml_walk_util.h of lttoolbox): the elements in it. -/
def Tree.children : Tree → List Tree
  | .text _ => []
  | .elem _ _ _ kids => kids.filter (fun t => match t with | .elem .. => true | .text _ => false)

def Tree.name : Tree → Text
  | .text c => if c then t!"comment" else t!"text"
  | .elem x _ _ _ => x

/-! ### Maps and sets -/

/-- `map::find` -/
def find {α : Type} (m : List (Text × α)) (k : Text) : Option α := (m.find? (fun e => decide (e.1 = k))).map (·.2)

/-- `map::operator[] =` -/
def put {α : Type} (m : List (Text × α)) (k : Text) (v : α) : List (Text × α) :=
  if (find m k).isSome then m.map (fun e => if e.1 = k then (k, v) else e) else m ++ [(k, v)]

/-- `set::insert` -/
def add (s : List Text) (v : Text) : List Text := if v ∈ s then s else s ++ [v]

/-! ### The reader -/

/-- `TransferData` and `defcats`, `states` (transfer_data.h:30-41, trx_reader.h:33-36). -/
structure TD where
  cats : List (Text × List CatItem) := []
  attrs : List (Text × Text)
  vars : List (Text × Text) := []
  lists : List (Text × List Text) := []
  macros : List (Text × Nat) := []
  rst : RSt := {}

/-- transfer_data.cc:46-53: the parts that there are without a definition. -/
def fixedAttrs : List (Text × Text) :=
  [(t!"lem", t!"^(([^<]|\"\\<\")+)"), (t!"lemq", t!"\\#[- _][^<]+"), (t!"lemh", t!"^(([^<#]|\"\\<\"|\"\\#\")+)"), (t!"whole", t!"(.+)"), (t!"tags", t!"((<[^>]+>)+)"),
    (t!"chname", t!"(\\{([^/]+)\\/)"), (t!"chcontent", t!"(\\{.+)"), (t!"content", t!"(\\{.+)")]

/-- What is from lttoolbox and ICU: `split_escaped(tags, '.')` (of a text that is not empty, never nothing), the minimisation of transducers, and whether a regular expression can be compiled. -/
structure Env where
  split : Text → List Text
  minimize : Trans → Trans
  compiles : Text → Bool

/-- xml_reader.cc:64-70 (`stepToNextTag`): the next node that is not text or a comment, and what is after it. -/
def nextTag : List Node → Outcome (Node × List Node)
  | [] => .fail
  | n :: r => if isText n then nextTag r else .ok (n, r)

/-- The loop of a section: `while(type != END || name != x) { stepToNextTag(); ... }`.  (`procRules` uses `step()` instead, and does nothing for text.)  `more`: the loop goes on in any case. -/
def sectionLoop {σ : Type} (x : Text) (h : Node → σ → Outcome σ) (more : σ → Bool) : List Node → σ → Outcome (σ × List Node)
  | [], _ => .fail
  | n :: r, s =>
    if isText n then sectionLoop x h more r s
    else (h n s).bind fun s' => if n.name = x ∧ n.isEnd = true ∧ more s' = false then .ok (s', r) else sectionLoop x h more r s'

/-- trx_reader.cc:286-333 (`procDefCats`): the name and the items of the current category; at its end it is entered, in front of others with the same name. -/
def catNode (env : Env) (n : Node) (s : (Text × List CatItem) × TD) : Outcome ((Text × List CatItem) × TD) :=
  if n.name = t!"cat-item" then
    if n.isEnd = false then
      .ok ((s.1.1, s.1.2 ++ [{ lem := n.attrib t!"lemma", tags := if n.attrib t!"tags" = [] then [] else env.split (n.attrib t!"tags"), name := n.attrib t!"name" }]), s.2)
    else .ok s
  else if n.name = t!"def-cat" then
    if n.isEnd = false then .ok ((n.attrib t!"n", s.1.2), s.2) else .ok (([], []), { s.2 with cats := s.2.cats ++ [s.1] })
  else if n.name = t!"section-def-cats" then .ok s
  else .fail

/-- trx_reader.cc:243-284 (`procDefAttrs`) -/
def attrNode (env : Env) (n : Node) (s : (Text × List Text) × TD) : Outcome ((Text × List Text) × TD) :=
  if n.name = t!"attr-item" then
    if n.isEnd = false then .ok ((s.1.1, s.1.2 ++ [n.attrib t!"tags"]), s.2) else .ok s
  else if n.name = t!"def-attr" then
    if n.isEnd = false then .ok ((n.attrib t!"n", s.1.2), s.2)
    else if env.compiles (Regex.optimizeRegex s.1.2) then .ok (([], []), { s.2 with attrs := put s.2.attrs s.1.1 (Regex.optimizeRegex s.1.2) })
    else .fail
  else if n.name = t!"section-def-attrs" then .ok s
  else .fail

/-- trx_reader.cc:335-358, 432-436 (`procDefVars`, `createVar`) -/
def varNode (n : Node) (td : TD) : Outcome TD :=
  if n.name = t!"def-var" then
    if n.isEnd = false then .ok { td with vars := put td.vars (n.attrib t!"n") (n.attrib t!"v") } else .ok td
  else if n.name = t!"section-def-vars" then .ok td
  else .fail

/-- trx_reader.cc:426-430 (`insertListItem`) -/
def listAdd (m : List (Text × List Text)) (k v : Text) : List (Text × List Text) := put m k (add ((find m k).getD []) v)

/-- trx_reader.cc:360-397 (`procDefLists`) -/
def listNode (n : Node) (s : Text × TD) : Outcome (Text × TD) :=
  if n.name = t!"list-item" then
    if n.isEnd = false then .ok (s.1, { s.2 with lists := listAdd s.2.lists s.1 (n.attrib t!"v") }) else .ok s
  else if n.name = t!"def-list" then
    if n.isEnd = false then .ok (n.attrib t!"n", s.2) else .ok ([], s.2)
  else if n.name = t!"section-def-lists" then .ok s
  else .fail

/-- trx_reader.cc:399-424 (`procDefMacros`, `createMacro`): what is in the macros is passed over. -/
def macroNode (n : Node) (s : Nat × TD) : Outcome (Nat × TD) :=
  if n.name = t!"def-macro" ∧ n.isEnd = false then
    if (find s.2.macros (n.attrib t!"n")).isSome then .fail else .ok (s.1 + 1, { s.2 with macros := put s.2.macros (n.attrib t!"n") s.1 })
  else .ok s

/-- The state of `procRules`: the number of the rule, the state of the transducer, and whether it is in the inner loop for `let`. -/
structure RS where
  count : Nat := 0
  state : Nat := 0
  rst : RSt := {}
  inLet : Bool := false

/-- trx_reader.cc:124-134 (`checkClip`) -/
def checkClip (attrs : List (Text × Text)) (n : Node) : Bool := decide (n.attrib t!"part" ≠ []) && (find attrs (n.attrib t!"part")).isSome

/-- trx_reader.cc:160-171: the end of a pattern. -/
def endPattern (count : Nat) (x : RSt × Nat) : RSt :=
  if x.2 ∈ x.1.seen then x.1
  else
    let y := Pattern.insertSingle x.1.trans (some (.rule count)) x.2
    { x.1 with trans := Pattern.setFinal y.1 y.2, seen := x.2 :: x.1.seen }

/-- trx_reader.cc:136-224 (`procRules`) -/
def ruleNode (cats : Text → Option Trans) (attrs : List (Text × Text)) (n : Node) (s : RS) : Outcome RS :=
  if s.inLet then
    if n.isEnd then .ok { s with inLet := decide (n.name ≠ t!"let") }
    else if n.name = t!"clip" ∧ checkClip attrs n = false then .fail
    else .ok { s with inLet := false }
  else if n.name = t!"rule" then .ok (if n.isEnd then s else { s with count := s.count + 1 })
  else if n.name = t!"pattern" then .ok (if n.isEnd then { s with rst := endPattern s.count (s.rst, s.state) } else { s with state := 0 })
  else if n.name = t!"pattern-item" then
    if n.isEnd then .ok s
    else
      match Pattern.patternItem cats s.rst s.state (n.attrib t!"n") with
      | none => .fail
      | some x => .ok { s with rst := x.1, state := x.2 }
  else if n.name = t!"let" then .ok { s with inLet := !n.isEnd }
  else if n.name = t!"clip" then if checkClip attrs n then .ok s else .fail
  else .ok s

def TD.lookup (env : Env) (td : TD) (n : Text) : Option Trans := (Pattern.lookupCat td.cats n).map (Pattern.defCat env.minimize)

/-- The reader between two sections: the node, what is after it, and what was read. -/
abbrev P := Node × List Node × TD

/-- A section, if it is there (trx_reader.cc:88-121). -/
def section? {σ : Type} (x : Text) (h : Node → σ → Outcome σ) (more : σ → Bool) (init : TD → σ) (result : TD → σ → TD) (p : P) : Outcome P :=
  if p.1.name = x then
    (sectionLoop x h more p.2.1 (init p.2.2)).bind fun q => (nextTag q.2).bind fun m => .ok (m.1, m.2, result p.2.2 q.1)
  else .ok p

/-- trx_reader.cc:76-122 (`parse`): what comes after the rules is not looked at, nor is a section in another place. -/
def parse (env : Env) (nodes : List Node) : Outcome TD :=
  (nextTag nodes).bind fun n =>
  if n.1.name ≠ t!"transfer" ∧ n.1.name ≠ t!"interchunk" ∧ n.1.name ≠ t!"postchunk" then .fail
  else
    (nextTag n.2).bind fun n =>
    if n.1.name ≠ t!"section-def-cats" then .fail
    else
      (section? t!"section-def-cats" (catNode env) (fun _ => false) (fun td => (([], []), td)) (fun _ s => s.2) (n.1, n.2, { attrs := fixedAttrs })).bind fun p =>
      (section? t!"section-def-attrs" (attrNode env) (fun _ => false) (fun td => (([], []), td)) (fun _ s => s.2) p).bind fun p =>
      (section? t!"section-def-vars" varNode (fun _ => false) id (fun _ s => s) p).bind fun p =>
      (section? t!"section-def-lists" listNode (fun _ => false) (fun td => ([], td)) (fun _ s => s.2) p).bind fun p =>
      (section? t!"section-def-macros" macroNode (fun _ => false) (fun td => (0, td)) (fun _ s => s.2) p).bind fun p =>
      (section? t!"section-rules" (ruleNode (p.2.2.lookup env) p.2.2.attrs) (fun s => s.inLet) (fun _ => {}) (fun td s => { td with rst := s.rst }) p).bind fun p =>
      .ok p.2.2

/-! ### What the transfer programs get from the tree -/

/-- transfer_base.cc:110-124 (`collectRules`): the actions, of the rules that have one. -/
def collectRules (t : Tree) : List Tree := t.children.filterMap fun r => r.children.find? (fun a => decide (a.name = t!"action"))

/-- transfer_base.cc:34-40: the sections of macros (126-132) and of rules. -/
def macroMap (root : Tree) : List Tree := root.children.flatMap fun i => if i.name = t!"section-def-macros" then i.children else []
def ruleMap (root : Tree) : List Tree := root.children.flatMap fun i => if i.name = t!"section-rules" then collectRules i else []

/-- `macro_map[macros[n]]` (transfer.cc:746, interchunk.cc:324, postchunk.cc:402): a name that is not there gets the number 0; `none`: there is no macro with that number. -/
def macroOf (macros : List (Text × Nat)) (root : Tree) (n : Text) : Option Tree := (macroMap root)[(find macros n).getD 0]?

/-- `rule_map[val-1]` (transfer.cc:1191, interchunk.cc:541, postchunk.cc:635). -/
def ruleOf (root : Tree) (val : Nat) : Option Tree := (ruleMap root)[val - 1]?

/-! ### The compiled file -/

open Verif.Serial (Wr Rd mbWrite mbRead strWrite strRead)

/-- What a transfer program has read from the compiled file: the alphabet and the transducer, the rules of its final states, and the tables (transfer_base.h:51-72). -/
structure Data (A : Type) where
  auto : A
  finals : List (Nat × Nat) := []
  attrs : List (Text × Text) := []
  vars : List (Text × Text) := []
  defaults : List (Text × Text) := []
  macros : List (Text × Nat) := []
  lists : List (Text × List Text) := []
  lower : List (Text × List Text) := []

/-- The file format of the alphabet and the transducer (lttoolbox), any. -/
structure Format (A : Type) where
  write : A → Serial.Bytes
  read : Rd A
  roundtrip : ∀ p rest, read (write p ++ rest) = some (p, rest)

/-- A string as its characters.  (The program writes UTF-16 units.) -/
def wText (t : Text) : Wr := strWrite (t.map Char.toNat)
def rText : Rd Text := Rd.bind strRead fun l => Rd.pure (l.map Char.ofNat)

/-- The number of entries, and the entries. -/
def wAll {α : Type} (f : α → Wr) (l : List α) : Wr := Wr.seq (mbWrite l.length) (Wr.all f l)
def rAll {σ : Type} (step : σ → Rd σ) (s : σ) : Rd σ := Rd.bind mbRead fun n => Rd.times step n s

/-- transfer_data.cc:124-239 (`write`, `writeRegexps`); `finals` is `finals_rules` (see `Pattern.ruleOf`).  (The entries of a map are written in the order of its keys, here in that of the list.) -/
def write {A : Type} (fmt : Format A) (a : A) (finals : List (Nat × Nat)) (td : TD) : Wr :=
  Wr.seq (some (fmt.write a)) <|
  Wr.seq (wAll (fun f => Wr.seq (mbWrite f.1) (mbWrite f.2)) finals) <|
  Wr.seq (wText []) <|
  Wr.seq (wAll (fun f => Wr.seq (wText f.1) (Wr.seq (mbWrite 0) (wText f.2))) td.attrs) <|
  Wr.seq (wAll (fun f => Wr.seq (wText f.1) (wText f.2)) td.vars) <|
  Wr.seq (wAll (fun f => Wr.seq (wText f.1) (mbWrite f.2)) td.macros) <|
  wAll (fun f => Wr.seq (wText f.1) (wAll wText f.2)) td.lists

/-- `map<int, int>::operator[] =` -/
def putNat (m : List (Nat × Nat)) (k v : Nat) : List (Nat × Nat) :=
  if m.any (fun e => decide (e.1 = k)) then m.map (fun e => if e.1 = k then (k, v) else e) else m ++ [(k, v)]

/-- transfer_base.cc:68-80 and apertium_re.cc (`ApertiumRE::read` skips the bytes whose number is given, here always 0): a part; `chname` is another one in files of old versions. -/
def rAttr (icu : Bool) (m : List (Text × Text)) : Rd (List (Text × Text)) :=
  Rd.bind rText fun k => Rd.bind mbRead fun _ => Rd.bind rText fun v => Rd.pure (put m k (if icu = false ∧ k = t!"chname" then t!"(\\{([^/]+)\\/)" else v))

/-- transfer_base.cc:96-108: the items of a list, and in lower case. -/
def rItem (lower : Text → Text) (k : Text) (s : List (Text × List Text) × List (Text × List Text)) : Rd (List (Text × List Text) × List (Text × List Text)) :=
  Rd.bind rText fun v => Rd.pure (listAdd s.1 k v, listAdd s.2 k (lower v))

/-- transfer_base.cc:43-109 (`read`) -/
def read {A : Type} (fmt : Format A) (lower : Text → Text) : Rd (Data A) :=
  Rd.bind fmt.read fun a =>
  Rd.bind (rAll (fun m => Rd.bind mbRead fun k => Rd.bind mbRead fun v => Rd.pure (putNat m k v)) []) fun finals =>
  Rd.bind rText fun version =>
  Rd.bind (rAll (rAttr (decide (version = []))) []) fun attrs =>
  Rd.bind (rAll (fun m => Rd.bind rText fun k => Rd.bind rText fun v => Rd.pure (put m k v)) []) fun vars =>
  Rd.bind (rAll (fun m => Rd.bind rText fun k => Rd.bind mbRead fun v => Rd.pure (put m k v)) []) fun macros =>
  Rd.bind (rAll (fun s => Rd.bind rText fun k => rAll (rItem lower k) s) ([], [])) fun ls =>
  Rd.pure { auto := a, finals := finals, attrs := attrs, vars := vars, defaults := vars, macros := macros, lists := ls.1, lower := ls.2 }

end Verif.Trx
