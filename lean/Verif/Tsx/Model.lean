import Verif.Base
import Verif.Tagger.Classes
/-!
# Model of the reader of tagger definitions (apertium/tsx_reader.cc, apertium/xml_reader.cc)

The reader sees the file as the sequence of nodes `xmlTextReaderRead` reports (libxml2, not part of the repository): the start of an element, its end, text and comments.  An
element written `<x/>` has a start and no end.  Assumptions on libxml2: `attrib` of an attribute that is not there is the empty string; what attributes the end of an
element has is left open.  Document type declarations are skipped by `step` (xml_reader.cc:40-45) and are left out of the sequence.
-/
namespace Verif.Tsx
open Verif.Tagger (Tags sinsert)

/-- A node: its name (`#text` and `#comment` for those), whether it is the end of an element, its attributes. -/
structure Node where
  name : Text
  isEnd : Bool := false
  attrs : List (Text × Text) := []
  deriving DecidableEq, Repr

/-- xml_reader.cc:72-76 -/
def Node.attrib (n : Node) (k : Text) : Text := ((n.attrs.find? (fun a => decide (a.1 = k))).map (·.2)).getD []

/-- The calls of `PatternList` (lttoolbox), in order. -/
inductive PatOp where
  /-- `insert(id, lemma, tags)` -/
  | item (id : Nat) (lem tags : Text)
  /-- `insert(id, id')` -/
  | label (id id' : Nat)
  | beginSeq
  | endSeq
  deriving DecidableEq, Repr

/-- `TaggerData`, tagger_data.h:36-51, without `output` (not touched here).  The maps are listings of their entries. -/
structure Data where
  openClass : Tags := []
  forbid : List (Nat × Nat) := []
  tagIndex : List (Text × Nat) := []
  arrayTags : List Text := []
  enforce : List (Nat × List Nat) := []
  prefer : List Text := []
  plist : List PatOp := []
  constants : List (Text × Nat) := []
  discard : List Text := []
  deriving DecidableEq, Repr

/-- The reader: the current node (`name`, `type`), what is still to be read, and the data. -/
structure S where
  cur : Node
  rest : List Node
  data : Data
  deriving DecidableEq, Repr

/-- `"TAG_"_u + tag` -/
def tagKey (l : Text) : Text := t!"TAG_" ++ l

/-- `map::find` -/
def mapFind (m : List (Text × Nat)) (k : Text) : Option Nat := (m.find? (fun e => decide (e.1 = k))).map (·.2)

/-- `map::operator[] =` -/
def mapSet (m : List (Text × Nat)) (k : Text) (v : Nat) : List (Text × Nat) :=
  if (mapFind m k).isSome then m.map (fun e => if e.1 = k then (k, v) else e) else m ++ [(k, v)]

/-- `(*tag_index)["TAG_" + l]` read: an entry that is not there is created, with 0. -/
def tagRef (d : Data) (l : Text) : Data × Nat :=
  match mapFind d.tagIndex (tagKey l) with
  | some i => (d, i)
  | none => ({ d with tagIndex := d.tagIndex ++ [(tagKey l, 0)] }, 0)

/-- xml_reader.cc:32-47 (`step`); at the end of the file `parseError` ends the program. -/
def step (s : S) : Outcome S :=
  match s.rest with
  | [] => .fail
  | n :: r => .ok { s with cur := n, rest := r }

/-- A `while` loop whose body says whether it left the loop by `break`, run at most `fuel` times. -/
def loopN : Nat → (S → Bool) → (S → Outcome (S × Bool)) → S → Outcome S
  | 0, _, _, _ => .diverge
  | fuel + 1, cond, body, s =>
    if cond s then
      match body s with
      | .ok (s', true) => .ok s'
      | .ok (s', false) => loopN fuel cond body s'
      | .fail => .fail
      | .diverge => .diverge
      | .ub => .ub
    else .ok s

/-- A `while` loop whose body reads at least one node: more rounds than there are nodes cannot happen (`C80_terminates`). -/
def loop (cond : S → Bool) (body : S → Outcome (S × Bool)) (s : S) : Outcome S := loopN (s.rest.length + 2) cond body s

/-- `type != XML_READER_TYPE_END_ELEMENT || name != x` -/
def untilEnd (x : Text) (s : S) : Bool := !s.cur.isEnd || decide (s.cur.name ≠ x)

def isText (n : Node) : Bool := decide (n.name = t!"#text") || decide (n.name = t!"#comment")

/-- `while(name == "#text" || name == "#comment") step();` -/
def skipText (s : S) : Outcome S := loop (fun s => isText s.cur) (fun s => (step s).map (fun s' => (s', false))) s

/-- tsx_reader.cc:83-93 -/
def newTagIndex (d : Data) (tag : Text) : Outcome Data :=
  if (mapFind d.tagIndex (tagKey tag)).isSome then .fail
  else .ok { d with arrayTags := d.arrayTags ++ [tagKey tag], tagIndex := mapSet d.tagIndex (tagKey tag) d.arrayTags.length }

/-- tsx_reader.cc:95-105 -/
def newDefTag (d : Data) (tag : Text) : Outcome Data :=
  if (mapFind d.tagIndex (tagKey tag)).isSome then .fail
  else .ok { d with arrayTags := d.arrayTags ++ [tag], tagIndex := mapSet d.tagIndex (tagKey tag) d.arrayTags.length }

/-- tsx_reader.cc:107-112 and constant_manager.cc (`setConstant`) -/
def newConstant (d : Data) (c : Text) : Data :=
  { d with constants := mapSet d.constants c d.arrayTags.length, arrayTags := d.arrayTags ++ [c] }

/-- tsx_reader.cc:58-70 -/
def clearTagIndex (d : Data) : Outcome Data := do
  let d ← newTagIndex { d with tagIndex := [], arrayTags := [] } t!"LPAR"
  let d ← newTagIndex d t!"RPAR"
  let d ← newTagIndex d t!"LQUEST"
  let d ← newTagIndex d t!"CM"
  let d ← newTagIndex d t!"SENT"
  let d ← newTagIndex d t!"kEOF"
  newTagIndex d t!"kUNDEF"

/-- `"<"_u + StringUtils::substitute(tags, "."_u, "><"_u) + ">"_u` (lttoolbox: every occurrence is replaced) -/
def angled (tags : Text) : Text := '<' :: tags.flatMap (fun c => if c = '.' then t!"><" else [c]) ++ t!">"

/-- tsx_reader.cc:157-164 and 200-206: the new tag of a definition and its place in the open class. -/
def defTag (s : S) : Outcome S := do
  let d ← newDefTag s.data (s.cur.attrib t!"name")
  if s.cur.attrib t!"closed" = t!"true" then pure { s with data := d }
  else
    let (d, i) := tagRef d (s.cur.attrib t!"name")
    pure { s with data := { d with openClass := sinsert i d.openClass } }

/-- `plist->insert((*tag_index)["TAG_" + name], attrib("lemma"), attrib("tags"))` -/
def addItem (name : Text) (s : S) : S :=
  let (d, i) := tagRef s.data name
  { s with data := { d with plist := d.plist ++ [.item i (s.cur.attrib t!"lemma") (s.cur.attrib t!"tags")] } }

/-- `plist->insert((*tag_index)["TAG_" + name], (*tag_index)["TAG_" + attrib("label")])` -/
def addLabel (name : Text) (s : S) : S :=
  let (d, i) := tagRef s.data name
  let (d, j) := tagRef d (s.cur.attrib t!"label")
  { s with data := { d with plist := d.plist ++ [.label i j] } }

def addOp (o : PatOp) (s : S) : S := { s with data := { s.data with plist := s.data.plist ++ [o] } }

/-- tsx_reader.cc:166-194: the body of the loop of `procDefLabel` (`return` is the same as `break`). -/
def defLabelBody (name : Text) (s : S) : Outcome (S × Bool) := do
  let s ← step s
  if s.cur.name = t!"tags-item" then
    if s.cur.isEnd then pure (s, false) else pure (addItem name s, false)
  else if s.cur.name = t!"def-label" then pure (s, true)
  else if isText s.cur then pure (s, false)
  else .fail

/-- tsx_reader.cc:155-195 -/
def procDefLabel (s : S) : Outcome S := do
  let s' ← defTag s
  loop (untilEnd t!"def-label") (defLabelBody (s.cur.attrib t!"name")) s'

/-- tsx_reader.cc:217-247: the body of the loop for one `sequence`; elements it does not know are ignored. -/
def seqBody (name : Text) (s : S) : Outcome (S × Bool) := do
  let s ← step s
  if s.cur.name = t!"label-item" then
    if s.cur.isEnd then pure (s, false) else pure (addLabel name s, false)
  else if s.cur.name = t!"tags-item" then
    if s.cur.isEnd then pure (s, false) else pure (addItem name s, false)
  else if s.cur.name = t!"sequence" then pure (s, true)
  else pure (s, false)

/-- tsx_reader.cc:208-266: the body of the loop of `procDefMult`. -/
def defMultBody (name : Text) (s : S) : Outcome (S × Bool) := do
  let s ← step s
  if s.cur.name = t!"sequence" then
    if s.cur.isEnd then pure (s, false)
    else
      let s ← loop (untilEnd t!"sequence") (seqBody name) (addOp .beginSeq s)
      pure (addOp .endSeq s, false)
  else if isText s.cur then pure (s, false)
  else if s.cur.name = t!"def-mult" then pure (s, false)
  else .fail

/-- tsx_reader.cc:197-268 -/
def procDefMult (s : S) : Outcome S := do
  let s' ← defTag s
  loop (untilEnd t!"def-mult") (defMultBody (s.cur.attrib t!"name")) s'

/-- tsx_reader.cc:273-280: up to the start of the tagset. -/
def tagsetHeadBody (s : S) : Outcome (S × Bool) := do
  let s ← step s
  if isText s.cur || decide (s.cur.name = t!"tagger") || decide (s.cur.name = t!"tagset") then pure (s, false) else .fail

/-- tsx_reader.cc:282-316 -/
def tagsetBody (s : S) : Outcome (S × Bool) := do
  let s ← step s
  if s.cur.name = t!"def-label" then
    if s.cur.isEnd then pure (s, false) else (procDefLabel s).map (·, false)
  else if s.cur.name = t!"def-mult" then
    if s.cur.isEnd then pure (s, false) else (procDefMult s).map (·, false)
  else if isText s.cur then pure (s, false)
  else if s.cur.name = t!"tagset" then pure (s, false)
  else .fail

/-- tsx_reader.cc:270-317 -/
def procTagset (s : S) : Outcome S := do
  let s ← loop (fun s => s.cur.isEnd || decide (s.cur.name ≠ t!"tagset")) tagsetHeadBody s
  loop (untilEnd t!"tagset") tagsetBody s

/-- tsx_reader.cc:325-335, 337-346: `step`, texts skipped, and the number of the label of the `label-item` there. -/
def labelItem (s : S) : Outcome (S × Nat) := do
  let s ← step s
  let s ← skipText s
  if s.cur.name = t!"label-item" then
    let (d, i) := tagRef s.data (s.cur.attrib t!"label")
    pure ({ s with data := d }, i)
  else .fail

/-- tsx_reader.cc:320-349 -/
def procLabelSequence (s : S) : Outcome S := do
  let (s, i) ← labelItem s
  let (s, j) ← labelItem s
  pure { s with data := { s.data with forbid := s.data.forbid ++ [(i, j)] } }

/-- tsx_reader.cc:354-387 -/
def forbidBody (s : S) : Outcome (S × Bool) := do
  let s ← step s
  if s.cur.name = t!"label-sequence" then
    if s.cur.isEnd then pure (s, false) else (procLabelSequence s).map (·, false)
  else if isText s.cur then pure (s, false)
  else if s.cur.name = t!"forbid" then
    if s.cur.isEnd then pure (s, true) else .fail
  else .fail

/-- tsx_reader.cc:351-388 -/
def procForbid (s : S) : Outcome S := loop (untilEnd t!"forbid") forbidBody s

/-- tsx_reader.cc:391-444: the loop of `procEnforce`.  The rule under construction, `aux`, is an argument; the loop is the same as `loop`, with that.  The value of
`aux.tagi` before anything is assigned to it is not determined; 0 here (an end of `enforce-after` without a start cannot be reported by libxml2). -/
def enforceN : Nat → Nat × List Nat → S → Outcome S
  | 0, _, _ => .diverge
  | fuel + 1, aux, s =>
    if untilEnd t!"enforce-rules" s then
      match step s with
      | .ok s =>
        if s.cur.name = t!"enforce-after" then
          if s.cur.isEnd then enforceN fuel (aux.1, []) { s with data := { s.data with enforce := s.data.enforce ++ [aux] } }
          else
            let r := tagRef s.data (s.cur.attrib t!"label")
            enforceN fuel (r.2, aux.2) { s with data := r.1 }
        else if s.cur.name = t!"label-set" then enforceN fuel aux s
        else if s.cur.name = t!"label-item" then
          if s.cur.isEnd then enforceN fuel aux s
          else
            let r := tagRef s.data (s.cur.attrib t!"label")
            enforceN fuel (aux.1, aux.2 ++ [r.2]) { s with data := r.1 }
        else if isText s.cur then enforceN fuel aux s
        else if s.cur.name = t!"enforce-rules" then
          if s.cur.isEnd then .ok s else .fail
        else .fail
      | .fail => .fail
      | .diverge => .diverge
      | .ub => .ub
    else .ok s

/-- tsx_reader.cc:390-444 -/
def procEnforce (s : S) : Outcome S := enforceN (s.rest.length + 2) (0, []) s

/-- tsx_reader.cc:449-483 -/
def preferBody (s : S) : Outcome (S × Bool) := do
  let s ← step s
  if s.cur.name = t!"prefer" then
    if s.cur.isEnd then pure (s, false)
    else pure ({ s with data := { s.data with prefer := s.data.prefer ++ [angled (s.cur.attrib t!"tags")] } }, false)
  else if isText s.cur then pure (s, false)
  else if s.cur.name = t!"preferences" then
    if s.cur.isEnd then pure (s, true) else .fail
  else .fail

/-- tsx_reader.cc:446-484 -/
def procPreferences (s : S) : Outcome S := loop (untilEnd t!"preferences") preferBody s

/-- tsx_reader.cc:117-151 -/
def discardBody (s : S) : Outcome (S × Bool) := do
  let s ← step s
  if s.cur.name = t!"discard" then
    if s.cur.isEnd then pure (s, false)
    else pure ({ s with data := { s.data with discard := s.data.discard ++ [angled (s.cur.attrib t!"tags")] } }, false)
  else if isText s.cur then pure (s, false)
  else if s.cur.name = t!"discard-on-ambiguity" then
    if s.cur.isEnd then pure (s, true) else .fail
  else .fail

/-- tsx_reader.cc:114-152 -/
def procDiscard (s : S) : Outcome S := loop (untilEnd t!"discard-on-ambiguity") discardBody s

/-- tsx_reader.cc:495-499, 503-507, ...: `step` and skip texts. -/
def nextTag (s : S) : Outcome S := do
  let s ← step s
  skipText s

/-- tsx_reader.cc:500-526: a section that may be there. -/
def optSection (name : Text) (proc : S → Outcome S) (s : S) : Outcome S :=
  if s.cur.name = name then do
    let s ← proc s
    nextTag s
  else pure s

/-- tsx_reader.cc:527-533 -/
def discardSection (s : S) : Outcome S :=
  if s.cur.name = t!"discard-on-ambiguity" then
    if s.cur.isEnd then pure s else procDiscard s
  else pure s

def constantNames : List Text := [t!"kMOT", t!"kDOLLAR", t!"kBARRA", t!"kMAS", t!"kIGNORAR", t!"kBEGIN", t!"kUNKNOWN"]

/-- tsx_reader.cc:543-547: the patterns of the fixed tags. -/
def fixedItem (d : Data) (x : Text × Text) : Data :=
  let (d, i) := tagRef d x.1
  { d with plist := d.plist ++ [.item i [] x.2] }

/-- tsx_reader.cc:535-549: the constants and the patterns of the fixed tags. -/
def finish (d : Data) : Data :=
  [(t!"LPAR", t!"lpar"), (t!"RPAR", t!"rpar"), (t!"LQUEST", t!"lquest"), (t!"CM", t!"cm"), (t!"SENT", t!"sent")].foldl fixedItem
    (constantNames.foldl newConstant d)

/-- tsx_reader.cc:485-550 (`parse`), from the data the object already has.  `buildTransducer` (lttoolbox) is left out. -/
def parse (d : Data) (doc : List Node) : Outcome Data := do
  let d ← clearTagIndex { d with openClass := [], forbid := [] }
  let s ← procTagset { cur := { name := [] }, rest := doc, data := { d with enforce := [] } }
  let s ← nextTag s
  let s ← optSection t!"forbid" procForbid s
  let s ← optSection t!"enforce-rules" procEnforce s
  let s ← optSection t!"preferences" procPreferences s
  let s ← discardSection s
  pure (finish s.data)

end Verif.Tsx
