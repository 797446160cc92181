import Verif.Tsx.Model
/-!
# What a tagger definition says

A definition is given here as what its author means (`Doc`), and `Writes` says which sequences of nodes are a way to write it, by the document type `apertium/tagger.dtd`: with
text and comments between the elements, with other attributes, and with empty elements in either form where the reader allows it.
-/
namespace Verif.Tsx

/-- A `tags-item`. -/
structure Item where
  lem : Text
  tags : Text
  deriving DecidableEq

/-- What can be in a `sequence`. -/
inductive Piece where
  | label (l : Text)
  | item (i : Item)
  deriving DecidableEq

/-- What is in a `def-label`, and in a `def-mult`. -/
inductive Body where
  | items (is : List Item)
  | seqs (ss : List (List Piece))
  deriving DecidableEq

/-- A `def-label` or a `def-mult`. -/
structure Def where
  name : Text
  closed : Bool
  body : Body
  deriving DecidableEq

/-- A tagger definition.  The tags of a `prefer` and of a `discard` are the list of the tags between the full stops. -/
structure Doc where
  defs : List Def
  forbid : Option (List (Text × Text)) := none
  enforce : Option (List (Text × List Text)) := none
  prefer : Option (List (List Text)) := none
  discard : Option (List (List Text)) := none
  deriving DecidableEq

/-! ### Ways to write it -/

/-- Text and comments. -/
def Gap (ns : List Node) : Prop := ∀ n ∈ ns, (n.name = t!"#text" ∨ n.name = t!"#comment") ∧ n.isEnd = false

def Start (x : Text) (n : Node) : Prop := n.name = x ∧ n.isEnd = false

def End (x : Text) (n : Node) : Prop := n.name = x ∧ n.isEnd = true

/-- An empty element with the property `p` of its attributes: `<x/>` or `<x></x>`. -/
inductive Empty (x : Text) (p : Node → Prop) : List Node → Prop where
  | short (n : Node) : Start x n → p n → Empty x p [n]
  | long (n e : Node) (g : List Node) : Start x n → p n → Gap g → End x e → Empty x p (n :: g ++ [e])

/-- An element with its content. -/
inductive Elem (x : Text) (p : Node → Prop) (content : List Node → Prop) : List Node → Prop where
  | mk (n e : Node) (c : List Node) : Start x n → p n → content c → End x e → Elem x p content (n :: c ++ [e])

/-- A list of things, each written by `R`, with text and comments between them. -/
inductive Many {α : Type} (R : α → List Node → Prop) : List α → List Node → Prop where
  | nil (g : List Node) : Gap g → Many R [] g
  | cons (a : α) (as : List α) (g ns r : List Node) : Gap g → R a ns → Many R as r → Many R (a :: as) (g ++ ns ++ r)

/-- Something that may be missing. -/
inductive Opt {α : Type} (R : α → List Node → Prop) : Option α → List Node → Prop where
  | none : Opt R none []
  | some (a : α) (g ns : List Node) : Gap g → R a ns → Opt R (some a) (g ++ ns)

def WItem (i : Item) : List Node → Prop := Empty t!"tags-item" (fun n => n.attrib t!"lemma" = i.lem ∧ n.attrib t!"tags" = i.tags)

def WLabel (l : Text) : List Node → Prop := Empty t!"label-item" (fun n => n.attrib t!"label" = l)

def WPiece : Piece → List Node → Prop
  | .label l => WLabel l
  | .item i => WItem i

def WDef (d : Def) : List Node → Prop :=
  match d.body with
  | .items is => Elem t!"def-label" (fun n => n.attrib t!"name" = d.name ∧ (n.attrib t!"closed" = t!"true" ↔ d.closed = true)) (Many WItem is)
  | .seqs ss => Elem t!"def-mult" (fun n => n.attrib t!"name" = d.name ∧ (n.attrib t!"closed" = t!"true" ↔ d.closed = true))
      (Many (fun ps => Elem t!"sequence" (fun _ => True) (Many WPiece ps)) ss)

/-- The two `label-item`s of a `label-sequence` have to be written `<label-item .../>`. -/
inductive WPair (p : Text × Text) : List Node → Prop where
  | mk (n1 n2 : Node) (g1 g2 g3 : List Node) : Gap g1 → Gap g2 → Gap g3 → Start t!"label-item" n1 → n1.attrib t!"label" = p.1 →
      Start t!"label-item" n2 → n2.attrib t!"label" = p.2 → WPair p (g1 ++ n1 :: (g2 ++ n2 :: g3))

def WForbid (ps : List (Text × Text)) : List Node → Prop :=
  Elem t!"forbid" (fun _ => True) (Many (fun p => Elem t!"label-sequence" (fun _ => True) (WPair p)) ps)

def WEnforce (rs : List (Text × List Text)) : List Node → Prop :=
  Elem t!"enforce-rules" (fun _ => True)
    (Many (fun r => Elem t!"enforce-after" (fun n => n.attrib t!"label" = r.1)
      (Many (fun ls => Elem t!"label-set" (fun _ => True) (Many WLabel ls)) [r.2])) rs)

/-- `a.b.c` -/
def dotted (ts : List Text) : Text := t!".".intercalate ts

def WTags (x y : Text) (rs : List (List Text)) : List Node → Prop :=
  Elem x (fun _ => True) (Many (fun ts => Empty y (fun n => n.attrib t!"tags" = dotted ts)) rs)

/-- The nodes of a file with this definition. -/
inductive Writes (doc : Doc) : List Node → Prop where
  | mk (g0 g1 g2 post tagset forbid enforce prefer discard : List Node) (n e : Node) :
      Gap g0 → Start t!"tagger" n → Gap g1 → Elem t!"tagset" (fun _ => True) (Many WDef doc.defs) tagset →
      Opt WForbid doc.forbid forbid → Opt WEnforce doc.enforce enforce → Opt (WTags t!"preferences" t!"prefer") doc.prefer prefer →
      Opt (WTags t!"discard-on-ambiguity" t!"discard") doc.discard discard → Gap g2 → End t!"tagger" e →
      Writes doc (g0 ++ n :: (g1 ++ tagset ++ forbid ++ enforce ++ prefer ++ discard ++ g2 ++ e :: post))

/-! ### What the tagger is to know -/

/-- The tags there always are. -/
def fixedTags : List Text := [t!"LPAR", t!"RPAR", t!"LQUEST", t!"CM", t!"SENT", t!"kEOF", t!"kUNDEF"]

def Doc.names (doc : Doc) : List Text := doc.defs.map (·.name)

/-- All tags, in the order of their numbers. -/
def Doc.tags (doc : Doc) : List Text := fixedTags ++ doc.names

/-- The number of a tag. -/
def Doc.num (doc : Doc) (l : Text) : Nat := doc.tags.idxOf l

/-- The labels used in a definition. -/
def Body.labels : Body → List Text
  | .items _ => []
  | .seqs ss => ss.flatten.filterMap (fun p => match p with | .label l => some l | .item _ => none)

/-- The definitions of a list use tags of `known`, and the tags defined before. -/
def DefsOk (known : List Text) : List Def → Prop
  | [] => True
  | d :: ds => d.name ∉ known ∧ (∀ l ∈ d.body.labels, l ∈ known) ∧ DefsOk (known ++ [d.name]) ds

/-- Every tag is defined once, and every label used is one of a tag (in a `def-mult`: one defined before).  Tags of `prefer` and `discard` have no full stop in them. -/
structure Doc.Ok (doc : Doc) : Prop where
  defs : DefsOk fixedTags doc.defs
  forbid : ∀ p ∈ doc.forbid.getD [], p.1 ∈ doc.tags ∧ p.2 ∈ doc.tags
  enforce : ∀ r ∈ doc.enforce.getD [], r.1 ∈ doc.tags ∧ ∀ l ∈ r.2, l ∈ doc.tags
  prefer : ∀ ts ∈ doc.prefer.getD [], ts ≠ [] ∧ ∀ t ∈ ts, '.' ∉ t
  discard : ∀ ts ∈ doc.discard.getD [], ts ≠ [] ∧ ∀ t ∈ ts, '.' ∉ t

/-- `<a><b><c>` -/
def tagString (ts : List Text) : Text := ts.flatMap (fun t => '<' :: t ++ t!">")

/-- The patterns of a definition. -/
def Doc.pieceOps (doc : Doc) (n : Nat) : Piece → PatOp
  | .label l => .label n (doc.num l)
  | .item i => .item n i.lem i.tags

def Doc.defOps (doc : Doc) (d : Def) : List PatOp :=
  match d.body with
  | .items is => is.map (fun i => .item (doc.num d.name) i.lem i.tags)
  | .seqs ss => ss.flatMap (fun ps => .beginSeq :: ps.map (doc.pieceOps (doc.num d.name)) ++ [.endSeq])

/-- The patterns of the fixed tags. -/
def fixedOps : List PatOp := [.item 0 [] t!"lpar", .item 1 [] t!"rpar", .item 2 [] t!"lquest", .item 3 [] t!"cm", .item 4 [] t!"sent"]

/-- `d` is what the definition says, `d0` being what the reader had before. -/
structure Means (doc : Doc) (d0 d : Data) : Prop where
  /-- the tags in order, then the constants -/
  tags : d.arrayTags = fixedTags.map (t!"TAG_" ++ ·) ++ doc.names ++ constantNames
  /-- each tag has its place as its number, and nothing else has one -/
  index : ∀ l, mapFind d.tagIndex (t!"TAG_" ++ l) = if l ∈ doc.tags then some (doc.num l) else none
  /-- the number of states of the tagger -/
  size : d.tagIndex.length = doc.tags.length
  /-- the open class are the tags that are not closed -/
  openClass : ∀ i, i ∈ d.openClass ↔ ∃ x ∈ doc.defs, x.closed = false ∧ i = doc.num x.name
  openSet : Verif.Tagger.Sorted d.openClass
  forbid : d.forbid = (doc.forbid.getD []).map (fun p => (doc.num p.1, doc.num p.2))
  enforce : d.enforce = (doc.enforce.getD []).map (fun r => (doc.num r.1, r.2.map doc.num))
  prefer : d.prefer = d0.prefer ++ (doc.prefer.getD []).map tagString
  discard : d.discard = d0.discard ++ (doc.discard.getD []).map tagString
  plist : d.plist = d0.plist ++ doc.defs.flatMap doc.defOps ++ fixedOps
  constants : ∀ i c, constantNames[i]? = some c → mapFind d.constants c = some (doc.tags.length + i)

end Verif.Tsx
