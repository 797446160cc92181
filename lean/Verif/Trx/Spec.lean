import Verif.Trx.Model
/-!
# What a file of rules says

`File` is what the author of the rules means; `Writes` says which trees are a way to write it, by the document types `transfer.dtd`, `interchunk.dtd` and `postchunk.dtd`, with text and
comments between the elements, other attributes, and empty elements in either form.  What is in a macro and in an action is any tree.
-/
namespace Verif.Trx
open Verif.Pattern (CatItem)

/-- The attributes of a `cat-item`. -/
structure Item where
  lem : Text
  tags : Text
  name : Text

/-- A file of rules.  Macros: the name and the element `def-macro`.  Rules: the names of the categories of the pattern, and the element `action`. -/
structure File where
  cats : List (Text × List Item)
  attrs : List (Text × List Text) := []
  vars : List (Text × Text) := []
  lists : List (Text × List Text) := []
  macros : List (Text × Tree) := []
  rules : List (List Text × Tree)

/-- The value of an attribute, empty if it is not there. -/
def attr (a : List (Text × Text)) (k : Text) : Text := (find a k).getD []

/-- Text and comments only. -/
def Blank (ts : List Tree) : Prop := ∀ t ∈ ts, ∃ c, t = .text c

/-- Things written one after another, with text and comments between them. -/
inductive Rows {α : Type} (R : α → Tree → Prop) : List α → List Tree → Prop where
  | nil : Rows R [] []
  | gap {as ts} (c : Bool) : Rows R as ts → Rows R as (.text c :: ts)
  | cons {a as t ts} : R a t → Rows R as ts → Rows R (a :: as) (t :: ts)

/-- An element without content. -/
def WEmpty (x : Text) (p : List (Text × Text) → Prop) (t : Tree) : Prop :=
  ∃ a short kids, t = .elem x a short kids ∧ p a ∧ Blank kids ∧ (short = true → kids = [])

/-- An element with content. -/
def WElem (x : Text) (p : List (Text × Text) → Prop) (K : List Tree → Prop) (t : Tree) : Prop := ∃ a kids, t = .elem x a false kids ∧ p a ∧ K kids

def WItem (i : Item) : Tree → Prop := WEmpty t!"cat-item" fun a => attr a t!"lemma" = i.lem ∧ attr a t!"tags" = i.tags ∧ attr a t!"name" = i.name
def WCat (c : Text × List Item) : Tree → Prop := WElem t!"def-cat" (fun a => attr a t!"n" = c.1) (Rows WItem c.2)
def WAttr (c : Text × List Text) : Tree → Prop := WElem t!"def-attr" (fun a => attr a t!"n" = c.1) (Rows (fun v => WEmpty t!"attr-item" fun a => attr a t!"tags" = v) c.2)
def WVar (c : Text × Text) : Tree → Prop := WEmpty t!"def-var" fun a => attr a t!"n" = c.1 ∧ attr a t!"v" = c.2
def WList (c : Text × List Text) : Tree → Prop := WElem t!"def-list" (fun a => attr a t!"n" = c.1) (Rows (fun v => WEmpty t!"list-item" fun a => attr a t!"v" = v) c.2)

mutual
/-- The elements in a tree, with itself. -/
def Tree.subs : Tree → List Tree
  | .text _ => []
  | .elem x a s kids => .elem x a s kids :: subsAll kids
def subsAll : List Tree → List Tree
  | [] => []
  | t :: ts => t.subs ++ subsAll ts
end

/-- Nothing is in an element that is written `<x/>`. -/
def Tree.Proper : Tree → Prop
  | .elem _ _ true kids => kids = []
  | _ => True

def WMacro (c : Text × Tree) (t : Tree) : Prop :=
  t = c.2 ∧ ∃ a short kids, t = .elem t!"def-macro" a short kids ∧ attr a t!"n" = c.1 ∧ t.Proper ∧
    ∀ s ∈ subsAll kids, s.name ≠ t!"def-macro" ∧ s.name ≠ t!"section-def-macros" ∧ s.Proper

/-- What can be in an action: no rules and patterns (and a name has no `#`); a `let` is not empty. -/
def InAction (s : Tree) : Prop :=
  s.name ∉ [t!"rule", t!"pattern", t!"pattern-item", t!"section-rules", t!"#text", t!"#comment"] ∧ s.Proper ∧ (s.name = t!"let" → s.children ≠ [])

def WPattern (ns : List Text) : Tree → Prop := WElem t!"pattern" (fun _ => True) (Rows (fun v => WEmpty t!"pattern-item" fun a => attr a t!"n" = v) ns)

def WRule (c : List Text × Tree) : Tree → Prop :=
  WElem t!"rule" (fun _ => True) fun kids => ∃ g p g' g'', kids = g ++ p :: g' ++ c.2 :: g'' ∧ Blank g ∧ Blank g' ∧ Blank g'' ∧ WPattern c.1 p ∧ c.2.name = t!"action" ∧
    (∀ s ∈ c.2.subs, InAction s) ∧ c.2.subs ≠ []

/-- A section, and what comes before the next one. -/
def Sec {α : Type} (x : Text) (R : α → Tree → Prop) (as : List α) (ts : List Tree) : Prop := ∃ a kids g, ts = .elem x a false kids :: g ∧ Rows R as kids ∧ Blank g

/-- A section that can be missing. -/
def OptSec {α : Type} (x : Text) (R : α → Tree → Prop) (as : List α) (ts : List Tree) : Prop := (as = [] ∧ ts = []) ∨ Sec x R as ts

/-- The tree is a way to write the file. -/
def Writes (f : File) (root : Tree) : Prop :=
  ∃ x a g t1 t2 t3 t4 t5 t6, root = .elem x a false (g ++ t1 ++ t2 ++ t3 ++ t4 ++ t5 ++ t6) ∧ x ∈ [t!"transfer", t!"interchunk", t!"postchunk"] ∧ Blank g ∧
    Sec t!"section-def-cats" WCat f.cats t1 ∧ OptSec t!"section-def-attrs" WAttr f.attrs t2 ∧ OptSec t!"section-def-vars" WVar f.vars t3 ∧
    OptSec t!"section-def-lists" WList f.lists t4 ∧ OptSec t!"section-def-macros" WMacro f.macros t5 ∧ Sec t!"section-rules" WRule f.rules t6

/-! ### Meaning -/

/-- The last definition of `k` gives it the value `v`. -/
def Last {α : Type} (l : List (Text × α)) (k : Text) (v : α) : Prop := ∃ pre post, l = pre ++ (k, v) :: post ∧ ∀ e ∈ post, e.1 ≠ k

/-- The items of the categories for C72. -/
def File.categories (env : Env) (f : File) : List (Text × List CatItem) :=
  f.cats.map fun c => (c.1, c.2.map fun i => { lem := i.lem, tags := if i.tags = [] then [] else env.split i.tags, name := i.name })

/-- The part of a word with this name is defined, in the file or from the beginning. -/
def File.HasPart (f : File) (p : Text) : Prop := p ∈ f.attrs.map (·.1) ∨ p ∈ [t!"lem", t!"lemq", t!"lemh", t!"whole", t!"tags", t!"chname", t!"chcontent", t!"content"]

/-- The elements `clip` of the rules have a part that is defined. -/
def File.ClipsDefined (f : File) : Prop :=
  ∀ r ∈ f.rules, ∀ s ∈ r.2.subs, ∀ a sh kids, s = .elem t!"clip" a sh kids → attr a t!"part" ≠ [] ∧ f.HasPart (attr a t!"part")

/-- What makes a file acceptable: each macro is defined once, the parts can be compiled, the categories of the patterns are there (see C72), the clips are defined. -/
def File.Good (env : Env) (f : File) : Prop :=
  (f.macros.map (·.1)).Nodup ∧ (∀ c ∈ f.attrs, env.compiles (Regex.optimizeRegex c.2) = true) ∧
    (Pattern.compile env.minimize (f.categories env) (f.rules.map (·.1))).isSome = true ∧ f.ClipsDefined

/-- In this tree is an element `x` whose attribute `k` is `n`. -/
def Uses (x k n : Text) (t : Tree) : Prop := ∃ a sh kids, Tree.elem x a sh kids ∈ t.subs ∧ attr a k = n

/-- The parts that every file has (see `Parts` for what they mean). -/
def builtin : List (Text × Text) :=
  [(t!"lem", t!"^(([^<]|\"\\<\")+)"), (t!"lemq", t!"\\#[- _][^<]+"), (t!"lemh", t!"^(([^<#]|\"\\<\"|\"\\#\")+)"), (t!"whole", t!"(.+)"), (t!"tags", t!"((<[^>]+>)+)"),
    (t!"chname", t!"(\\{([^/]+)\\/)"), (t!"chcontent", t!"(\\{.+)"), (t!"content", t!"(\\{.+)")]

/-- The tables (of the compiler, or of a transfer program) say what the file says: the last definition of a variable, of a part (as the regular expression for its items) or else the
builtin one; the items of all the lists with a name; the element that is run for the name of a macro. -/
structure Says (f : File) (root : Tree) (attrs vars : List (Text × Text)) (lists : List (Text × List Text)) (macros : List (Text × Nat)) : Prop where
  vars : ∀ k v, find vars k = some v ↔ Last f.vars k v
  parts : ∀ k r, find attrs k = some r ↔ (∃ items, Last f.attrs k items ∧ r = Regex.optimizeRegex items) ∨ (k ∉ f.attrs.map (·.1) ∧ (k, r) ∈ builtin)
  lists : ∀ k v, v ∈ (find lists k).getD [] ↔ ∃ l, (k, l) ∈ f.lists ∧ v ∈ l
  macros : ∀ n t, (n, t) ∈ f.macros → macroOf macros root n = some t

end Verif.Trx
