import Verif.Pattern.Model
/-!
# What patterns should mean

Independent of the transducers: which words a category matches, and which rule is used for a sequence of words.
-/
namespace Verif.Pattern

/-- A sequence against a pattern, in which `none` stands for one or more things. -/
inductive Glob {α : Type} : List (Option α) → List α → Prop where
  | nil : Glob [] []
  | one {a : α} {p : List (Option α)} {s : List α} : Glob p s → Glob (some a :: p) (a :: s)
  | many {p : List (Option α)} {r s : List α} : r ≠ [] → Glob p s → Glob (none :: p) (r ++ s)

/-- A word: its lemma in lower case and its tags, with their brackets. -/
structure Word where
  lem : Text
  tags : List Text

/-- A lemma in which `*` stands for one or more characters; an empty one is `*`. -/
def lemmaPat (l : Text) : List (Option Char) :=
  if l = [] then [none] else l.map (fun c => if c = '*' then none else some c)

/-- Tags in which `*` stands for one or more tags. -/
def tagsPat (ts : List Text) : List (Option Text) :=
  ts.map (fun t => if t = t!"*" then none else some (t!"<" ++ t ++ t!">"))

/-- A word fits an item of a category. -/
def CatItem.Fits (i : CatItem) (w : Word) : Prop :=
  if i.tags ≠ [] then Glob (lemmaPat i.lem) w.lem ∧ Glob (tagsPat i.tags) w.tags
  else Glob (lemmaPat i.name) w.lem ∧ w.tags = []

/-- The items of the category `n`: of several definitions the last one counts. -/
def Defined (cats : List (Text × List CatItem)) (n : Text) (is : List CatItem) : Prop :=
  ∃ before after, cats = before ++ (n, is) :: after ∧ ∀ c ∈ after, c.1 ≠ n

/-- The words `ws` fit the pattern `ns` of a rule: there are as many, and each fits an item of its category. -/
def Fits (cats : List (Text × List CatItem)) (ns : List Text) (ws : List Word) : Prop :=
  ns.length = ws.length ∧ ∀ i (h : i < ns.length) (h' : i < ws.length), ∃ is, Defined cats ns[i] is ∧ ∃ it ∈ is, it.Fits ws[i]

/-- What the program reads of a word. -/
def Word.events (w : Word) : List Bil.Step := w.lem.map .char ++ w.tags.map .tag

/-- What was read of the words fits the pattern `ns`. -/
def FitsRead (cats : List (Text × List CatItem)) (ns : List Text) (ess : List (List Bil.Step)) : Prop :=
  ∃ ws : List Word, ess = ws.map Word.events ∧ Fits cats ns ws

/-- `r` is the number of the first rule whose pattern the words fit. -/
def FirstRule (cats : List (Text × List CatItem)) (rules : List (List Text)) (ess : List (List Bil.Step)) (r : Nat) : Prop :=
  (∃ k ns, r = k + 1 ∧ rules[k]? = some ns ∧ FitsRead cats ns ess) ∧ ∀ k ns, k + 1 < r → rules[k]? = some ns → ¬ FitsRead cats ns ess

/-- No two stars that follow each other. -/
def NoDouble {α : Type} : List (Option α) → Prop
  | none :: none :: _ => False
  | _ :: p => NoDouble p
  | [] => True

def decNoDouble {α : Type} : (p : List (Option α)) → Decidable (NoDouble p)
  | [] => isTrue trivial
  | none :: none :: _ => isFalse (fun h => h)
  | some _ :: p => decNoDouble p
  | [none] => isTrue trivial
  | none :: some a :: p => decNoDouble (some a :: p)

instance {α : Type} (p : List (Option α)) : Decidable (NoDouble p) := decNoDouble p

/-- What is assumed of the items: no backslash, no `$` and no two stars that follow each other in a lemma or name, no two stars that follow each other in
tags, and no tag with one of the two names the program uses itself. -/
structure CatItem.Plain (i : CatItem) : Prop where
  lem : '\\' ∉ i.lem ∧ '$' ∉ i.lem ∧ NoDouble (lemmaPat i.lem)
  name : '\\' ∉ i.name ∧ '$' ∉ i.name ∧ NoDouble (lemmaPat i.name)
  tags : NoDouble (tagsPat i.tags) ∧ t!"ANY_TAG" ∉ i.tags ∧ t!"ANY_CHAR" ∉ i.tags

/-! ## Automata -/

/-- A path that reads `s`. -/
inductive Path (E : List Edge) : Nat → List Sym → Nat → Prop where
  | nil (p : Nat) : Path E p [] p
  | eps {p q r : Nat} {s : List Sym} : (p, none, q) ∈ E → Path E q s r → Path E p s r
  | step {p q r : Nat} {a : Sym} {s : List Sym} : (p, some a, q) ∈ E → Path E q s r → Path E p (a :: s) r

/-- The transducer accepts `s`. -/
def Trans.Accepts (t : Trans) (s : List Sym) : Prop := ∃ f ∈ t.finals, Path t.edges t.initial s f

/-- What is assumed of `minimize` (lttoolbox): it accepts the same; it has no edge with an empty label, and no edge that is not part of a path from the initial
to a final state. -/
structure Minimal (t m : Trans) : Prop where
  same : ∀ s, m.Accepts s ↔ t.Accepts s
  initial : m.initial < m.next
  edges : ∀ e ∈ m.edges, e.1 < m.next ∧ e.2.2 < m.next
  finals : ∀ f ∈ m.finals, f < m.next
  noEmpty : ∀ e ∈ m.edges, e.2.1 ≠ none
  useful : ∀ e ∈ m.edges, ∃ u v f, Path m.edges m.initial u e.1 ∧ Path m.edges e.2.2 v f ∧ f ∈ m.finals

end Verif.Pattern
