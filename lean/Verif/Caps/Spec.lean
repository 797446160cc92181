import Verif.Stream.Grammar
import Verif.Caps.Restore
/-!
# Specification of the extraction and the restoration of capitalisation

On streams as lists of items (`Verif.Stream.Item`), independent of the code: from the models only the parameters (`Auto`, `Casing`,
`Mark`) and the cutting of a word-bound blank at `; ` (`splitSemi`, `joinSemi`, from lttoolbox) are used.
-/
namespace Verif.Caps
open Verif.Stream

/-- The parts of the inside of a lexical unit: it is cut at every `/` that is not escaped. -/
def segs : List Atom → List (List Atom)
  | [] => [[]]
  | a :: as =>
    if a = .lit '/' then [] :: segs as
    else match segs as with
      | [] => [[a]]
      | s :: ss => (a :: s) :: ss

/-- The unit has a surface form and at least one analysis. -/
def analysed (b : List Atom) : Prop := 2 ≤ (segs b).length

instance (b : List Atom) : Decidable (analysed b) := by unfold analysed; infer_instance

/-- The part of an analysis whose case is recorded: up to the tags of its last word.  It is defined by what it is: `p` is followed
by `<` or by nothing, and what is in `p` after the last `>+` of the analysis has no `<`. -/
def UpToLastTags (reading p : Text) : Prop :=
  ∃ front last : Text,
    p = front ++ last ∧ '<' ∉ last ∧ (reading = p ∨ ∃ r, reading = p ++ '<' :: r) ∧
    (front = [] ∧ ¬ t!">+" <:+: reading ∨
     ∃ f r, front = f ++ t!">+" ∧ reading = front ++ r ∧ ¬ t!">+" <:+: r)

/-- What extraction makes of a unit with inside `b` after the word-bound blank `w` (`none`: there is none): the unit keeps its first
analysis (and, with `keep`, its surface form), and gets a piece at the end of its word-bound blank; `mark surface analysis` is that
piece.  (The second case, a unit without analysis, is excluded by the theorems.) -/
def extractedUnit (mark : Text → Text → Text) (keep : Bool) (w : Option (List Atom)) (b : List Atom) : Text :=
  match segs b with
  | s :: r :: _ =>
    t!"[[" ++ (w.map fun x => renderAtoms x ++ t!"; ").getD [] ++ mark (renderAtoms s) (renderAtoms r) ++ t!"]]" ++
      ['^'] ++ (if keep then renderAtoms s ++ ['/'] else []) ++ renderAtoms r ++ ['$']
  | _ => (w.map fun x => (Item.wopen x).render).getD [] ++ (Item.lu b).render

/-- What extraction makes of a stream, `w` is the word-bound blank directly before (`none`: there is none): everything
outside the units stays. -/
def extracted (mark : Text → Text → Text) (keep : Bool) : Option (List Atom) → List Item → Text
  | w, [] => (w.map fun x => (Item.wopen x).render).getD []
  | w, .lu b :: is => extractedUnit mark keep w b ++ extracted mark keep none is
  | w, .wopen x :: is => (w.map fun x => (Item.wopen x).render).getD [] ++ extracted mark keep (some x) is
  | w, i :: is => (w.map fun x => (Item.wopen x).render).getD [] ++ i.render ++ extracted mark keep none is

/-- No closing mark `[[/]]` stands directly before a unit. -/
def NoCloseUnit : List Item → Prop
  | [] => True
  | [_] => True
  | i :: j :: is => (i = .wclose → ∀ b, j ≠ .lu b) ∧ NoCloseUnit (j :: is)

/-- Every unit of the stream has an analysis. -/
def AllAnalysed (is : List Item) : Prop := ∀ b, Item.lu b ∈ is → analysed b

/-! ## Restoration -/

/-- Every tag `<..>` inside a unit is closed, and has no `/` (the flag: inside a tag). -/
def tagsOk : Bool → List Atom → Bool
  | m, [] => !m
  | m, a :: as =>
    if a = .lit '<' ∧ m = false then tagsOk true as
    else if a = .lit '>' ∧ m = true then tagsOk false as
    else if a = .lit '/' ∧ m = true then false
    else tagsOk m as

/-- Every tag of every unit is closed. -/
def TagsOk (is : List Item) : Prop := ∀ b, Item.lu b ∈ is → tagsOk false b = true

/-- The form of a unit `^form/surface$` (nothing in `^surface$`) and the surface form.  All parts after the first are the surface form. -/
def unitForm (b : List Atom) : Text :=
  match segs b with
  | [_] => []
  | s :: _ => renderAtoms s
  | [] => []

def unitSurf (b : List Atom) : Text :=
  match segs b with
  | [s] => renderAtoms s
  | _ :: ss => ss.flatMap renderAtoms
  | [] => []

/-- Is a piece of a word-bound blank about capitals? -/
def capsPiece (p : Text) : Prop := p.take 2 = t!"c:"
instance (p : Text) : Decidable (capsPiece p) := by unfold capsPiece; infer_instance

/-- After a piece about capitals there is no other piece. -/
def CapsLast : List Text → Prop
  | [] => True
  | p :: ps => (capsPiece p → ps = []) ∧ CapsLast ps

/-- The word-bound blank that is written: with `delete` the pieces about capitals are left out. -/
def keptWb (delete : Bool) (w : Option (List Atom)) : Text :=
  match w with
  | none => []
  | some x =>
    if delete then
      let k := joinSemi ((splitSemi [] (renderAtoms x)).filter fun p => decide (¬ capsPiece p))
      if k = [] then [] else t!"[[" ++ k ++ t!"]]"
    else t!"[[" ++ renderAtoms x ++ t!"]]"

/-- The case of the source word. -/
def sourceCase (w : Option (List Atom)) : Text :=
  match w with
  | none => t!"aa/aa"
  | some x =>
    match (splitSemi [] (renderAtoms x)).find? fun p => decide (capsPiece p) with
    | some p => p.drop 2
    | none => t!"aa/aa"

/-- The pieces about capitals are the last ones in all word-bound blanks (that is where extraction puts them). -/
def AllCapsLast (is : List Item) : Prop := ∀ x, Item.wopen x ∈ is → CapsLast (splitSemi [] (renderAtoms x))

/-- The four variants of a word: as the dictionary has it, in small letters, with a capital at the start, in capitals. -/
def variant (cs : Casing) (m : Mark) (t : Text) : Text :=
  if m = .aa then cs.lower t else if m = .Aa then cs.title t else if m = .AA then cs.upper t else t

/-- What is written for a unit, as variant `m`. -/
def unitOut (cs : Casing) (delete : Bool) (m : Mark) (w : Option (List Atom)) (b : List Atom) : Text :=
  if unitSurf b = [] then []
  else if keptWb delete w = [] then variant cs m (unitSurf b)
  else keptWb delete w ++ variant cs m (unitSurf b) ++ t!"[[/]]"

/-- The output of restoration: the text outside the units as it is and in the same order, every unit as its surface form in one of the
four variants, with the word-bound blank before it.  (A word-bound blank that is not directly before a unit vanishes.) -/
inductive Restored (cs : Casing) (delete : Bool) : Option (List Atom) → List Item → Text → Prop
  | nil {w} : Restored cs delete w [] []
  | txt {w a is o} : Restored cs delete none is o → Restored cs delete w (.txt a :: is) (a.render ++ o)
  | blank {w b is o} : Restored cs delete none is o → Restored cs delete w (.blank b :: is) ((Item.blank b).render ++ o)
  | nul {w is o} : Restored cs delete none is o → Restored cs delete w (.nul :: is) ('\x00' :: o)
  | wopen {w x is o} : Restored cs delete (some x) is o → Restored cs delete w (.wopen x :: is) o
  | wclose {w is o} : Restored cs delete (some [.lit '/']) is o → Restored cs delete w (.wclose :: is) o
  | lu {w b is o} (m : Mark) : m ≠ .skip → Restored cs delete none is o →
      Restored cs delete w (.lu b :: is) (unitOut cs delete m w b ++ o)

/-- The rules never give marks to more words than have been read since the start: `B n q` says that the state `q` gives marks to at most `n` words.  Only words
of which `ok` is true of form and surface form are considered. -/
structure Bounded {σ : Type} (A : Auto σ) (ok : Text → Text → Prop) (B : Nat → σ → Prop) : Prop where
  mono : ∀ n m q, n ≤ m → B n q → B m q
  start : B 0 A.start
  nullBoundary : B 0 (A.nullBoundary A.start)
  word : ∀ n q c f s, ok f s → B n q → B (n + 1) (A.word q c f s)
  wordBoundary : ∀ n q, B n q → B n (A.wordBoundary q)
  restart : ∀ n q, B n q → B n (A.restart q)
  paths : ∀ n q, B n q → ∀ p ∈ A.paths q, p.2.length ≤ n

/-! ### The variant chosen -/

/-- `m` has the greatest weight; if several have it, the first of `dix`, `aa`, `Aa`, `AA`. -/
def IsBest (f : Mark → Int) (m : Mark) : Prop :=
  ∃ before after, [.dix, .aa, .Aa, .AA] = before ++ m :: after ∧ (∀ x ∈ before, f x < f m) ∧ ∀ x ∈ after, f x ≤ f m

/-- A word of a stream: the text before it, its word-bound blank, its inside. -/
structure SWord where
  before : List Item
  wb : Option (List Atom)
  inside : List Atom

/-- Only characters and superblanks stand before a word. -/
def SWord.ok (w : SWord) : Prop := ∀ i ∈ w.before, (∃ a, i = .txt a) ∨ ∃ b, i = .blank b

def SWord.items (w : SWord) : List Item := w.before ++ (w.wb.map Item.wopen).toList ++ [.lu w.inside]

/-- The rules that match, without repetitions (`seen`: rules that were seen before). -/
def firstPaths : List Text → List (Text × List Mark) → List (Text × List Mark)
  | _, [] => []
  | seen, (r, p) :: ps => if r ∈ seen then firstPaths seen ps else (r, p) :: firstPaths (r :: seen) ps

/-- The weight that the matches `l`, which end at some word, give to mark `m` for the word `j` places before that one. -/
def hits {σ : Type} (A : Auto σ) (m : Mark) (j : Nat) (l : List (Text × List Mark)) : Int :=
  (l.map fun p => if p.2.reverse[j]? = some m then A.weight p.1 else 0).sum

/-- The weight that mark `m` gets for a word (`j = 0`), from the matches that end at it, at the next word, and so on. -/
def credit {σ : Type} (A : Auto σ) (m : Mark) : Nat → List (List (Text × List Mark)) → Int
  | _, [] => 0
  | j, l :: ls => hits A m j (firstPaths [] l) + credit A m (j + 1) ls

/-- The matches that end at each word, from state `q`. -/
def matchesAt {σ : Type} (A : Auto σ) : σ → List SWord → List (List (Text × List Mark))
  | _, [] => []
  | q, w :: ws =>
    let s := A.wordBoundary (A.word q (sourceCase w.wb) (unitForm w.inside) (unitSurf w.inside))
    A.paths s :: matchesAt A (if A.isEmpty s then A.start else A.restart s) ws

/-- The output for the words of a section, `ls` are the matches that end at each of them: every word is written as the variant for which
the rules that match it have the greatest total weight. -/
inductive Chosen {σ : Type} (A : Auto σ) (cs : Casing) (delete : Bool) : List SWord → List (List (Text × List Mark)) → Text → Prop
  | nil : Chosen A cs delete [] [] []
  | cons {w ws l ls m o} : IsBest (fun x => credit A x 0 (l :: ls)) m → Chosen A cs delete ws ls o →
      Chosen A cs delete (w :: ws) (l :: ls) (render w.before ++ unitOut cs delete m w.wb w.inside ++ o)

/-- The output for sections that end with NUL: each is treated alone. -/
inductive ChosenAll {σ : Type} (A : Auto σ) (cs : Casing) (delete : Bool) : List (List SWord) → Text → Prop
  | nil : ChosenAll A cs delete [] []
  | cons {ws rest o o'} : Chosen A cs delete ws (matchesAt A (A.nullBoundary A.start) ws) o → ChosenAll A cs delete rest o' →
      ChosenAll A cs delete (ws :: rest) (o ++ '\x00' :: o')

end Verif.Caps
