import Verif.Percep.Average
import Verif.Unigram.Stream
/-!
# Model of the perceptron tagger

`apertium/perceptron_tagger.cc`: `tagSentence` and `trainSentence`.  The feature templates (`PerceptronSpec::get_features`) are
a parameter: a function from the analyses chosen so far (the current word included), the index of the word and the index of
the morpheme to a list of features.  `std::partial_sort_copy` is a parameter too, of which only what the C++ standard promises
is assumed (`IsTop`): how it orders equal scores is not specified.
-/
namespace Verif.Percep
open Verif.Unigram

variable {κ : Type} [DecidableEq κ]

/-- `TaggedSentence`. -/
abbrev Tagged := List (Option Analysis)

/-- `get_features` for a sentence. -/
abbrev Features (κ : Type) := Tagged → Nat → Nat → List κ

/-- `TrainingAgendaItem` (perceptron_tagger.h:45-51).  `AgendaItem` is the same without `vec`, which tagging never reads. -/
structure Item (κ : Type) where
  tagged : Tagged
  score : ℚ
  vec : Vec κ
  deriving Repr, DecidableEq

/-- What `partial_sort_copy(new.begin(), new.end(), agenda.begin(), agenda.begin() + min(n, new.size()))` promises for
`operator<`, which compares the scores (perceptron_tagger.cc:84-89, 198-202, 318-321): the best `n` in descending order. -/
def IsTop (top : Nat → List (Item κ) → List (Item κ)) : Prop :=
  ∀ n l, (top n l).length = min n l.length ∧ (top n l).Pairwise (fun a b => b.score ≤ a.score) ∧
    ∃ rest, List.Perm (top n l ++ rest) l ∧ ∀ a ∈ top n l, ∀ b ∈ rest, b.score ≤ a.score

/-- The loop on the morphemes of an analysis (perceptron_tagger.cc:69-82, 167-178), from the morpheme `j` on, `n` of
them. -/
def wordoids (w : Vec κ) (ft : Features κ) (idx : Nat) : Nat → Nat → Item κ → Item κ
  | _, 0, it => it
  | j, n + 1, it =>
    let fs := ft it.tagged idx j
    wordoids w ft idx (j + 1) n { it with score := it.score + dotUnary w fs, vec := addUnary it.vec fs }

/-- An agenda item extended with an analysis. -/
def extend (w : Vec κ) (ft : Features κ) (idx : Nat) (it : Item κ) (a : Analysis) : Item κ :=
  wordoids w ft idx 0 a.morphemes.length { it with tagged := it.tagged ++ [some a] }

/-- The new agenda for an ambiguous word (perceptron_tagger.cc:61-84). -/
def expand (w : Vec κ) (ft : Features κ) (idx : Nat) (as : List Analysis) (agenda : List (Item κ)) : List (Item κ) :=
  agenda.flatMap (fun it => as.map (extend w ft idx it))

/-- `extendAgendaAll` (perceptron_tagger.cc:283-291). -/
def extendAll (a : Option Analysis) (agenda : List (Item κ)) : List (Item κ) :=
  agenda.map (fun it => { it with tagged := it.tagged ++ [a] })

/-- The loop on the words (perceptron_tagger.cc:46-95). -/
def tagLoop (top : Nat → List (Item κ) → List (Item κ)) (beam : Nat) (w : Vec κ) (ft : Features κ) :
    Nat → List LexicalUnit → List (Item κ) → List (Item κ)
  | _, [], agenda => agenda
  | idx, u :: us, agenda =>
    match u.analyses with
    | [] => tagLoop top beam w ft (idx + 1) us (extendAll none agenda)
    | [a] => tagLoop top beam w ft (idx + 1) us (extendAll (some a) agenda)
    | as => tagLoop top beam w ft (idx + 1) us (top beam (expand w ft idx as agenda))

/-- `tagSentence` (perceptron_tagger.cc:32-99): `agenda.front()` of an empty agenda is undefined. -/
def tagSentence (top : Nat → List (Item κ) → List (Item κ)) (beam : Nat) (w : Vec κ) (ft : Features κ)
    (us : List LexicalUnit) : Outcome Tagged :=
  match tagLoop top beam w ft 0 us [⟨[], 0, []⟩] with
  | [] => .ub
  | it :: _ => .ok it.tagged

/-! ### Training -/

/-- How training on a sentence ends: the right analysis is not available (an exception or, with `--skip-on-error`, the sentence
is skipped), an update with the vectors of the first item and of the right one, or no update. -/
inductive Trained (κ : Type) where
  | unavailable
  | update (first right : Vec κ)
  | same
  | undefined
  deriving Repr, DecidableEq

/-- The item that becomes `correct_sentence` (perceptron_tagger.cc:174-177): the last extension of the item `it` (to which `correct_agenda_it` points) with the
right analysis (if it has morphemes: the assignment is in the loop on the morphemes). -/
def rightItem (w : Vec κ) (ft : Features κ) (idx : Nat) (as : List Analysis) (gold : Analysis) (it : Item κ) : Option (Item κ) :=
  ((as.filter (fun a => decide (a = gold) && !decide (a.morphemes = []))).map (extend w ft idx it)).getLast?

/-- The index of the first item with the given analyses (perceptron_tagger.cc:205-212). -/
def findTagged (t : Tagged) : List (Item κ) → Option Nat
  | [] => none
  | it :: l => if it.tagged = t then some 0 else (findTagged t l).map (· + 1)

/-- The loop on the words (perceptron_tagger.cc:131-224) and the normal update (225-237).  `pos` is the index of
`correct_agenda_it`, `right` is `correct_sentence`. -/
def trainLoop (top : Nat → List (Item κ) → List (Item κ)) (beam : Nat) (w : Vec κ) (ft : Features κ) :
    Nat → List (Option Analysis × LexicalUnit) → List (Item κ) → Nat → Item κ → Trained κ
  | _, [], agenda, _, right =>
    match agenda with
    | [] => .undefined
    | first :: _ => if first.tagged ≠ right.tagged then .update first.vec right.vec else .same
  | idx, (gold, u) :: us, agenda, pos, right =>
    let right' := { right with tagged := right.tagged ++ [gold] }
    match gold with
    | none => trainLoop top beam w ft (idx + 1) us
        (extendAll (match u.analyses with | [a] => some a | _ => none) agenda) pos right'
    | some g =>
      match u.analyses with
      | [] => trainLoop top beam w ft (idx + 1) us (extendAll none agenda) pos right'
      | [a] => trainLoop top beam w ft (idx + 1) us (extendAll (some a) agenda) pos right'
      | as =>
        match agenda[pos]?.bind (rightItem w ft idx as g) with
        | none => .unavailable
        | some r =>
          let agenda' := top beam (expand w ft idx as agenda)
          match findTagged r.tagged agenda' with
          | some i => trainLoop top beam w ft (idx + 1) us agenda' i r
          | none =>
            match agenda' with
            | [] => .undefined
            | first :: _ => .update first.vec r.vec

/-- `trainSentence` (perceptron_tagger.cc:108-239). -/
def trainSentence (top : Nat → List (Item κ) → List (Item κ)) (beam : Nat) (w : Vec κ) (ft : Features κ)
    (s : List (Option Analysis × LexicalUnit)) : Trained κ :=
  trainLoop top beam w ft 0 s [⟨[], 0, []⟩] 0 ⟨[], 0, []⟩

/-- What an update does to the averager (perceptron_tagger.cc:218-220, 233-235). -/
def Trained.ops : Trained κ → List (Op κ)
  | .update first right => [.sub first, .add right, .inc]
  | _ => []

end Verif.Percep
