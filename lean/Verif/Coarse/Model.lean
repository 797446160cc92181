import Verif.Tagger.Stream
import Verif.Unigram.Stream
/-!
# The coarse tags of the perceptron tagger

`TaggerDataPercepCoarseTags::coarsen` finds the coarse tag of a morpheme with the patterns of the tagger definition, and `PerceptronSpec::coarsen` keeps what it found.
-/
namespace Verif.Coarse
open Verif.Unigram (Morpheme)
open Verif.Tagger (PMatcher)

/-- What `TaggerDataPercepCoarseTags` holds: the recogniser (`plist`), which fine tags its alphabet has, the names of the coarse tags and the number of `TAG_kUNDEF`.
Simplification: that tag is always there (the code takes the number behind an iterator that it does not check). -/
structure Data where
  m : PMatcher
  known : Text → Bool
  names : List Text
  kundef : Nat

/-- tagger_data_percep_coarse_tags.cc:66-69: a fine tag with its brackets. -/
def angled (t : Text) : Text := '<' :: t ++ ['>']

/-- tagger_data_percep_coarse_tags.cc:58-62: the steps for the lemma. -/
def lemmaSteps (m : PMatcher) (s : m.S) : Text → m.S
  | [] => s
  | c :: r => lemmaSteps m (m.char s c) r

/-- tagger_data_percep_coarse_tags.cc:64-74: the steps for the fine tags; one that the alphabet does not have makes no step. -/
def tagSteps (d : Data) (s : d.m.S) : List Text → d.m.S
  | [] => s
  | t :: ts => tagSteps d (if d.known (angled t) = true then d.m.tag s (angled t) else s) ts

/-- `TaggerDataPercepCoarseTags::coarsen` (tagger_data_percep_coarse_tags.cc:47-82); a number without a name is read outside the array. -/
def coarsen (d : Data) (w : Morpheme) : Outcome Text :=
  match d.names[(d.m.fin (tagSteps d (lemmaSteps d.m d.m.init w.lemma) w.tags)).getD d.kundef]? with
  | some x => .ok x
  | none => .ub

/-- `coarsen_cache` (perceptron_spec.h): the names by morpheme. -/
abbrev Cache := List (Morpheme × Text)

/-- `coarsen_cache.find` (perceptron_spec.cc:164). -/
def look (w : Morpheme) : Cache → Option Text
  | [] => none
  | e :: r => if e.1 = w then some e.2 else look w r

/-- `PerceptronSpec::coarsen` (perceptron_spec.cc:161-173).  Simplification: the name is a text, not its UTF-8. -/
def ask (d : Data) (k : Cache) (w : Morpheme) : Outcome (Text × Cache) :=
  match look w k with
  | some x => .ok (x, k)
  | none => (coarsen d w).bind fun x => .ok (x, (w, x) :: k)

/-- The calls of a tagger: a morpheme is looked up (perceptron_spec.cc:500, 514), or the cache is emptied (`clearCache`, perceptron_spec.cc:175-178, called after each sentence,
perceptron_tagger.cc:97, 257). -/
inductive Call where
  | ask (w : Morpheme)
  | clear

/-- The answers to a history of calls. -/
def answers (d : Data) : Cache → List Call → Outcome (List Text)
  | _, [] => .ok []
  | k, .ask w :: cs => (ask d k w).bind fun x => (answers d x.2 cs).bind fun ys => .ok (x.1 :: ys)
  | _, .clear :: cs => answers d [] cs

/-- The string of one analysis (perceptron_spec.cc:511-524): the names of its morphemes with `+` between them; without morphemes the loop reads past the end. -/
def joined (d : Data) (k : Cache) : List Morpheme → Outcome (Text × Cache)
  | [] => .ub
  | [w] => ask d k w
  | w :: ws => (ask d k w).bind fun x => (joined d x.2 ws).bind fun y => .ok (x.1 ++ '+' :: y.1, y.2)

/-- `EXAMBGSET` (perceptron_spec.cc:504-527). -/
def ambgset (d : Data) (k : Cache) : List (List Morpheme) → Outcome (List Text × Cache)
  | [] => .ok ([], k)
  | a :: as => (joined d k a).bind fun x => (ambgset d x.2 as).bind fun y => .ok (x.1 :: y.1, y.2)

end Verif.Coarse
