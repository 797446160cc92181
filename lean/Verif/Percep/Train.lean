import Verif.Percep.Beam
/-!
# Model of `PerceptronTagger::train`

`apertium/perceptron_tagger.cc:243-268`.  The weights that `trainSentence` reads are those that the averager updates
(`FeatureVecAverager avg_weights(weights)` keeps a reference).  The order in which `shuffle` leaves the sentences in each iteration is a parameter.
-/
namespace Verif.Percep
open Verif.Unigram

variable {κ : Type} [DecidableEq κ]

/-- `TrainingSentence`: the right analyses and the words. -/
abbrev Sentence := List (Option Analysis × LexicalUnit)

/-- `trainSentence` and what it does to the averager. -/
def trainOne (top : Nat → List (Item κ) → List (Item κ)) (beam : Nat) (ft : List LexicalUnit → Features κ) (skip : Bool)
    (s : Averager κ) (sent : Sentence) : Outcome (Averager κ) :=
  match trainSentence top beam s.weights (ft (sent.map Prod.snd)) sent with
  | .undefined => .ub
  | .unavailable => if skip then .ok s else .fail
  | t => .ok (run s t.ops)

/-- The loop on the sentences (perceptron_tagger.cc:255-258). -/
def trainAll (top : Nat → List (Item κ) → List (Item κ)) (beam : Nat) (ft : List LexicalUnit → Features κ) (skip : Bool) :
    Averager κ → List Sentence → Outcome (Averager κ)
  | s, [] => .ok s
  | s, sent :: ss => (trainOne top beam ft skip s sent).bind (fun s' => trainAll top beam ft skip s' ss)

/-- `train` (perceptron_tagger.cc:243-268): `orders` has the sentences of each iteration.  Without iterations `avail_skipped` is
read although it has no value. -/
def train (top : Nat → List (Item κ) → List (Item κ)) (beam : Nat) (ft : List LexicalUnit → Features κ) (skip : Bool)
    (w : Vec κ) (orders : List (List Sentence)) : Outcome (Vec κ) :=
  (trainAll top beam ft skip (start w) orders.flatten).bind
    (fun s => (average s).bind (fun w' => if orders = [] then .ub else .ok w'))

end Verif.Percep
