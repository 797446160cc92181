import Verif.Tagger.BaumWelch
/-!
# What Baum–Welch training should compute (C52): expected counts over all tag sequences

Independent of the forward and backward recursions: sums over all sequences of tags.
-/
namespace Verif.Tagger.Train

/-- All choices of one tag per word. -/
def paths : List Tags → List (List Nat)
  | [] => [[]]
  | T :: r => T.flatMap fun t => (paths r).map (t :: ·)

/-- The probability of tags for the words `seg`, after the tag `prev`: the product of the transition and emission
probabilities. -/
def weight (p : BW) : Nat → List Tags → List Nat → ℚ
  | prev, T :: r, t :: q => p.A prev t * p.B t (p.num T) * weight p t r q
  | _, _, _ => 1

/-- The expected value of `f` over the sequences of tags of `seg` after the tag `start`, given the words. -/
def expect (p : BW) (start : Nat) (seg : List Tags) (f : List Nat → ℚ) : ℚ :=
  ((paths seg).map fun q => weight p start seg q * f q).sum / ((paths seg).map fun q => weight p start seg q).sum

/-- The text cut after each unambiguous word: each piece with the tag before it.  Words after the last unambiguous one are
left out.  `acc`: the words since the last cut. -/
def pieces : Nat → List Tags → List Tags → List (Nat × List Tags)
  | _, _, [] => []
  | start, acc, [t] :: r => (start, acc ++ [[t]]) :: pieces t [] r
  | start, acc, T :: r => pieces start (acc ++ [T]) r

/-- The expected number of transitions from `i` to `j` in the text. -/
def expTransitions (p : BW) (ps : List (Nat × List Tags)) (i j : Nat) : ℚ :=
  (ps.map fun x => expect p x.1 x.2 fun q => (((x.1 :: q).zip q).count (i, j) : Nat)).sum

/-- The expected number of words with tag `i`. -/
def expTags (p : BW) (ps : List (Nat × List Tags)) (i : Nat) : ℚ :=
  (ps.map fun x => expect p x.1 x.2 fun q => (q.count i : Nat)).sum

/-- The expected number of words of class `k` with tag `i`. -/
def expEmissions (p : BW) (ps : List (Nat × List Tags)) (i k : Nat) : ℚ :=
  (ps.map fun x => expect p x.1 x.2 fun q => ((q.zip (x.2.map p.num)).count (i, k) : Nat)).sum

end Verif.Tagger.Train
