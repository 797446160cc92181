import Verif.Tagger.Hmm
/-!
# What the HMM tagger should write (C19, C20)

Independent of the algorithm: a text is a list of words with their ambiguity classes; it falls into segments that
end at an unambiguous word; in each segment the tags written have maximal probability.
-/
namespace Verif.Tagger
variable {W α : Type}

/-- A word with its possible tags, the number of its ambiguity class in the emission matrix, and whether the
end-of-file mark was seen with it. -/
structure RItem (α : Type) where
  word : α
  tags : Tags
  cls : Nat
  eof : Bool

/-- The ambiguity classes of the words of a text, looked up in order. -/
def resolveAll : TD → List (Item α) → List (RItem α)
  | _, [] => []
  | td, it :: r =>
    let x := resolve td it.tags
    { word := it.word, tags := x.2.1, cls := x.2.2, eof := it.eof } :: resolveAll x.1 r

/-- The probability of the tags `ts` for words of classes `ks` after the tag `prev`, times `acc`: transitions
times emissions, multiplied from left to right. -/
def pathProb [Weight W] (p : Params W) : W → Nat → List (Nat × Nat) → W
  | acc, _, [] => acc
  | acc, prev, (t, k) :: r => pathProb p (Weight.mul (Weight.mul acc (p.A prev t)) (p.B t k)) t r

/-- `ts` chooses for each word of `seg` one of its tags. -/
inductive Choice : List (RItem α) → List Nat → Prop
  | nil : Choice [] []
  | cons {w : RItem α} {t : Nat} {seg : List (RItem α)} {ts : List Nat} :
      t ∈ w.tags → Choice seg ts → Choice (w :: seg) (t :: ts)

/-- The probability of `ts` for the words `seg`, after the tag `start`. -/
def prob [Weight W] (p : Params W) (start : Nat) (seg : List (RItem α)) (ts : List Nat) : W :=
  pathProb p Weight.one start (ts.zip (seg.map (·.cls)))

/-- `ts` is a most likely choice of tags for `seg` after `start`. -/
def Best [Weight W] (p : Params W) (start : Nat) (seg : List (RItem α)) (ts : List Nat) : Prop :=
  Choice seg ts ∧ ∀ ts', Choice seg ts' → Weight.le (prob p start seg ts') (prob p start seg ts)

/-- `Tagging p nf start text out`: `out` is a correct output for `text` when the preceding tag is `start`: cut
the text after each unambiguous word; each piece is written with most likely tags, a NUL follows a word with the
end-of-file mark in null-flush mode (and the tagger starts again after the end-of-sentence tag); ambiguous words
after the last unambiguous one are not written. -/
inductive Tagging [Weight W] (p : Params W) (nf : Bool) : Nat → List (RItem α) → List (Ev α) → Prop
  | pending (start : Nat) (seg : List (RItem α)) :
      (∀ w ∈ seg, w.tags.length ≠ 1) → Tagging p nf start seg []
  | segment (start : Nat) (seg : List (RItem α)) (w : RItem α) (tag : Nat) (rest : List (RItem α))
      (ts : List Nat) (out : List (Ev α)) :
      (∀ w ∈ seg, w.tags.length ≠ 1) → w.tags = [tag] → Best p start (seg ++ [w]) ts →
      Tagging p nf (if w.eof = true ∧ nf = true then p.eos else tag) rest out →
      Tagging p nf start (seg ++ w :: rest)
        (List.zipWith (fun x t => Ev.word x.word t) (seg ++ [w]) ts ++
          (if w.eof = true ∧ nf = true then [Ev.nul] else []) ++ out)

end Verif.Tagger
