import Verif.Tagger.Classes
/-!
# The HMM tagger (Viterbi), apertium/hmm.cc:672-784

Probabilities.  The C++ type is `double`.  The model is parametric in a type of *non-negative weights* with a
total order, a least element zero, and a multiplication that is monotone in its left argument; nothing else (no
associativity, no distributivity) is used for the main theorem.  The non-negative doubles, NaN excluded, with the rounded
IEEE product have these properties, and so have exact non-negative rationals or reals.
-/
namespace Verif.Tagger

/-- Non-negative weights; see the head of this file. -/
class Weight (W : Type) where
  zero : W
  one : W
  mul : W → W → W
  le : W → W → Prop
  dec : ∀ a b, Decidable (le a b)
  total : ∀ a b, le a b ∨ le b a
  trans : ∀ a b c, le a b → le b c → le a c
  zero_le : ∀ a, le zero a
  mul_mono : ∀ a b c, le a b → le (mul a c) (mul b c)

instance (W : Type) [Weight W] (a b : W) : Decidable (Weight.le a b) := Weight.dec a b

/-- The matrices of the model and the end-of-sentence tag: `tdhmm.getA()`, `tdhmm.getB()`, `eos`.
Simplification: the matrices are total functions; C++ arrays have N×N and N×M entries (an access outside is
undefined behaviour; the model does not track it). -/
structure Params (W : Type) where
  A : Nat → Nat → W
  B : Nat → Nat → W
  eos : Nat

/-- What `get_next_word()` delivers, as far as `HMM::tagger` is concerned: an identity for the word (its text;
see `Verif.Tagger.Stream`), its set of tags, and the value of `getEndOfFile()` after the call. -/
structure Item (α : Type) where
  word : α
  tags : Tags
  eof : Bool

/-- What is written: a word with the tag chosen for it, or the NUL of null-flush mode. -/
inductive Ev (α : Type) where
  | word (w : α) (t : Nat)
  | nul
  deriving DecidableEq, Repr

/-- The local variables of `HMM::tagger`.  `alpha` and `best` have two rows, indexed by the parity of the number
of pending words; `out` is what has been written. -/
structure HSt (W α : Type) where
  alpha : Bool → Nat → W
  best : Bool → Nat → List Nat
  wpend : List α
  tags : Tags
  td : TD
  out : List (Ev α)

variable {W α : Type}

/-- `v[i] = x` -/
def upd {β : Type} (f : Nat → β) (i : Nat) (x : β) : Nat → β := fun j => if j = i then x else f j

/-- `m[b] = r` for one of the two rows -/
def updRow {β : Type} (f : Bool → β) (b : Bool) (x : β) : Bool → β := fun c => if c = b then x else f c

/-- hmm.cc:722-730: one pair (tag `i` of the word, tag `j` of the previous word).  `pa`, `pb` are the rows of the
previous word, the pair the rows being filled; `first` is `nwpend == 1`. -/
def relax [Weight W] (p : Params W) (k : Nat) (first : Bool) (pa : Nat → W) (pb : Nat → List Nat)
    (i : Nat) (ab : (Nat → W) × (Nat → List Nat)) (j : Nat) : (Nat → W) × (Nat → List Nat) :=
  let x := Weight.mul (Weight.mul (pa j) (p.A j i)) (p.B i k)
  if Weight.le (ab.1 i) x then
    (upd ab.1 i x, upd ab.2 i ((if first = true then ab.2 i else pb j) ++ [i]))
  else ab

/-- hmm.cc:719-732: the two nested loops. -/
def induct [Weight W] (p : Params W) (k : Nat) (first : Bool) (pa : Nat → W) (pb : Nat → List Nat)
    (tags pretags : Tags) : (Nat → W) × (Nat → List Nat) :=
  tags.foldl (fun ab i => pretags.foldl (relax p k first pa pb i) ab) (fun _ => Weight.zero, fun _ => [])

/-- hmm.cc:744-755: `best` is written out along `wpend`.  `none`: `best` is longer than `wpend`, an access out
of range. -/
def writeBest : List α → List Nat → Option (List (Ev α))
  | _, [] => some []
  | [], _ :: _ => none
  | w :: ws, t :: ts => (writeBest ws ts).map (Ev.word w t :: ·)

/-- The tags and the number of the ambiguity class used for a word, hmm.cc:707-714, and the tagger data
afterwards (see `findSimilar`). -/
def resolve (td : TD) (tags : Tags) : TD × Tags × Nat :=
  let tags' := if tags = [] then td.openClass else tags
  let (td1, cls) := requireSimilar td tags'
  let (o, k) := td1.output.add cls
  ({ td1 with output := o }, tags', k)

/-- One turn of the loop of `HMM::tagger`, hmm.cc:700-777.  `nf`: null-flush mode.  `none`: undefined
behaviour in `writeBest`. -/
def hmmStep [Weight W] (p : Params W) (nf : Bool) (s : HSt W α) (it : Item α) : Option (HSt W α) :=
  let wpend := s.wpend ++ [it.word]
  let pretags := s.tags
  let (td, tags, k) := resolve s.td it.tags
  let cur := decide (wpend.length % 2 = 1)
  let (a, b) := induct p k (decide (wpend.length = 1)) (s.alpha (!cur)) (s.best (!cur)) tags pretags
  let alpha := updRow s.alpha cur a
  let best := updRow s.best cur b
  let s1 : Option (HSt W α) :=
    match tags with
    | [tag] =>
      (writeBest wpend (best cur tag)).map fun o =>
        { alpha := updRow alpha false (upd (alpha false) tag Weight.one), best := best, wpend := [],
          tags := tags, td := td, out := s.out ++ o }
    | _ => some { alpha := alpha, best := best, wpend := wpend, tags := tags, td := td, out := s.out }
  s1.map fun s1 =>
    if it.eof = true ∧ nf = true then
      { s1 with out := s1.out ++ [.nul], tags := [p.eos],
                alpha := updRow s1.alpha false (upd (s1.alpha false) p.eos Weight.one) }
    else s1

/-- hmm.cc:694-696: the initial state. -/
def hmmInit [Weight W] (p : Params W) (td : TD) : HSt W α :=
  { alpha := updRow (fun _ _ => Weight.zero) false (upd (fun _ => Weight.zero) p.eos Weight.one),
    best := fun _ _ => [], wpend := [], tags := [p.eos], td := td, out := [] }

/-- `HMM::tagger`, hmm.cc:672-784, on the words delivered by the stream. -/
def hmmRun [Weight W] (p : Params W) (nf : Bool) : HSt W α → List (Item α) → Option (HSt W α)
  | s, [] => some s
  | s, it :: r => (hmmStep p nf s it).bind fun s' => hmmRun p nf s' r

/-- What `HMM::tagger` writes. -/
def hmmOut [Weight W] (p : Params W) (nf : Bool) (td : TD) (items : List (Item α)) : Option (List (Ev α)) :=
  (hmmRun p nf (hmmInit p td) items).map (·.out)

end Verif.Tagger
