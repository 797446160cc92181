import Verif.Tmx.Align
/-!
# What an alignment is, and its score

From the model only the inputs are used: `Book` (similarities, lengths, thickness), `closeness` and `skipScore` (how well the lengths of sentences fit, what a sentence
without partner costs) and the band of cells.
-/
namespace Verif.Tmx

/-- The pieces of an alignment that the program looks for: a pair of sentences, a sentence without partner, one sentence for two. -/
inductive Piece where
  | pair | huAlone | enAlone | oneTwo
  deriving DecidableEq, Repr

/-- The numbers of sentences. -/
def Piece.hu : Piece → Nat
  | .enAlone => 0
  | _ => 1
def Piece.en : Piece → Nat
  | .pair => 1
  | .huAlone => 0
  | .enAlone => 1
  | .oneTwo => 2

/-- The score of a piece that starts with the sentences `i` and `j`. -/
def Piece.score (b : Book) (i j : Nat) : Piece → ℚ
  | .pair => b.w i j + closeness (len b.hu i) (len b.en j)
  | .huAlone => skipScore
  | .enAlone => skipScore
  | .oneTwo => min (b.w i j) (b.w i (j + 1)) + skipScore + closeness (len b.en j + len b.en (j + 1) + 2) (len b.hu i)

/-- The points between the pieces of an alignment that starts at `(i, j)`. -/
def points (i j : Nat) : List Piece → List (Nat × Nat)
  | [] => [(i, j)]
  | p :: ps => (i, j) :: points (i + p.hu) (j + p.en) ps

/-- The total score. -/
def total (b : Book) (i j : Nat) : List Piece → ℚ
  | [] => 0
  | p :: ps => p.score b i j + total b (i + p.hu) (j + p.en) ps

/-- The alignments of both books that do not leave the band. -/
def Allowed (b : Book) (A : List Piece) : Prop :=
  (A.map Piece.hu).sum = b.hu.length ∧ (A.map Piece.en).sum = b.en.length ∧ ∀ p ∈ points 0 0 A, b.band.has p.1 p.2

/-- A point where one of the books has not begun. -/
def Border (p : Nat × Nat) : Prop := p.1 = 0 ∨ p.2 = 0

/-- The trail of an alignment: its points, from the last one on the border. -/
def TrailOf (A : List Piece) (t : List (Nat × Nat)) : Prop :=
  ∃ before p after, points 0 0 A = before ++ p :: after ∧ t = p :: after ∧ Border p ∧ ∀ q ∈ after, ¬ Border q

/-- The inputs: lengths are not negative, similarities and books not too big, and the band is thick enough: neighbouring rows overlap, the end is inside. -/
structure Sound (b : Book) : Prop where
  hu : ∀ x ∈ b.hu, 0 ≤ x
  en : ∀ x ∈ b.en, 0 ≤ x
  w : ∀ i j, b.w i j ≤ 1000000
  size : b.hu.length + b.en.length ≤ 3000000
  overlap : ∀ i, i < b.hu.length → b.band.start (i + 1) < b.band.stop i
  last : b.band.has b.hu.length b.en.length

end Verif.Tmx
