import Verif.Tmx.Align
/-!
# Model of what the aligner does with the trail (tmx_trail_postprocessors.cc, tmx_aligner_tool.cc:285-418)

The scores of segments (`scoreSegmentum`, tmx_trail_postprocessors.cc:60-108) and the choice that `spaceOutBySentenceLength` makes from the lengths (with logarithms) are
parameters.
-/
namespace Verif.Tmx

abbrev Point := Nat × Nat

/-- `oneToOne` (tmx_alignment.cc:346-353): are the points `pos` and `pos + 1` one sentence apart in both books? -/
def oneToOne (t : List Point) (pos : Nat) : Prop :=
  (t.getD (pos + 1) (0, 0)).1 = (t.getD pos (0, 0)).1 + 1 ∧ (t.getD (pos + 1) (0, 0)).2 = (t.getD pos (0, 0)).2 + 1
instance (t : List Point) (pos : Nat) : Decidable (oneToOne t pos) := by unfold oneToOne; infer_instance

/-- `removeRundles` (tmx_trail_postprocessors.cc:127-140); `i` is the index of the head. -/
def removeFrom (kill : List Nat) : Nat → List Point → List Point
  | _, [] => []
  | i, p :: t => if i ∈ kill then removeFrom kill (i + 1) t else p :: removeFrom kill (i + 1) t

def removeRundles (kill : List Nat) (t : List Point) : List Point := removeFrom kill 0 t

/-- `window` -/
def window : Nat := 10

/-- The positions of the loops `for ( int pos=1; pos<trailSize-1-window; ++pos )` (there are none if the trail is shorter). -/
def positions (t : List Point) : List Nat := (List.range (t.length - 1 - window)).filter fun pos => 1 ≤ pos

/-- The loop that inserts into `rundlesToKill` for a position (e.g. tmx_trail_postprocessors.cc:287-290). -/
def killAt (t : List Point) (pos : Nat) : List Nat := (List.range (pos + window)).filter fun j => pos ≤ j ∧ j < t.length - 1

/-- Is the average of the window too small? `score` is `scoreSegmentum`. -/
def lowScore (score : Point → Point → ℚ) (threshold : ℚ) (t : List Point) (pos : Nat) : Bool :=
  decide (score (t.getD pos (0, 0)) (t.getD (pos + window) (0, 0)) < threshold)

/-- `postprocessTrailStart` (tmx_trail_postprocessors.cc:265-299): up to the first good position. -/
def postprocessTrailStart (score : Point → Point → ℚ) (threshold : ℚ) (t : List Point) : List Point :=
  removeRundles (((positions t).takeWhile (lowScore score threshold t)).flatMap (killAt t)) t

/-- `postprocessTrailEnd` (tmx_trail_postprocessors.cc:304-338): the same from the end. -/
def postprocessTrailEnd (score : Point → Point → ℚ) (threshold : ℚ) (t : List Point) : List Point :=
  removeRundles (((positions t).reverse.takeWhile (lowScore score threshold t)).flatMap (killAt t)) t

/-- `postprocessTrail` (tmx_trail_postprocessors.cc:352-380): all bad positions. -/
def postprocessTrail (score : Point → Point → ℚ) (threshold : ℚ) (t : List Point) : List Point :=
  removeRundles (((positions t).filter (lowScore score threshold t)).flatMap (killAt t)) t

/-- The share of one-to-one segments in the window (tmx_trail_postprocessors.cc:394-401). -/
def oneToOneShare (t : List Point) (pos : Nat) : ℚ :=
  (((List.range window).filter fun j => oneToOne t (pos + j)).length : ℚ) / 10

/-- `postprocessTrailByTopology` (tmx_trail_postprocessors.cc:384-419). -/
def postprocessTrailByTopology (threshold : ℚ) (t : List Point) : List Point :=
  removeRundles (((positions t).filter fun pos => decide (oneToOneShare t pos < threshold)).flatMap (killAt t)) t

/-- What `spaceOutBySentenceLength` does with a hole: nothing, erase the point before it or the one after it. -/
inductive Act where
  | keep | left | right
  deriving DecidableEq, Repr

/-- The loop of `spaceOutBySentenceLength` (tmx_trail_postprocessors.cc:183-259); `act` is what it chooses from the points `i-1` to `i+2` (lines 191-249).  Every round
makes the rest of the trail shorter or `i` larger, `n` is more than the length.  `none`: the read behind the end of a trail with one point (`size()-2` is a huge number). -/
def spaceOutLoop (act : Point → Point → Point → Point → Act) : Nat → Nat → List Point → Option (List Point)
  | 0, _, t => some t
  | n + 1, i, t =>
    if t.length < 2 then none
    else if i < t.length - 2 then
      match act (t.getD (i - 1) (0, 0)) (t.getD i (0, 0)) (t.getD (i + 1) (0, 0)) (t.getD (i + 2) (0, 0)) with
      | .keep => spaceOutLoop act n (i + 1) t
      | .left => spaceOutLoop act n i (t.eraseIdx i)
      | .right => spaceOutLoop act n i (t.eraseIdx (i + 1))
    else some t

def spaceOut (act : Point → Point → Point → Point → Act) (t : List Point) : Option (List Point) := spaceOutLoop act (t.length + 1) 1 t

/-- `cautiouslyFilterTrail` (tmx_trail_postprocessors.cc:149-168). -/
def cautiouslyFilterTrail (t : List Point) : List Point :=
  ((List.range (t.length - 1)).filter fun pos => pos = 0 ∨ oneToOne t (pos - 1) ∧ oneToOne t pos).map fun pos => t.getD pos (0, 0)

/-- `filterTrailByQuality` (tmx_trail_postprocessors.cc:445-461), for a trail that is not empty. -/
def filterTrailByQuality (score : Point → Point → ℚ) (threshold : ℚ) (t : List Point) : List Point :=
  t.getD 0 (0, 0) ::
    (((List.range (t.length - 1)).filter fun i => 1 ≤ i ∧ score (t.getD i (0, 0)) (t.getD (i + 1) (0, 0)) ≥ threshold).map fun i => t.getD i (0, 0)) ++
    [t.getD (t.length - 1) (0, 0)]

/-- The options (tmx_aligner_tool.cc: `AlignParameters`); a threshold that is not used is `none` (in the code: -1). -/
structure Options where
  ppthresh : Option ℚ
  headerthresh : Option ℚ
  topothresh : Option ℚ
  cautious : Bool
  thresh : ℚ

/-- The parameters of the model. -/
structure Choices where
  score : Point → Point → ℚ
  act : Point → Point → Point → Point → Act

/-- The trail after the optional filters (tmx_aligner_tool.cc:285-301). -/
def prune (o : Options) (c : Choices) (t : List Point) : List Point :=
  let t := match o.ppthresh with | some x => postprocessTrail c.score x t | none => t
  let t := match o.headerthresh with | some x => postprocessTrailEnd c.score x (postprocessTrailStart c.score x t) | none => t
  match o.topothresh with | some x => postprocessTrailByTopology x t | none => t

/-- The trail before the output (tmx_aligner_tool.cc:285-317). -/
def finish (o : Options) (c : Choices) (t : List Point) : Option (List Point) :=
  (spaceOut c.act (prune o c t)).map fun t => if o.cautious then cautiouslyFilterTrail t else t

/-- The segments of a trail: the sentences that are written in a line (tmx_aligner_tool.cc:374-412, with `-text`; the score at the end of the line is left out). -/
def segments {α : Type} (hu en : List α) (t : List Point) : List (List α × List α) :=
  (List.range (t.length - 1)).map fun i =>
    let p := t.getD i (0, 0)
    let q := t.getD (i + 1) (0, 0)
    ((hu.drop p.1).take (q.1 - p.1), (en.drop p.2).take (q.2 - p.2))

/-- The output with `-text` and without `-bisent` (tmx_aligner_tool.cc:372-412): the lines. -/
def writeText {α : Type} (o : Options) (c : Choices) (hu en : List α) (t : List Point) : Option (List (List α × List α)) :=
  (finish o c t).map fun t => segments hu en (filterTrailByQuality c.score o.thresh t)

/-- `trailToBisentenceList` (tmx_alignment.cc:397-411). -/
def bisentences (t : List Point) : List Point :=
  ((List.range (t.length - 1)).filter fun pos => oneToOne t pos).map fun pos => t.getD pos (0, 0)

/-- `filterBisentenceListByQuality` (tmx_trail_postprocessors.cc:463-479); `cell` is the score of a pair, from the matrix. -/
def filterBisentences (cell : Point → ℚ) (threshold : ℚ) (l : List Point) : List Point := l.filter fun p => decide (cell p ≥ threshold)

/-- The pairs that are written with `-bisent` (tmx_aligner_tool.cc:326-363), as positions. -/
def writeBisent (o : Options) (c : Choices) (cell : Point → ℚ) (t : List Point) : Option (List Point) :=
  (finish o c t).map fun t => filterBisentences cell o.thresh (bisentences t)

end Verif.Tmx
