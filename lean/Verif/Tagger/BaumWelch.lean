import Verif.Tagger.Train
/-!
# Baum–Welch training, `HMM::train`, apertium/hmm.cc:445-670

Exact rational arithmetic instead of `double`; `tiny` stands for `DBL_MIN`.  Not modelled: the messages and the log
likelihood `loli` that is only printed.
-/
namespace Verif.Tagger.Train

/-- The parameters `tdhmm.getA()`, `tdhmm.getB()`, and `output[tags]`, the number of an ambiguity class
(`require_ambiguity_class` ends the program if there is none). -/
structure BW where
  A : Mat
  B : Mat
  num : Tags → Nat
  tiny : ℚ

/-- `map<int, map<int, double>> xsi, phi; map<int, double> gamma` (a missing entry is 0). -/
structure Counts where
  xsi : Mat
  gamma : Nat → ℚ
  phi : Mat

/-- `v[i] = x` -/
def setRow (v : Nat → ℚ) (i : Nat) (x : ℚ) : Nat → ℚ := fun j => if j = i then x else v j

/-- hmm.cc:505-518: the forward probabilities of a word with tags `tags`, class `k`; `prev` is `alpha[len-1]`.  The row is
empty at first (`alpha[len].clear()`). -/
def forwardRow (p : BW) (prev : Nat → ℚ) (pretags tags : Tags) (k : Nat) : Nat → ℚ :=
  tags.foldl (fun row i =>
    let row := pretags.foldl (fun row j => setRow row i (row i + prev j * p.A j i * p.B i k)) row
    if row i = 0 then setRow row i p.tiny else row) fun _ => 0

/-- hmm.cc:538-544: the inner loop of the backward pass for the pair `j`, `i`.  `bt` is `beta[t%2]`, the pair is
`beta[1-t%2]` and the counts; `prev` is `alpha[len-t-1]`. -/
def backPair (p : BW) (prob : ℚ) (prev bt : Nat → ℚ) (k i : Nat) (s : (Nat → ℚ) × Counts) (j : Nat) : (Nat → ℚ) × Counts :=
  (setRow s.1 j (s.1 j + p.A j i * p.B i k * bt i),
   { s.2 with xsi := setCell s.2.xsi j i (s.2.xsi j i + prev j * p.A j i * p.B i k * bt i / prob) })

/-- hmm.cc:536-566: one tag `i` of the word; `cur` is `alpha[len-t]`. -/
def backTag (p : BW) (prob : ℚ) (prev cur bt : Nat → ℚ) (k : Nat) (pretags : Tags) (s : (Nat → ℚ) × Counts) (i : Nat) :
    (Nat → ℚ) × Counts :=
  let s := pretags.foldl (backPair p prob prev bt k i) s
  let gamma := setRow s.2.gamma i (s.2.gamma i + cur i * bt i / prob)
  let gamma := if gamma i = 0 then setRow gamma i p.tiny else gamma
  (s.1, { s.2 with gamma := gamma, phi := setCell s.2.phi i k (s.2.phi i k + cur i * bt i / prob) })

/-- The loop of hmm.cc:532-568 from `t` on, `pending` as a stack (its last element first); `n` is `len - t`.  `beta` has two
rows, indexed by the parity of `t`. -/
def backLoop (p : BW) (prob : ℚ) (alpha : Nat → Nat → ℚ) : Nat → Nat → List Tags → Tags → (Nat → Nat → ℚ) → Counts → Counts
  | 0, _, _, _, _, c => c
  | _ + 1, _, [], _, _, c => c
  | n + 1, t, pretags :: pending, tags, beta, c =>
    let r := tags.foldl (backTag p prob (alpha n) (alpha (n + 1)) (beta (t % 2)) (p.num tags) pretags) (fun _ => 0, c)
    backLoop p prob alpha n (t + 1) pending pretags (fun b => if b = 1 - t % 2 then r.1 else beta b) r.2

/-- The variables of the main loop. -/
structure BSt where
  pending : List Tags
  alpha : Nat → Nat → ℚ
  counts : Counts

/-- One word, hmm.cc:483-578.  `openClass` replaces an empty set of tags.  Simplification: with an empty open class the code
would read the first element of an empty set; here nothing happens. -/
def bwStep (p : BW) (openClass : Tags) (s : BSt) (w : Tags) : BSt :=
  let tags := if w = [] then openClass else w
  let len := s.pending.length
  let row := forwardRow p (s.alpha (len - 1)) (s.pending.headD []) tags (p.num tags)
  let alpha := fun l => if l = len then row else s.alpha l
  match tags with
  | [tag] =>
    let beta : Nat → Nat → ℚ := fun b => if b = 0 then setRow (fun _ => 0) tag 1 else fun _ => 0
    { pending := [[tag]], alpha := fun l => if l = 0 then setRow (fun _ => 0) tag 1 else alpha l,
      counts := backLoop p (row tag) alpha len 0 s.pending tags beta s.counts }
  | _ => { s with pending := tags :: s.pending, alpha := alpha }

/-- The main loop, hmm.cc:464-582. -/
def bwCounts (p : BW) (openClass : Tags) (eos : Nat) (ws : List Tags) : Counts :=
  (ws.foldl (bwStep p openClass)
    { pending := [[eos]], alpha := fun l => if l = 0 then setRow (fun _ => 0) eos 1 else fun _ => 0,
      counts := { xsi := fun _ _ => 0, gamma := fun _ => 0, phi := fun _ _ => 0 } }).counts

/-- hmm.cc:595-625, before normalisation: `a[i][j]`. -/
def rawA (p : BW) (c : Counts) (i j : Nat) : ℚ :=
  if c.xsi i j > 0 then c.xsi i j / (if c.gamma i = 0 then p.tiny else c.gamma i) else ZERO

/-- hmm.cc:627-649: `b[i][k]`.  (If `gamma[i]` was 0 it has been set above; `phi` is then 0.) -/
def rawB (c : Counts) (i k : Nat) : ℚ := if c.phi i k > 0 then c.phi i k / c.gamma i else ZERO

/-- hmm.cc:651-668: normalisation; `cls k` is the class number `k`. -/
def newA (n : Nat) (p : BW) (c : Counts) (i j : Nat) : ℚ := rawA p c i j / sumTo n (rawA p c i)

def newB (m : Nat) (cls : Nat → Tags) (c : Counts) (i k : Nat) : ℚ :=
  if i ∈ cls k then rawB c i k / sumTo m (fun k => if i ∈ cls k then rawB c i k else 0) else rawB c i k

/-- `HMM::train`, hmm.cc:445-670. -/
def bwTrain (n m : Nat) (cls : Nat → Tags) (openClass : Tags) (eos : Nat) (ws : List Tags) (p : BW) : BW :=
  let c := bwCounts p openClass eos ws
  { p with A := newA n p c, B := newB m cls c }

end Verif.Tagger.Train
