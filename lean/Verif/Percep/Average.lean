import Mathlib.Algebra.Order.Field.Rat
import Verif.Base
/-!
# Model of the feature vectors of the perceptron tagger and of their averages

`apertium/feature_vec.cc`, `apertium/feature_vec_averager.cc`.  The numbers are exact rational numbers instead of doubles,
counters do not overflow.  A map is a list of entries; the order of the entries is not observable.  The type of
the keys (`FeatureKey`, a vector of strings) is a parameter: the code only compares keys.
-/
namespace Verif.Percep

variable {κ : Type} [DecidableEq κ]

/-- `FeatureVec::Map` and the other maps from keys to numbers. -/
abbrev Vec (κ : Type) := List (κ × ℚ)

/-- `data[k] += v`: the entry is made with the value 0 if there is none. -/
def addAt (k : κ) (v : ℚ) : Vec κ → Vec κ
  | [] => [(k, 0 + v)]
  | (k', x) :: t => if k' = k then (k', x + v) :: t else (k', x) :: addAt k v t

/-- `data[k]`, whose value is 0 for a new entry. -/
def value (k : κ) : Vec κ → ℚ
  | [] => 0
  | (k', x) :: t => if k' = k then x else value k t

/-- `operator+=(const FeatureVec&)` (feature_vec.cc:46-50, 169-173, 187-193). -/
def addVec (w v : Vec κ) : Vec κ := v.foldl (fun w e => addAt e.1 e.2 w) w

/-- `operator-=(const FeatureVec&)` (feature_vec.cc:80-84, 181-185, 195-201). -/
def subVec (w v : Vec κ) : Vec κ := v.foldl (fun w e => addAt e.1 (-e.2) w) w

/-- `operator+=(const UnaryFeatureVec&)` (feature_vec.cc:40-44, 163-167). -/
def addUnary (w : Vec κ) (fs : List κ) : Vec κ := fs.foldl (fun w k => addAt k 1 w) w

/-- `operator*(const UnaryFeatureVec&)` (feature_vec.cc:86-98). -/
def dotUnary (w : Vec κ) (fs : List κ) : ℚ := fs.foldl (fun r k => r + value k w) 0

/-- `class FeatureVecAverager` (feature_vec_averager.h). -/
structure Averager (κ : Type) where
  weights : Vec κ
  tstamps : List (κ × Nat)
  totals : Vec κ
  iterations : Nat
  deriving Repr

/-- `tstamps[k] = n`. -/
def setStamp (k : κ) (n : Nat) : List (κ × Nat) → List (κ × Nat)
  | [] => [(k, n)]
  | (k', x) :: t => if k' = k then (k', n) :: t else (k', x) :: setStamp k n t

/-- `tstamps[k]`. -/
def stamp (k : κ) : List (κ × Nat) → Nat
  | [] => 0
  | (k', x) :: t => if k' = k then x else stamp k t

/-- What `updateTotal` adds (feature_vec_averager.cc:13-15). -/
def due (s : Averager κ) (k : κ) : ℚ := ((s.iterations - stamp k s.tstamps : Nat) : ℚ) * value k s.weights

/-- One round of the loop of `updateTotalsTimestamps` (feature_vec_averager.cc:17-23).  (`weights.data[fk]` makes an entry for
`fk` there; the `+=` that follows makes it anyway.) -/
def touch (s : Averager κ) (k : κ) : Averager κ :=
  { s with totals := addAt k (due s k) s.totals, weights := addAt k 0 s.weights, tstamps := setStamp k s.iterations s.tstamps }

/-- `updateTotalsTimestamps`. -/
def touchAll (s : Averager κ) (v : Vec κ) : Averager κ := v.foldl (fun s e => touch s e.1) s

/-- The public operations (feature_vec_averager.cc:8-10, 25-37). -/
inductive Op (κ : Type) where
  | add (v : Vec κ)
  | sub (v : Vec κ)
  | inc
  deriving Repr

def step (s : Averager κ) : Op κ → Averager κ
  | .add v => let s := touchAll s v; { s with weights := addVec s.weights v }
  | .sub v => let s := touchAll s v; { s with weights := subVec s.weights v }
  | .inc => { s with iterations := s.iterations + 1 }

/-- A new averager (feature_vec_averager.cc:5-6). -/
def start (w : Vec κ) : Averager κ := ⟨w, [], [], 0⟩

/-- A sequence of operations. -/
def run (s : Averager κ) (ops : List (Op κ)) : Averager κ := ops.foldl step s

/-- The loop of `average` (feature_vec_averager.cc:39-52).  An entry whose total is 0 is erased, and the iterator to it is
incremented afterwards: undefined behaviour. -/
def averageLoop (s : Averager κ) : Vec κ → Outcome (Vec κ)
  | [] => .ok []
  | (k, x) :: t =>
    let total := value k s.totals + ((s.iterations - stamp k s.tstamps : Nat) : ℚ) * x
    if total = 0 then .ub
    else (averageLoop s t).map (fun t' => (k, total / (s.iterations : ℚ)) :: t')

/-- `average`. -/
def average (s : Averager κ) : Outcome (Vec κ) := averageLoop s s.weights

end Verif.Percep
