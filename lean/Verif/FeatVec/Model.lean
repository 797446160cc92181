import Mathlib.Algebra.Order.Field.Rat
import Mathlib.Data.List.Lex
import Verif.Base
/-!
# Feature vectors of the perceptron tagger, with the order of their keys

`apertium/feature_vec.cc`.  A map is the list of its entries in the order of the keys.  The numbers are exact rational numbers instead of doubles.
-/
namespace Verif.FeatVec

/-- `FeatureKey`: strings, which are lists of bytes. -/
abbrev Key := List (List Nat)

/-- `FeatureVec::Map`. -/
abbrev Vec := List (Key × ℚ)

/-- `CompareFeatureKey` (feature_vec.cc:11-23). -/
def keyLt : Key → Key → Bool
  | x :: a, y :: b => if x < y then true else if y < x then false else keyLt a b
  | a, b => decide (a.length < b.length)

/-- `data.find(k)`: the value of the entry, if there is one (the search goes on while the keys are less). -/
def find (k : Key) : Vec → Option ℚ
  | [] => none
  | (k', x) :: r => if keyLt k' k = true then find k r else if keyLt k k' = true then none else some x

/-- `data[k] += x` (feature_vec.cc:163-185): a new entry has the value 0 first. -/
def addAt (k : Key) (x : ℚ) : Vec → Vec
  | [] => [(k, 0 + x)]
  | (k', y) :: r => if keyLt k' k = true then (k', y) :: addAt k x r else if keyLt k k' = true then (k, 0 + x) :: (k', y) :: r else (k', y + x) :: r

/-- `data.insert`: an entry that is there stays as it is. -/
def insert (k : Key) (x : ℚ) : Vec → Vec
  | [] => [(k, x)]
  | (k', y) :: r => if keyLt k' k = true then (k', y) :: insert k x r else if keyLt k k' = true then (k, x) :: (k', y) :: r else (k', y) :: r

/-- `FeatureVec::FeatureVec(UnaryFeatureVec)` (feature_vec.cc:27-40, 133-152). -/
def make (fs : List Key) : Vec := fs.foldl (fun m k => insert k 1 m) []

/-- `operator+=(const UnaryFeatureVec&)` (feature_vec.cc:42-46, 163-167, 187-193). -/
def addUnary (m : Vec) (fs : List Key) : Vec := fs.foldl (fun m k => addAt k 1 m) m

/-- `operator+=(const FeatureVec&)` (feature_vec.cc:48-52, 169-173, 187-193). -/
def add (m v : Vec) : Vec := v.foldl (fun m e => addAt e.1 e.2 m) m

/-- `operator-=(const UnaryFeatureVec&)` (feature_vec.cc:54-58, 175-179, 195-201). -/
def subUnary (m : Vec) (fs : List Key) : Vec := fs.foldl (fun m k => addAt k (-1) m) m

/-- `operator-=(const FeatureVec&)` (feature_vec.cc:85-89, 181-185, 195-201). -/
def sub (m v : Vec) : Vec := v.foldl (fun m e => addAt e.1 (-e.2) m) m

/-- `operator*(const UnaryFeatureVec&)` (feature_vec.cc:91-103). -/
def dotUnary (m : Vec) (fs : List Key) : ℚ :=
  fs.foldl (fun r k => match find k m with | some x => r + x | none => r) 0

/-- `operator*(const FeatureVec&)` (feature_vec.cc:105-125); here the keys are compared as vectors (`operator<` of the standard library: lexicographic).
`n` is at least the number of entries. -/
def dotLoop : Nat → Vec → Vec → ℚ → ℚ
  | 0, _, _, r => r
  | _, [], _, r => r
  | _, _, [], r => r
  | n + 1, (k, x) :: a, (k', y) :: b, r =>
    if k < k' then dotLoop n a ((k', y) :: b) r
    else if k' < k then dotLoop n ((k, x) :: a) b r
    else dotLoop n a b (r + x * y)

/-- See `dotLoop`. -/
def dot (a b : Vec) : ℚ := dotLoop (a.length + b.length) a b 0

/-- What the tagger says about a word when it explains what it does (perceptron_tagger.cc:74-79, apertium_perceptron_trace.cc:80-81): the entries that are printed, and the score. -/
def explain (weights : Vec) (fs : List Key) : Vec × ℚ := (make fs, dotUnary weights fs)

/-- The operations that change a vector. -/
inductive Op where
  | addU (fs : List Key) | add (v : Vec) | subU (fs : List Key) | sub (v : Vec)

/-- One of them. -/
def step (m : Vec) : Op → Vec
  | .addU fs => addUnary m fs
  | .add v => FeatVec.add m v
  | .subU fs => subUnary m fs
  | .sub v => FeatVec.sub m v

/-- A history of a vector, new or made from features. -/
def run (m : Vec) (ops : List Op) : Vec := ops.foldl step m

end Verif.FeatVec
