import Verif.Unigram.Stream
import Mathlib.Algebra.Order.Field.Rat
/-!
# Model of the training and the scores of the unigram tagger

`apertium/unigram_tagger.cc`.  The maps are association lists: the order of their entries is not observable.
A nested map `K1 → K2 → count` is one table with pairs as keys: the code inserts an outer entry only together
with an inner one.  The counters are natural numbers (`std::size_t` without its overflow) and the scores
are exact rational numbers (`long double` without its rounding).
-/
namespace Verif.Unigram

/-- `enum UnigramTaggerModel` (unigram_tagger.h), without `Unknown`. -/
inductive Model where
  | one | two | three
  deriving DecidableEq, Repr

/-- The keys of the maps: `Model1[analysis]`; `Model2[a][lemma]` with `a` the tags of the first morpheme and the other
morphemes (a.cc:34-48); `Model3_l_t[i][lemma]`, `Model3_cl_ct[i][lemma]`, `Model3_ct_cl[lemma][i]` with `i` the
tags of a morpheme (i.cc). -/
inductive Key where
  | m1 (a : Analysis)
  | m2 (tags : List Text) (rest : List Morpheme) (lem : Text)
  | lt (tags : List Text) (lem : Text)
  | clct (tags : List Text) (lem : Text)
  | ctcl (lem : Text) (tags : List Text)
  deriving DecidableEq, Repr

abbrev Table := List (Key × Nat)

/-- `map.insert({k, 0}).first->second += c`. -/
def addKey (k : Key) (c : Nat) : Table → Table
  | [] => [(k, c)]
  | (k', v) :: t => if k' = k then (k', v + c) :: t else (k', v) :: addKey k c t

/-- `map.find(k)`. -/
def findKey (k : Key) : Table → Option Nat
  | [] => none
  | (k', v) :: t => if k' = k then some v else findKey k t

/-- `multiplyModel` (unigram_tagger.cc:338-387). -/
def multiply (m : Nat) (t : Table) : Table := t.map (fun e => (e.1, e.2 * m))

/-- The keys that model 3 adds for the morphemes after the first (unigram_tagger.cc:319-330); `prev` is the
morpheme before. -/
def keysMore (prev : Morpheme) : List Morpheme → List Key
  | [] => []
  | m :: ms => .clct prev.tags m.lemma :: .ctcl m.lemma m.tags :: keysMore m ms

/-- The keys whose counters `train_Analysis` increases (unigram_tagger.cc:299-336).  (The conversions to `a`, `i` and
`Lemma` throw for an analysis with no morphemes, or a morpheme with no lemma or no tags; `Analysis::read` does
not produce such analyses.) -/
def keys (md : Model) (a : Analysis) : List Key :=
  match md with
  | .one => [.m1 a]
  | .two =>
    match a.morphemes with
    | [] => []
    | m :: ms => [.m2 m.tags ms m.lemma]
  | .three =>
    match a.morphemes with
    | [] => []
    | m :: ms => .lt m.tags m.lemma :: keysMore m ms

/-- `train_Analysis` (unigram_tagger.cc:299-336). -/
def trainAnalysis (md : Model) (a : Analysis) (c : Nat) (t : Table) : Table :=
  (keys md a).foldl (fun t k => addKey k c t) t

/-- The body of the loop of `train` for a lexical unit (unigram_tagger.cc:397-411): the state is
`OccurrenceCoefficient` and the model. -/
def trainUnit (md : Model) (u : LexicalUnit) (s : Nat × Table) : Outcome (Nat × Table) :=
  if u.analyses = [] then .fail
  else
    let n := u.analyses.length
    let s' := if s.1 % n ≠ 0 then (s.1 * n, multiply n s.2) else s
    .ok (s'.1, u.analyses.foldl (fun t a => trainAnalysis md a (s'.1 / n) t) s'.2)

/-- The loop on the lexical units. -/
def trainUnits (md : Model) : List LexicalUnit → Nat × Table → Outcome (Nat × Table)
  | [], s => .ok s
  | u :: us, s => do
    let s' ← trainUnit md u s
    trainUnits md us s'

/-- `UnigramTagger::train` (unigram_tagger.cc:389-413): stops at the first token without a lexical unit. -/
def trainStream (md : Model) : Nat → Text → Nat × Table → Outcome (Nat × Table)
  | 0, _, _ => .diverge
  | n + 1, t, s => do
    let (tok, _, t') ← get t
    match tok.lu with
    | none => .ok s
    | some lu => do
      let s' ← trainUnit md lu s
      trainStream md n t' s'

/-- Training from scratch: `OccurrenceCoefficient` is 1 and the maps are empty (unigram_tagger.cc:31-33). -/
def train (md : Model) (corpus : Text) : Outcome (Nat × Table) :=
  trainStream md (corpus.length + 1) corpus (1, [])

/-- The sum of the counters and the number of the entries whose key satisfies `p` (an inner map). -/
def sumOf (p : Key → Bool) (t : Table) : Nat := ((t.filter (fun e => p e.1)).map (·.2)).sum
def sizeOf' (p : Key → Bool) (t : Table) : Nat := (t.filter (fun e => p e.1)).length

def isM2 (tags : List Text) (rest : List Morpheme) : Key → Bool
  | .m2 t r _ => decide (t = tags ∧ r = rest)
  | _ => false
def isLt (tags : List Text) : Key → Bool
  | .lt t _ => decide (t = tags)
  | _ => false
def isClct (tags : List Text) : Key → Bool
  | .clct t _ => decide (t = tags)
  | _ => false
def isCtcl (lem : Text) : Key → Bool
  | .ctcl l _ => decide (l = lem)
  | _ => false

/-- The three numbers computed from an inner map and a key in it (unigram_tagger.cc:113-134, 156-174, 191-223): one
more than the counter of the key, one more than the sum of the counters, and the number of entries, plus one if the
key is not among them; all 1 if there is no such inner map. -/
def tokens (k : Key) (t : Table) : Nat := 1 + (findKey k t).getD 0
def total (p : Key → Bool) (t : Table) : Nat := 1 + sumOf p t
def types (p : Key → Bool) (k : Key) (t : Table) : Nat :=
  (if (findKey k t).isSome then 0 else 1) + sizeOf' p t

/-- The loop of `model3_score` (unigram_tagger.cc:185-233): the factors of `score` and of `score_Divisor`. -/
def score3More (t : Table) (prev : Morpheme) : List Morpheme → Nat × Nat
  | [] => (1, 1)
  | m :: ms =>
    let r := score3More t m ms
    ((tokens (.clct prev.tags m.lemma) t * tokens (.ctcl m.lemma m.tags) t) * r.1,
     ((total (isClct prev.tags) t + types (isClct prev.tags) (.clct prev.tags m.lemma) t) *
      (total (isCtcl m.lemma) t + types (isCtcl m.lemma) (.ctcl m.lemma m.tags) t)) * r.2)

/-- `UnigramTagger::score` (unigram_tagger.cc:93-151) and `model3_score` (153-240).  (For an analysis without
morphemes the code throws; such an analysis is not read.) -/
def score (md : Model) (t : Table) (a : Analysis) : ℚ :=
  match md with
  | .one => ((tokens (.m1 a) t : Nat) : ℚ)
  | .two =>
    match a.morphemes with
    | [] => 0
    | m :: ms =>
      let p := isM2 m.tags ms
      let k := Key.m2 m.tags ms m.lemma
      ((tokens k t * total p t : Nat) : ℚ) / ((total p t + types p k t : Nat) : ℚ)
  | .three =>
    match a.morphemes with
    | [] => 0
    | m :: ms =>
      let k := Key.lt m.tags m.lemma
      ((tokens k t * total (isLt m.tags) t * (score3More t m ms).1 : Nat) : ℚ) /
        (((total (isLt m.tags) t + types (isLt m.tags) k t) * (score3More t m ms).2 : Nat) : ℚ)

end Verif.Unigram
